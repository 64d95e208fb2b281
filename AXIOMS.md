# Axioms of the theorems in MANIFEST.json (output of `#print axioms`, grouped; made by tools/genaxioms.py)

## Classical.choice, Quot.sound, propext (398 theorems)

- `Verif.Bufio.ReadRune.runes_after_error`
- `Verif.Bufio.ReadRune.runes_exact`
- `Verif.Bufio.ReadRune.unread_byte_after_rune`
- `Verif.Bufio.ReadRune.unread_restores`
- `Verif.Bufio.Runes.ranged_unique`
- `Verif.Bufio.Runes.runes_exact`
- `Verif.Bufio.Scanner.bytes_exact`
- `Verif.Bufio.Scanner.lines_exact_partial`
- `Verif.Bufio.Scanner.token_after_too_long`
- `Verif.Bufio.Scanner.too_long`
- `Verif.Bufio.Words.words_exact`
- `Verif.Bufio.Words.words_exist`
- `Verif.Bufio.Words.words_unique`
- `Verif.Bufio.WriteTo.write_to_again_partial`
- `Verif.Bufio.WriteTo.write_to_exact_partial`
- `Verif.Bufio.Writer.call_returns`
- `Verif.Bufio.Writer.copies_all`
- `Verif.Bufio.Writer.no_failure`
- `Verif.Bufio.Writer.one_call`
- `Verif.Bufio.Writer.readFrom_returns`
- `Verif.Bufio.Writer.read_from_copies_partial`
- `Verif.Bufio.Writer.source_error_sticks`
- `Verif.Bufio.Writer.stream`
- `Verif.Bufio.copy_frame`
- `Verif.Bufio.copy_frame_exact`
- `Verif.Bufio.limited_readSlice`
- `Verif.Bufio.log_lines`
- `Verif.Bufio.peek_complete`
- `Verif.Bufio.readBytes_complete`
- `Verif.Bufio.readBytes_first_line`
- `Verif.Bufio.readBytes_spec`
- `Verif.Bufio.readLine_spec`
- `Verif.Bufio.reader_is_stream_partial`
- `Verif.Bufio.reader_never_panics`
- `Verif.Checksum.checksum_collision`
- `Verif.Checksum.checksum_of_services`
- `Verif.Checksum.checksum_order_independent`
- `Verif.Checksum.checksum_separates_partial`
- `Verif.Checksum.registered_indices_distinct`
- `Verif.Client.ApiConn.api_bytes_reach_the_public_connection`
- `Verif.Client.ApiConn.api_write_count_wrong`
- `Verif.Client.ApiConn.api_write_sends_payload`
- `Verif.Client.ApiConn.empty_write_crashes_reader`
- `Verif.Client.ApiDeadline.no_early_timeout`
- `Verif.Client.Chunked.chunked_complete`
- `Verif.Client.Chunked.chunked_roundtrip`
- `Verif.Client.Chunked.hex_digits`
- `Verif.Client.Counts.counts_clamped`
- `Verif.Client.Counts.live_peers_within_limit_partial`
- `Verif.Client.Counts.loops_per_remote`
- `Verif.Client.Dialer.api_first_usable`
- `Verif.Client.Dialer.api_plain_never`
- `Verif.Client.Dialer.bad_certificate_refused`
- `Verif.Client.Dialer.bbr_ignored`
- `Verif.Client.Dialer.bbr_never_used`
- `Verif.Client.Dialer.client_never_plaintext`
- `Verif.Client.Dialer.earlier_remote_ignored`
- `Verif.Client.Dialer.every_host_contacted_partial`
- `Verif.Client.Dialer.init_exact`
- `Verif.Client.Dialer.never_plaintext`
- `Verif.Client.Dialer.quic_then_tcp`
- `Verif.Client.Dialer.tls_configured_tls_used`
- `Verif.Client.Dialer.unknown_scheme_refused_iff`
- `Verif.Client.HostRewrite.host_is_the_header`
- `Verif.Client.HostRewrite.host_limit`
- `Verif.Client.HostRewrite.host_rewritten_partial`
- `Verif.Client.HostRewrite.no_host_line_partial`
- `Verif.Client.LocalConns.closed_in_time`
- `Verif.Client.LocalConns.closed_with_tunnel_partial`
- `Verif.Client.LocalConns.lost_never_closed`
- `Verif.Client.LocalConns.number_taken_over`
- `Verif.Client.LocalConns.others_stay`
- `Verif.Client.LocalConns.reader_closes`
- `Verif.Client.PeerMsg.messages_reassembled`
- `Verif.Client.PeerMsg.oversize_refused`
- `Verif.Client.PeerMsg.process_total`
- `Verif.Client.PeerMsg.response_parses_back_partial`
- `Verif.Client.Ping.closing_tunnel_ends`
- `Verif.Client.Ping.silent_server_detected`
- `Verif.Client.Pipe.close_releases`
- `Verif.Client.Pipe.handoff_completes`
- `Verif.Client.Pipe.pipe_is_fifo`
- `Verif.Client.Pipe.write_returns_after_reads`
- `Verif.Client.Ready.missed_timeout_sleeps_on`
- `Verif.Client.Ready.other_timeout_reports_ready`
- `Verif.Client.Ready.ready_at_once`
- `Verif.Client.Ready.ready_means_some_tunnel_partial`
- `Verif.Client.Ready.ready_without_tunnel`
- `Verif.Client.Ready.returned_stays`
- `Verif.Client.Ready.timeout_can_be_missed`
- `Verif.Client.Ready.timeout_only_after_own_timer`
- `Verif.Client.Ready.tunnel_wakes_sleepers`
- `Verif.Client.StartStop.failed_start_leaves_nothing_partial`
- `Verif.Client.StartStop.shutdown_after_start`
- `Verif.Client.StartStop.started_runs_everything`
- `Verif.Config.Duration.accepted_form`
- `Verif.Config.Duration.negative_accepted`
- `Verif.Config.Duration.reads_exactly`
- `Verif.Config.Duration.round_trip`
- `Verif.Config.Duration.unit_choice`
- `Verif.Config.Duration.unit_needed`
- `Verif.Config.Duration.wraps_to_zero`
- `Verif.Config.Duration.written_denotes`
- `Verif.Config.Duration.written_inj`
- `Verif.Config.Lim.command_line_first_partial`
- `Verif.Config.Lim.effective_limits`
- `Verif.Config.Lim.no_missing_setting`
- `Verif.Config.Lim.option_ignored`
- `Verif.Config.Lim.own_hosts_partial`
- `Verif.Config.Lim.starts_iff`
- `Verif.Config.Lim.tunnel_within_limits`
- `Verif.Config.Merge.services_saved`
- `Verif.Config.OptValues.mistyped_port_is_random`
- `Verif.Config.OptValues.port_exact`
- `Verif.Config.OptValues.port_leading_zero`
- `Verif.Config.OptValues.port_too_large`
- `Verif.Config.OptValues.port_trailing`
- `Verif.Config.Services.accepted_iff`
- `Verif.Config.Services.accepted_services`
- `Verif.Config.Services.defaults_only_unset`
- `Verif.Config.Services.missing_local_panics`
- `Verif.Config.Services.options_attach_partial`
- `Verif.Config.Services.random_flag_actual`
- `Verif.Config.Services.random_flag_partial`
- `Verif.Config.Services.random_flag_wrong`
- `Verif.Config.merged_users`
- `Verif.Config.users_accepted_iff`
- `Verif.EndToEnd.connected_is_routed_partial`
- `Verif.EndToEnd.just_joined_is_routed`
- `Verif.EndToEnd.request_reaches_its_service`
- `Verif.EndToEnd.request_reaches_its_service_by_header`
- `Verif.EndToEnd.request_seen_with_local_host_partial`
- `Verif.EndToEnd.socket_reaches`
- `Verif.EndToEnd.tcp_visitor_reaches_its_service_partial`
- `Verif.EndToEnd.tls_connection_reaches_its_service_partial`
- `Verif.Handshake.handshake_limits_partial`
- `Verif.Handshake.handshake_roundtrip`
- `Verif.Handshake.handshake_sound_partial`
- `Verif.Idle.init_parks_iff_minimum_met`
- `Verif.Idle.parking_alone_keeps_minimum`
- `Verif.Idle.parking_keeps_minimum`
- `Verif.Limits.Reconnect.blocked_for_the_duration_partial`
- `Verif.Limits.Reconnect.other_ips_do_not_matter`
- `Verif.Manager.Reload.reload_complete`
- `Verif.Manager.Reload.reload_ends`
- `Verif.Manager.Reload.reload_hitless`
- `Verif.Manager.Reload.reload_hitless_groups_partial`
- `Verif.Manager.Supervise.one_process`
- `Verif.Manager.Supervise.outage_bounded`
- `Verif.Manager.Supervise.restart_possible`
- `Verif.Manager.Supervise.restarts_spaced`
- `Verif.Manager.batch_start`
- `Verif.Manager.batch_start_only`
- `Verif.Manager.collect_fails_iff`
- `Verif.Manager.collected_iff_wanted`
- `Verif.Manager.collected_once`
- `Verif.Manager.connect_args_ignored`
- `Verif.Manager.limit_255_violated`
- `Verif.Manager.roleOf_config`
- `Verif.Manager.single_file`
- `Verif.Manager.start_fails_iff`
- `Verif.Manager.started_exactly`
- `Verif.P2P.Answers.anyone_can_answer`
- `Verif.P2P.Answers.bad_candidate_reported_good`
- `Verif.P2P.Answers.number_accepted`
- `Verif.P2P.Answers.others_undisturbed`
- `Verif.P2P.Answers.oversize_blocks`
- `Verif.P2P.Answers.own_number_reported_good`
- `Verif.P2P.Answers.posts_handed_partial`
- `Verif.P2P.Answers.refused`
- `Verif.P2P.Answers.retry_is_garbled`
- `Verif.P2P.Answers.unknown_refused`
- `Verif.P2P.Answers.whole_post_handed`
- `Verif.P2P.Children.none_running_partial`
- `Verif.P2P.ForwardSetup.complete_exact`
- `Verif.P2P.ForwardSetup.reads_what_peer_writes_partial`
- `Verif.P2P.ForwardSetup.truncated_answer_noticed`
- `Verif.P2P.ForwardSetup.truncated_exact`
- `Verif.P2P.ForwardSetup.truncation_unnoticed`
- `Verif.P2P.Gather.close_never_ends`
- `Verif.P2P.Gather.never_answered`
- `Verif.P2P.Gather.not_setup_ends`
- `Verif.P2P.Native.all_but_one_left`
- `Verif.P2P.PeerLoop.open_channel_keeps_running`
- `Verif.P2P.PeerLoop.timeout_at_least_five`
- `Verif.P2P.Routes.at_prefix_reached_partial`
- `Verif.P2P.Routes.no_command_line_service_reached`
- `Verif.P2P.Routes.no_default_prefix_service_reached`
- `Verif.P2P.Routes.no_tcp_service_reached`
- `Verif.P2P.Routes.prefix_reached_partial`
- `Verif.P2P.Routes.reaches_only_services`
- `Verif.P2P.Routes.routing_wrong`
- `Verif.P2P.Table.p2p_sessions_limited`
- `Verif.Pool.api_obeys_partial`
- `Verif.Pool.api_own`
- `Verif.Pool.api_write_after_close_corrupts`
- `Verif.Pool.broadcast_obeys`
- `Verif.Pool.client_obeys`
- `Verif.Pool.client_own`
- `Verif.Pool.connections_keep_their_bytes_partial`
- `Verif.Pool.fill_after_put_corrupts`
- `Verif.Pool.host_leaks`
- `Verif.Pool.host_obeys_or_leaks`
- `Verif.Pool.host_obeys_partial`
- `Verif.Pool.host_own`
- `Verif.Pool.own_bytes`
- `Verif.Pool.peer_after_close_corrupts`
- `Verif.Pool.peer_obeys_partial`
- `Verif.Pool.resp_obeys`
- `Verif.Pool.resp_own`
- `Verif.Pool.server_obeys`
- `Verif.Pool.server_own`
- `Verif.Pool.use_after_put_leaks`
- `Verif.Ports.Range.empty_range_accepted`
- `Verif.Ports.Range.pools_are_separate`
- `Verif.Ports.Range.range_accepted_iff`
- `Verif.Ports.Range.range_bounds_partial`
- `Verif.Ports.Range.range_denotes`
- `Verif.Ports.port_choice`
- `Verif.Process.Sig.not_reaches_all`
- `Verif.Process.Sig.other_program_signalled`
- `Verif.Process.Sig.reaches_all_partial`
- `Verif.Process.Sig.reaches_only_partial`
- `Verif.Process.Sig.status_wrong`
- `Verif.Process.Sig.status_zero_means_all`
- `Verif.Quic.Accept.at_most_one_after_shutdown`
- `Verif.Quic.Accept.served_at_latest_ready_time`
- `Verif.Quic.Close.handled_prefix`
- `Verif.Quic.Deadline.future_deadline`
- `Verif.Quic.Deadline.past_deadline`
- `Verif.Quic.Deadline.ten_seconds_become_hundred`
- `Verif.Quic.Stream.closed_stream_lets_go`
- `Verif.Quic.Stream.concurrent_writes_corrupt`
- `Verif.Quic.Stream.no_completion_is_lost`
- `Verif.Quic.Stream.refused_send_blocks`
- `Verif.Quic.Stream.sequential_writes`
- `Verif.Quic.Stream.single_writer_partial`
- `Verif.Quic.Stream.success_before_sent`
- `Verif.Quic.Worker.all_get_tunnels_partial`
- `Verif.Quic.Worker.tunnel_gets_its_data_partial`
- `Verif.Registry.InitRace.never_more_than_limit`
- `Verif.Registry.InitRace.refused_at_limit_partial`
- `Verif.Registry.accepted_join_is_routed`
- `Verif.Registry.config_mode_accepts_iff`
- `Verif.Registry.configured_tunnels_within_limit`
- `Verif.Registry.configured_user_keeps_secret`
- `Verif.Registry.created_secret_holds_partial`
- `Verif.Registry.created_secret_race`
- `Verif.Registry.created_user_leaks`
- `Verif.Registry.empty_credentials_accepted`
- `Verif.Registry.first_join_is_routed_exactly`
- `Verif.Registry.health_credentials_external`
- `Verif.Registry.health_credentials_only_during_check_partial`
- `Verif.Registry.live_tunnel_had_the_secret`
- `Verif.Registry.live_was_accepted`
- `Verif.Registry.no_takeover`
- `Verif.Registry.partial_reload_loses_prefix`
- `Verif.Registry.platform_example`
- `Verif.Registry.platform_grant_ignored`
- `Verif.Registry.platform_revocation_leaks`
- `Verif.Registry.platform_routes_allowed`
- `Verif.Registry.prefixes_released_partial`
- `Verif.Registry.registry_exact_partial`
- `Verif.Registry.route_was_asked_for`
- `Verif.Registry.tcp_failure_leaks_prefix`
- `Verif.Registry.tunnels_within_limit`
- `Verif.Reload.Decide.applied_sound`
- `Verif.Reload.Decide.explicit_zero_no_reload`
- `Verif.Reload.Decide.first_reload_panics`
- `Verif.Reload.Decide.first_reload_panics_plain`
- `Verif.Reload.Decide.g0_plain`
- `Verif.Reload.Decide.no_secret_no_reload`
- `Verif.Reload.Decide.out_of_range_no_reload`
- `Verif.Reload.Decide.port_only_no_reload`
- `Verif.Reload.Decide.refused_changes_nothing`
- `Verif.Reload.Decide.reload_again_partial`
- `Verif.Reload.Decide.reload_applied_partial`
- `Verif.Reload.Decide.stopped_reports_success`
- `Verif.Reload.Decide.text_core`
- `Verif.Reload.Decide.text_of_core`
- `Verif.Reload.Decide.timeout_change_refused`
- `Verif.Reload.Decide.unchanged_reported`
- `Verif.Reload.Wait.all_answered_ends_wait`
- `Verif.Reload.Wait.answer_after_early_end_kills_tunnel`
- `Verif.Reload.Wait.answer_before_add_kills_tunnel`
- `Verif.Reload.Wait.answer_keeps_tunnels`
- `Verif.Reload.Wait.failed_reload_dooms_next`
- `Verif.Reload.Wait.lost_tunnel_dooms_reloads`
- `Verif.Reload.Wait.refused_reload_reports_success`
- `Verif.Reload.Wait.stray_error_ends_wait_early`
- `Verif.Reload.Wait.success_means_updated_partial`
- `Verif.Route.header_absent`
- `Verif.Route.header_beyond_limit_depends_on_segmentation`
- `Verif.Route.header_found`
- `Verif.Route.header_request_routed_partial`
- `Verif.Route.header_search`
- `Verif.Route.host_request_routed`
- `Verif.Route.http_route_by_header`
- `Verif.Route.http_route_by_host`
- `Verif.Route.id_from_host`
- `Verif.Route.lower_case_host_rejected`
- `Verif.Route.sni_never_panics`
- `Verif.Route.sni_split_hello_rejected`
- `Verif.Server.AcceptLoop.not_keeps_accepting`
- `Verif.Server.AcceptLoop.waits_bounded`
- `Verif.Server.Accounting.all_ended_balances`
- `Verif.Server.Accounting.counters_balance`
- `Verif.Server.Accounting.idle_round_stops`
- `Verif.Server.Announce.incomplete_message_waits`
- `Verif.Server.Announce.messages_understood`
- `Verif.Server.Answer.client_reads_the_answer`
- `Verif.Server.Answer.refused_is_told_partial`
- `Verif.Server.Answer.within_limits_not_refused`
- `Verif.Server.Dispatch.not_dropped`
- `Verif.Server.Dispatch.sorted`
- `Verif.Server.Platform.blocked_only_by_refusals_partial`
- `Verif.Server.Platform.not_blocked_only_by_refusals`
- `Verif.Server.Start.address_as_given`
- `Verif.Server.Start.api_encrypted`
- `Verif.Server.Start.api_half_certificate_in_clear`
- `Verif.Server.Start.close_leaves_only_quic`
- `Verif.Server.Start.closes_all_partial`
- `Verif.Server.Start.failed_start_serves`
- `Verif.Server.Start.failing_service_fails_start`
- `Verif.Server.Start.fails_clean_partial`
- `Verif.Server.Start.one_socket_each`
- `Verif.Server.Start.opens_as_given_partial`
- `Verif.Server.Start.quic_address_as_given`
- `Verif.Server.Start.quic_address_in_use_panics`
- `Verif.Server.Start.quic_encrypted`
- `Verif.Server.Start.quic_survives_close`
- `Verif.Server.Start.served_iff`
- `Verif.Server.Start.something_served`
- `Verif.Server.Start.starts_if_possible`
- `Verif.Server.Start.status_target`
- `Verif.Server.Start.tls_certificate`
- `Verif.Server.Start.tls_without_certificate_ignored`
- `Verif.SyncMap.linearizable`
- `Verif.SyncMap.map_is_a_map`
- `Verif.SyncMap.same_value`
- `Verif.SyncMap.single_creator`
- `Verif.TaskId.concurrent_wrap_gives_equal_ids`
- `Verif.TaskId.id_zero_reachable`
- `Verif.TaskId.task_ids_are_never_signals_partial`
- `Verif.Tunnel.Conversation.gt_comes_to_rest`
- `Verif.Tunnel.Stall.long_wait_ends_tunnel`
- `Verif.Tunnel.Torn.frames_stay_whole_partial`
- `Verif.Tunnel.client_demultiplexes`
- `Verif.Tunnel.every_local_connection_has_one_owner`
- `Verif.Tunnel.honest_tasks_never_panic`
- `Verif.Tunnel.p2p_bytes_reach_the_session`
- `Verif.Tunnel.p2p_demultiplexes`
- `Verif.Tunnel.public_bytes_reach_the_service`
- `Verif.Tunnel.server_demultiplexes`
- `Verif.Tunnel.server_frames_carry_the_stream`
- `Verif.Tunnel.service_bytes_reach_the_public_connection`
- `Verif.Tunnel.signals_do_not_disturb_partial`
- `Verif.Util.LogAge.foreign_file_deleted`
- `Verif.Util.LogAge.foreign_file_deleted_by_count`
- `Verif.Util.LogAge.log_is_what_was_written`
- `Verif.Util.LogAge.old_logs_are_removed`
- `Verif.Util.LogAge.other_files_untouched_partial`
- `Verif.Util.LogAge.plain_file_replaced`
- `Verif.Util.LogAge.settle_is_unlinking`
- `Verif.Util.LogAge.week_of_logs_kept`
- `Verif.Util.LogCrash.full_file_is_left`
- `Verif.Util.LogCrash.lines_lost_although_a_file_is_open`
- `Verif.Util.LogCrash.link_leads_to_the_line`
- `Verif.Util.LogCrash.success_is_one_line_partial`
- `Verif.Util.Rand.clients_same_secret`
- `Verif.Util.Rand.example_first_start`
- `Verif.Util.Rand.first_start_open`
- `Verif.Util.Rand.guessable`
- `Verif.Util.Rand.letter_inj`
- `Verif.Util.Rand.port_range`
- `Verif.Util.Rand.same_second`
- `Verif.Util.Rand.uniform`
- `Verif.Util.Rand.well_formed_partial`
- `Verif.Util.RotateLogs.live_log_kept_partial`
- `Verif.Util.RotateLogs.purge_keeps_at_most_count`
- `Verif.Util.RotateLogs.restart_deletes_live_log`
- `Verif.Util.RotateLogs.tenth_rotation_deletes_live_log`
- `Verif.Util.RotateLogs.write_total`
- `Verif.Util.Stdio.go_reads_messages_partial`
- `Verif.Util.Stdio.split_length_corrupts`
- `Verif.Web.Access.profile_only_if_enabled`
- `Verif.Web.ConnFilter.external_exact_partial`
- `Verif.Web.ConnFilter.ipv6_tunnel_listed_external`
- `Verif.Web.ConnFilter.lists_partition`
- `Verif.Web.ConnFilter.selected_sound_partial`
- `Verif.Web.Link.busy_port_wrong_link`
- `Verif.Web.Link.busy_v6_never`
- `Verif.Web.Link.certificate_dropped`
- `Verif.Web.Link.link_leads_partial`
- `Verif.Web.Link.no_config_no_tls`
- `Verif.Web.Link.port_zero_wrong`
- `Verif.Web.Link.service_name_no_link`
- `Verif.Web.Link.tls_iff_configured_partial`

## Quot.sound, propext (336 theorems)

- `Verif.Bufio.Scanner.empty_tokens`
- `Verif.Bufio.WriteTo.short_write_reported`
- `Verif.Bufio.WriteTo.write_to_in_order`
- `Verif.Bufio.errors_reported`
- `Verif.Bufio.limited_read`
- `Verif.Bufio.unread_after_read`
- `Verif.Client.ApiConn.resp_and_close_partial`
- `Verif.Client.ApiConn.resp_truncated`
- `Verif.Client.ApiDeadline.abort_after_close_never_returns`
- `Verif.Client.ApiDeadline.abort_waits_for_read`
- `Verif.Client.ApiDeadline.deadline_kept_partial`
- `Verif.Client.ApiDeadline.expired_timer_leaks`
- `Verif.Client.ApiDeadline.later_reads_not_stopped`
- `Verif.Client.ApiDeadline.one_timeout_per_deadline`
- `Verif.Client.ApiDeadline.past_deadline_has_no_effect`
- `Verif.Client.Chunked.eof_means_well_formed`
- `Verif.Client.Chunked.parse_hex_exact`
- `Verif.Client.Chunked.size_line_lenient`
- `Verif.Client.Counts.counts_nearest`
- `Verif.Client.Counts.peer_table_within_limit`
- `Verif.Client.Dialer.default_port`
- `Verif.Client.Dialer.forward_ends_client_iff`
- `Verif.Client.Dialer.given_port`
- `Verif.Client.Dialer.given_port_v6`
- `Verif.Client.Dialer.ipv6_without_port`
- `Verif.Client.LocalConns.expires_iff`
- `Verif.Client.LocalConns.late_stays_open`
- `Verif.Client.LocalConns.lost_pile_up`
- `Verif.Client.LocalConns.shared_number_stays_open`
- `Verif.Client.Loop.panic_blocks_shutdown`
- `Verif.Client.Loop.panic_stops_all_attempts`
- `Verif.Client.Loop.shutdown_tells_all_partial`
- `Verif.Client.PeerMsg.handled_are_the_messages`
- `Verif.Client.PeerMsg.response_framed_partial`
- `Verif.Client.PeerMsg.response_truncated`
- `Verif.Client.Ping.loop_ends_only`
- `Verif.Client.Ping.parked_at_the_sixth`
- `Verif.Client.Ping.parked_only_when_quiet`
- `Verif.Client.Ping.prompt_server_never_dead`
- `Verif.Client.Ping.responsive_server_never_dead`
- `Verif.Client.Ping.unsolicited_pings_postpone_detection`
- `Verif.Client.Pipe.close_errors`
- `Verif.Client.Pipe.closed_calls_return`
- `Verif.Client.Pipe.eof_only_after_close`
- `Verif.Client.StartStop.asking_ends`
- `Verif.Client.StartStop.late_loops_never_connect`
- `Verif.Client.StartStop.one_call_does_the_work`
- `Verif.Client.StartStop.success_means_started`
- `Verif.Config.Lim.host_claimed`
- `Verif.Config.Lim.not_command_line_first`
- `Verif.Config.Merge.crash_old_or_new_partial`
- `Verif.Config.Merge.posted_reads_back_partial`
- `Verif.Config.Merge.saved_elsewhere`
- `Verif.Config.Merge.saved_reads_back`
- `Verif.Config.Merge.saved_restarts`
- `Verif.Config.OptValues.port_no_number`
- `Verif.Config.OptValues.word_whole_iff_partial`
- `Verif.Config.OptionTable.client_options_by_name`
- `Verif.Config.OptionTable.client_saved_by_name_partial`
- `Verif.Config.OptionTable.credentials_not_posted`
- `Verif.Config.OptionTable.options_by_name_no_file`
- `Verif.Config.OptionTable.schemas_ok`
- `Verif.Config.OptionTable.server_options_by_name`
- `Verif.Config.OptionTable.server_saved_by_name_partial`
- `Verif.Config.OptionTable.server_users_not_saved`
- `Verif.Config.Services.command_line_refused`
- `Verif.Config.empty_user_entry_panics`
- `Verif.Config.users_no_panic`
- `Verif.Handshake.fitting_handshake_whole_partial`
- `Verif.Handshake.id_length_never_refused`
- `Verif.Handshake.id_secret_parse_partial`
- `Verif.Handshake.options_unbounded_at_65535`
- `Verif.Handshake.oversized_handshake_truncated`
- `Verif.Handshake.parseOptions_terminates`
- `Verif.Idle.close_releases_sleepers_partial`
- `Verif.Idle.close_wakeup_is_lost`
- `Verif.Idle.idle_wakeup_is_lost`
- `Verif.Idle.lock_is_released`
- `Verif.Idle.waiter_decisions`
- `Verif.Idle.woken_waiter_returns`
- `Verif.Limits.Reconnect.few_failures_never_refused`
- `Verif.Limits.Reconnect.late_failure_shortens_block`
- `Verif.Limits.Reconnect.many_failures_refused`
- `Verif.Limits.Token.key_accepted_iff`
- `Verif.Limits.Token.ungenerated_key_rejected`
- `Verif.Limits.speed_limit_bypassed`
- `Verif.Limits.speed_limit_conserves_own_buffers_partial`
- `Verif.Limits.speed_limit_conserves_partial`
- `Verif.Manager.Reload.crash_interrupts`
- `Verif.Manager.Reload.reconnect_interrupts`
- `Verif.Manager.Reload.two_groups_interrupt`
- `Verif.Manager.Signals.acted_bound`
- `Verif.Manager.Signals.not_only_signals`
- `Verif.Manager.Signals.signal_carried_out`
- `Verif.Manager.Signals.signal_lost_while_starting`
- `Verif.Manager.Signals.stop_after_reload_lost`
- `Verif.Manager.Signals.stop_stops_partial`
- `Verif.Manager.Signals.touching_is_a_signal`
- `Verif.P2P.Answers.refused_answer_stays`
- `Verif.P2P.Callback.close_reaches_service`
- `Verif.P2P.Callback.delivered_prefix`
- `Verif.P2P.Callback.failed_dial_stops_all`
- `Verif.P2P.Callback.thread_goes_on_partial`
- `Verif.P2P.Children.child_ends_partial`
- `Verif.P2P.Children.closed_early`
- `Verif.P2P.Children.first_ends`
- `Verif.P2P.Children.killed_after_closing`
- `Verif.P2P.Children.kills_once`
- `Verif.P2P.Children.kills_own`
- `Verif.P2P.Children.never_killed_later`
- `Verif.P2P.Children.no_limit`
- `Verif.P2P.Connect.configuration_checked`
- `Verif.P2P.Connect.every_line_sent`
- `Verif.P2P.Connect.protocol_heard`
- `Verif.P2P.Connect.refused_reported_forwarded`
- `Verif.P2P.Connect.reports_answers_partial`
- `Verif.P2P.Connect.shutdown_message_forwarded`
- `Verif.P2P.Forward.app_end_passed_on`
- `Verif.P2P.Forward.next_write_ends`
- `Verif.P2P.Forward.open_complete_partial`
- `Verif.P2P.Forward.prefixes`
- `Verif.P2P.Forward.service_end_complete`
- `Verif.P2P.Forward.settles`
- `Verif.P2P.ForwardSetup.accepting_iff`
- `Verif.P2P.ForwardSetup.one_failure_stops_forwarding`
- `Verif.P2P.ForwardSetup.pick_in_range`
- `Verif.P2P.ForwardSetup.round_robin_partial`
- `Verif.P2P.Gather.runs_bounded`
- `Verif.P2P.Gather.setup_ends_partial`
- `Verif.P2P.Gather.told_in_order`
- `Verif.P2P.Native.answer_before_offer`
- `Verif.P2P.Native.get_offer_makes_another`
- `Verif.P2P.Native.nothing_left_partial`
- `Verif.P2P.Native.one_object`
- `Verif.P2P.Native.refused_object_is_fatal`
- `Verif.P2P.Native.released_after_closing`
- `Verif.P2P.Native.released_once`
- `Verif.P2P.Native.released_was_made`
- `Verif.P2P.Native.second_report_is_fatal`
- `Verif.P2P.Native.sound_partial`
- `Verif.P2P.Native.use_after_release`
- `Verif.P2P.PeerLoop.idle_only_when_quiet`
- `Verif.P2P.PeerLoop.messages_handled_partial`
- `Verif.P2P.PeerLoop.quiet_process_ends`
- `Verif.P2P.SendWait.close_ends_sender`
- `Verif.P2P.SendWait.close_while_waiting`
- `Verif.P2P.SendWait.drain_wakes`
- `Verif.P2P.SendWait.fits_no_wait`
- `Verif.P2P.SendWait.later_callback_wakes`
- `Verif.P2P.SendWait.never_overfull`
- `Verif.P2P.SendWait.stuck_iff`
- `Verif.P2P.SendWait.wakeup_lost_before_announcement`
- `Verif.P2P.SendWait.wakeup_lost_before_sleep`
- `Verif.P2P.Session.answer_relayed_partial`
- `Verif.P2P.Session.offer_answer_lost`
- `Verif.P2P.Table.deadlock_is_permanent`
- `Verif.P2P.Table.ended_session_frees_its_place`
- `Verif.P2P.Table.late_frame_blocks`
- `Verif.P2P.Table.limit_exceeded_by_two_servers`
- `Verif.P2P.Table.p2p_crosstalk`
- `Verif.P2P.Table.p2p_deadlock`
- `Verif.P2P.Table.p2p_isolated_partial`
- `Verif.P2P.Table.p2p_request_refused`
- `Verif.P2P.Table.p2p_request_served`
- `Verif.P2P.Table.twoServers_perTunnel`
- `Verif.P2P.ThreadIdle.left_session_closed`
- `Verif.P2P.ThreadIdle.no_open_channel_cut_partial`
- `Verif.Ports.handover_race`
- `Verif.Ports.no_reopen_failure_if_granted`
- `Verif.Ports.open_ports_are_allowed`
- `Verif.Ports.others_keep_my_port`
- `Verif.Ports.port_accounting_partial`
- `Verif.Ports.ports_returned_partial`
- `Verif.Ports.reload_keeps_old_port`
- `Verif.Ports.requested_ports_opened_partial`
- `Verif.Ports.retry_opens_old_port`
- `Verif.Ports.stale_listener_double_open`
- `Verif.Process.Lifecycle.answer_once_after_shutdown`
- `Verif.Process.Lifecycle.answers_the_request`
- `Verif.Process.Lifecycle.lives_until_deadline`
- `Verif.Process.Lifecycle.ready_once_after_start`
- `Verif.Process.Lifecycle.reload_blocks_requests`
- `Verif.Process.Lifecycle.started_iff`
- `Verif.Process.Lifecycle.stops_within_grace`
- `Verif.Process.Lifecycle.web_without_file_never_ready`
- `Verif.Process.Sig.first_failure_ends`
- `Verif.Process.Sig.not_itself`
- `Verif.Process.Sig.status_zero_when_fine`
- `Verif.Process.Sig.targets_exact`
- `Verif.Quic.Accept.all_served_if_all_open_partial`
- `Verif.Quic.Accept.delay_bounded`
- `Verif.Quic.Accept.idle_clients_are_skipped`
- `Verif.Quic.Accept.not_before_ready`
- `Verif.Quic.Accept.one_client_ends_service`
- `Verif.Quic.Accept.tcp_handled_at_once`
- `Verif.Quic.Close.closed_is_closed_partial`
- `Verif.Quic.Deadline.cleared_deadline_partial`
- `Verif.Quic.Deadline.deadline_now_is_never`
- `Verif.Quic.Deadline.future_deadline_not_kept`
- `Verif.Quic.Stream.everything_can_be_read`
- `Verif.Quic.Stream.no_use_after_free_if_reader_closes`
- `Verif.Quic.Stream.read_account`
- `Verif.Quic.Stream.read_account_open`
- `Verif.Quic.Stream.read_makes_progress`
- `Verif.Quic.Stream.read_prefix_partial`
- `Verif.Quic.Worker.extra_streams_stop_worker`
- `Verif.Quic.Worker.silent_client_stops_worker`
- `Verif.Quic.Worker.three_clients_stop_the_server`
- `Verif.Registry.least_loaded_tunnel`
- `Verif.Registry.refused_leaves_registry`
- `Verif.Reload.Route.early_visitor_crashes_tunnel`
- `Verif.Reload.Route.reload_new_index_in_old_list`
- `Verif.Reload.Route.reload_old_index_in_new_list`
- `Verif.Reload.Route.reload_two_tunnels`
- `Verif.Reload.Route.reload_undone_by_late_connection`
- `Verif.Reload.Route.visitors_reach_their_service_partial`
- `Verif.Reload.Route.without_reload_never_wrong`
- `Verif.Route.sni_correct_partial`
- `Verif.Route.trimSpace_eq`
- `Verif.Route.trimSpace_spec`
- `Verif.Server.AcceptLoop.deaf_after_emfile`
- `Verif.Server.AcceptLoop.nothing_after_shutdown`
- `Verif.Server.Accounting.counters_balance_mod`
- `Verif.Server.Accounting.early_stop_is_idle_partial`
- `Verif.Server.Accounting.gives_up_after_forty`
- `Verif.Server.Accounting.shutdown_wait_bounded`
- `Verif.Server.Announce.program_knows_its_ports_partial`
- `Verif.Server.Announce.registering_program_is_told`
- `Verif.Server.Announce.restarted_program_is_not_told`
- `Verif.Server.Answer.ready_iff_tunnel`
- `Verif.Server.Answer.refusals_have_true_reasons`
- `Verif.Server.Answer.unknown_option_is_not_told`
- `Verif.Server.Dispatch.back_soon_partial`
- `Verif.Server.Dispatch.echo_faithful_partial`
- `Verif.Server.Dispatch.loss_never_measured`
- `Verif.Server.Dispatch.not_back_soon`
- `Verif.Server.Dispatch.served_right`
- `Verif.Server.Dispatch.tcp_served_iff`
- `Verif.Server.Dispatch.turned_away`
- `Verif.Server.Halt.close_ends_partial`
- `Verif.Server.Halt.late_clients_not_told`
- `Verif.Server.Halt.shutdown_ends_partial`
- `Verif.Server.Halt.told_before_closed`
- `Verif.Server.Platform.accepted_iff`
- `Verif.Server.Platform.asked_exactly`
- `Verif.Server.Platform.escaped_token_lost`
- `Verif.Server.Platform.known_not_refused_partial`
- `Verif.Server.Platform.not_known_not_refused`
- `Verif.Server.Platform.null_tokens_refused`
- `Verif.Server.Platform.outage_blocks`
- `Verif.Server.Platform.own_test_refused`
- `Verif.Server.Platform.platform_decides_partial`
- `Verif.Server.Platform.prefixes_from_answer`
- `Verif.Server.Platform.release_frees`
- `Verif.Server.Status.credentials_only_meanwhile`
- `Verif.Server.Status.first_free_draw`
- `Verif.Server.Status.ok_is_recent`
- `Verif.Server.Status.round_trips_are_rare`
- `Verif.Server.Status.ten_draws`
- `Verif.Server.Status.trips_are_spaced`
- `Verif.Server.Visitors.cut_only_for_a_reason_partial`
- `Verif.Server.Visitors.expires_iff`
- `Verif.Server.Visitors.stranded_at_most_timeout_partial`
- `Verif.Server.Visitors.stranded_for_ever`
- `Verif.Server.Visitors.visitors_are_cut_partial`
- `Verif.TaskId.ids_distinct_before_wrap_partial`
- `Verif.TaskId.ids_reused_after_cycle`
- `Verif.TaskId.nearby_connections_have_distinct_ids_partial`
- `Verif.TaskId.sequential_ids`
- `Verif.Tunnel.Conversation.closing_after_the_end_is_safe_partial`
- `Verif.Tunnel.Conversation.conditions_at_rest`
- `Verif.Tunnel.Conversation.each_side_gets_a_beginning`
- `Verif.Tunnel.Conversation.early_end_loses_the_answer`
- `Verif.Tunnel.Conversation.end_of_request_ends_the_answer`
- `Verif.Tunnel.Conversation.ended_service_leaves_nothing`
- `Verif.Tunnel.Conversation.ended_visitor_leaves_nothing`
- `Verif.Tunnel.Conversation.half_closed_service_gets_no_more`
- `Verif.Tunnel.Conversation.half_closed_visitor_gets_no_answer`
- `Verif.Tunnel.Conversation.unreachable_example`
- `Verif.Tunnel.Conversation.unreachable_service_ends_by_timeout_partial`
- `Verif.Tunnel.Conversation.unreachable_service_is_not_reported`
- `Verif.Tunnel.Conversation.whole_answer`
- `Verif.Tunnel.Conversation.whole_request`
- `Verif.Tunnel.Stall.all_delivered_when_quiet`
- `Verif.Tunnel.Stall.blocked_iff`
- `Verif.Tunnel.Stall.delay_bounded_partial`
- `Verif.Tunnel.Stall.delay_repeats`
- `Verif.Tunnel.Stall.everybody_waits`
- `Verif.Tunnel.Stall.got_beginnings_of_own_frames`
- `Verif.Tunnel.Stall.got_sublist_of_stream`
- `Verif.Tunnel.Stall.prefix_if_never_late`
- `Verif.Tunnel.Stall.reader_comes_to_rest`
- `Verif.Tunnel.Torn.blocked_only_so_long_partial`
- `Verif.Tunnel.Torn.every_write_accounted`
- `Verif.Tunnel.Torn.nothing_after_failure`
- `Verif.Tunnel.Torn.stalled_for_ever`
- `Verif.Tunnel.Torn.torn_frame_delivered`
- `Verif.Tunnel.client_tunnel_end`
- `Verif.Tunnel.closing_ping_is_third`
- `Verif.Tunnel.idle_closing_tunnel_ends`
- `Verif.Tunnel.server_reader_never_panics_partial`
- `Verif.Tunnel.unknown_service_ends_tunnel`
- `Verif.Util.Backoff.accept_all_until_fatal`
- `Verif.Util.Backoff.backoff_delay`
- `Verif.Util.Backoff.backoff_doubles_partial`
- `Verif.Util.BlockValue.get_after_set_does_not_block`
- `Verif.Util.BlockValue.get_returns_latest`
- `Verif.Util.BlockValue.getters_released`
- `Verif.Util.BlockValue.sets_never_panic_partial`
- `Verif.Util.CloseOnce.local_close_is_not_remote`
- `Verif.Util.CloseOnce.reason_is_the_first`
- `Verif.Util.CloseOnce.remote_close_is_remote`
- `Verif.Util.CloseOnce.transport_closed_once`
- `Verif.Util.LogCrash.closed_same_day`
- `Verif.Util.LogCrash.failure_is_a_beginning`
- `Verif.Util.LogCrash.files_only_grow`
- `Verif.Util.LogCrash.gen_of_cur`
- `Verif.Util.LogCrash.generations_go_up`
- `Verif.Util.LogCrash.link_kept_on_failure`
- `Verif.Util.LogCrash.link_stuck_after_a_crash`
- `Verif.Util.LogCrash.locks_left_by_crashes_only`
- `Verif.Util.LogCrash.logging_resumes`
- `Verif.Util.LogCrash.restart_goes_back`
- `Verif.Util.RotateLogs.greatest_not_unlinked`
- `Verif.Util.RotateLogs.rotation_opens_fresh`
- `Verif.Util.Stdio.hex_reads_messages`
- `Verif.Util.Stdio.long_message_refused`
- `Verif.Util.Stdio.oversized_rejected`
- `Verif.Util.Stdio.rust_reads_messages`
- `Verif.Web.Access.authorised_is_served`
- `Verif.Web.Access.link_works`
- `Verif.Web.Access.protected_needs_authorised_token`
- `Verif.Web.Access.public_token`
- `Verif.Web.Access.reload_pprof`
- `Verif.Web.Access.token_lasts`
- `Verif.Web.Listen.retry_ends`

## none (31 theorems)

- `Verif.Bufio.ReadRune.sized_ranged`
- `Verif.Bufio.Scanner.exact_fit_depends_on_reader`
- `Verif.Bufio.Writer.flush_empties`
- `Verif.Bufio.discard_loses_error`
- `Verif.Client.Chunked.empty_length_is_zero`
- `Verif.Client.Counts.peer_limit_exceeded`
- `Verif.Client.HostRewrite.end_of_request_withheld`
- `Verif.Client.HostRewrite.lower_case_host_not_rewritten`
- `Verif.Client.Ping.traffic_does_not_reset`
- `Verif.Config.Merge.crash_leaves_prefix`
- `Verif.Config.Merge.server_refuses_bad_file`
- `Verif.Config.Merge.user_limits_lost`
- `Verif.Config.Merge.user_limits_saved_partial`
- `Verif.Config.OptionTable.client_names`
- `Verif.Config.OptionTable.server_names`
- `Verif.Manager.Signals.no_manager_ever_reported`
- `Verif.P2P.Callback.failed_dial_reachable`
- `Verif.P2P.Forward.service_end_reachable`
- `Verif.P2P.ForwardSetup.shared_when_concurrent`
- `Verif.P2P.ThreadIdle.idle_timer_cuts_open_channel`
- `Verif.P2P.ThreadIdle.unused_session_closed`
- `Verif.Registry.InitRace.dropped_silently`
- `Verif.Registry.InitRace.refused_below_limit`
- `Verif.Registry.InitRace.sequential_example`
- `Verif.Server.Accounting.late_tunnel_ends_wait`
- `Verif.Server.Accounting.shutdown_never_stuck`
- `Verif.Server.Status.any_response_is_success`
- `Verif.Tunnel.Stall.hole_in_stream`
- `Verif.Tunnel.Stall.no_timeout_blocks_forever`
- `Verif.Util.BlockValue.concurrent_sets_panic`
- `Verif.Web.Access.start_ready`

## propext (158 theorems)

- `Verif.Bufio.ReadRune.unread_after_discard_rune`
- `Verif.Bufio.ReadRune.unread_refused_partial`
- `Verif.Bufio.Runes.ranged_text`
- `Verif.Bufio.Scanner.final_token`
- `Verif.Bufio.Scanner.no_progress_reported`
- `Verif.Bufio.WriteTo.error_with_data_lost`
- `Verif.Bufio.WriteTo.limited_error_lost`
- `Verif.Bufio.Writer.direct_copies`
- `Verif.Bufio.Writer.example_run`
- `Verif.Bufio.read_nothing`
- `Verif.Bufio.unread_after_discard`
- `Verif.Client.ApiConn.api_close_sends_close`
- `Verif.Client.ApiConn.api_write_succeeds`
- `Verif.Client.ApiConn.resp_empty`
- `Verif.Client.ApiDeadline.clear_has_no_effect`
- `Verif.Client.ApiDeadline.extended_deadline_not_kept`
- `Verif.Client.ApiDeadline.stale_timeout`
- `Verif.Client.Dialer.attempt_ok_iff`
- `Verif.Client.Dialer.check_as_configured`
- `Verif.Client.Dialer.tunnel_survives`
- `Verif.Client.LocalConns.mix`
- `Verif.Client.LocalConns.speaking_ends`
- `Verif.Client.Loop.attempt_after_shutdown`
- `Verif.Client.Loop.dial_ok_iff`
- `Verif.Client.Loop.dial_panics_iff`
- `Verif.Client.Loop.every_loop_can_try_again_partial`
- `Verif.Client.Loop.late_tunnel_not_told`
- `Verif.Client.Loop.lock_is_not_abandoned`
- `Verif.Client.Loop.loops_end_after_shutdown`
- `Verif.Client.Loop.one_dial_holds_up_all`
- `Verif.Client.Loop.open_client_has_all_loops`
- `Verif.Client.Loop.tls_and_tcp_never_panic`
- `Verif.Client.Loop.tls_tcp_client_keeps_trying`
- `Verif.Client.PeerMsg.failed_message_stays`
- `Verif.Client.StartStop.early_shutdown_does_not_wait`
- `Verif.Client.StartStop.early_shutdown_kills_the_process`
- `Verif.Client.StartStop.early_shutdown_leaves_the_listener`
- `Verif.Client.StartStop.failed_start_leaves_the_client_running`
- `Verif.Client.StartStop.second_shutdown_does_not_wait`
- `Verif.Config.Duration.json_needs_text`
- `Verif.Config.Duration.refused_keeps`
- `Verif.Config.Merge.client_ignores_bad_file`
- `Verif.Config.Merge.client_start_eq`
- `Verif.Config.Merge.crash_loses_config`
- `Verif.Config.Merge.default_last`
- `Verif.Config.Merge.explicit_zero_lost`
- `Verif.Config.Merge.file_next`
- `Verif.Config.Merge.flag_wins_partial`
- `Verif.Config.Merge.unnamed_not_saved`
- `Verif.Config.OptValues.leading_space_dropped`
- `Verif.Config.OptValues.line_end_empties`
- `Verif.Config.OptValues.nothing_refused`
- `Verif.Config.OptValues.port_in_range`
- `Verif.Config.OptValues.secrets_confused`
- `Verif.Config.OptValues.switch_exact`
- `Verif.Config.OptValues.switch_other`
- `Verif.Config.OptValues.word_cut`
- `Verif.Config.OptValues.word_exact`
- `Verif.Handshake.handshake_needs_magic`
- `Verif.Handshake.id_length_limit_violated`
- `Verif.Manager.Signals.other_files_ignored`
- `Verif.Manager.Signals.pause_never_matters`
- `Verif.Manager.Signals.success_without_listener`
- `Verif.Manager.Supervise.crash_while_stopping_restarts`
- `Verif.Manager.Supervise.killed`
- `Verif.Manager.Supervise.no_resurrection`
- `Verif.Manager.Supervise.pause_after_crash`
- `Verif.Manager.Supervise.reconnect_failure_unsupervised`
- `Verif.P2P.Answers.posts_at_once_mix`
- `Verif.P2P.Callback.shut_only_if_closed`
- `Verif.P2P.Connect.cannot_acknowledge`
- `Verif.P2P.Connect.lines_complete`
- `Verif.P2P.Connect.manager_hears_nothing`
- `Verif.P2P.Connect.stop_takes_two_minutes`
- `Verif.P2P.Connect.without_configuration_nothing_sent`
- `Verif.P2P.Forward.half_close_loses_answer`
- `Verif.P2P.Forward.service_end_not_passed_on`
- `Verif.P2P.ForwardSetup.offer_framed`
- `Verif.P2P.Native.one_left`
- `Verif.P2P.Native.two_get_offers_fatal`
- `Verif.P2P.PeerLoop.quiet_example`
- `Verif.P2P.PeerLoop.timeout_loses_message`
- `Verif.P2P.SendWait.again_hands`
- `Verif.P2P.SendWait.close_while_waiting_reachable`
- `Verif.P2P.SendWait.closed_empty`
- `Verif.P2P.SendWait.in_order_partial`
- `Verif.P2P.Session.child_answers`
- `Verif.P2P.Session.offer_never_answered`
- `Verif.P2P.Session.requested_offer_empty`
- `Verif.Pool.copy_obeys`
- `Verif.Process.Lifecycle.client_gives_up`
- `Verif.Process.Lifecycle.hup_stops_server_silently`
- `Verif.Process.Lifecycle.ready_after_done`
- `Verif.Process.Lifecycle.reload_reached`
- `Verif.Process.Lifecycle.request_kept`
- `Verif.Process.Lifecycle.request_taken_partial`
- `Verif.Quic.Accept.one_after_shutdown`
- `Verif.Quic.Accept.quic_handled`
- `Verif.Quic.Accept.slow_client_delays_all`
- `Verif.Quic.Accept.tcp_all_handled`
- `Verif.Quic.Close.quic_never_released`
- `Verif.Quic.Close.quic_reader_ends`
- `Verif.Quic.Close.quic_reads_on`
- `Verif.Quic.Stream.data_lost_at_close`
- `Verif.Quic.Stream.eof_before_data`
- `Verif.Quic.Stream.eof_only_if_closed`
- `Verif.Quic.Stream.half_close_not_eof`
- `Verif.Quic.Stream.no_use_after_free_without_close`
- `Verif.Quic.Stream.use_after_free`
- `Verif.Quic.Stream.use_after_free_read_after_close`
- `Verif.Quic.Worker.ended_connection_does_not_block`
- `Verif.Server.AcceptLoop.delay_never_reset`
- `Verif.Server.AcceptLoop.handled_prefix`
- `Verif.Server.AcceptLoop.keeps_accepting_partial`
- `Verif.Server.AcceptLoop.waits_ignore_successes`
- `Verif.Server.Announce.service_is_named`
- `Verif.Server.Answer.locked_out_is_not_told`
- `Verif.Server.Answer.lost_races_are_not_told`
- `Verif.Server.Answer.tunnel_needs_magic`
- `Verif.Server.Dispatch.echo_all`
- `Verif.Server.Dispatch.served_at_once`
- `Verif.Server.Dispatch.visitors_are_visitors`
- `Verif.Server.Halt.no_timeout_never_ends`
- `Verif.Server.Status.cached_answer_not_empty`
- `Verif.Server.Status.failure_is_real`
- `Verif.Server.Visitors.late_visitor_stays`
- `Verif.Server.Visitors.leaving_ends_it`
- `Verif.Server.Visitors.reload_cuts_visitors`
- `Verif.Server.Visitors.sending_ends_it`
- `Verif.Server.Visitors.visitor_of_refused_stays`
- `Verif.Tunnel.empty_orphan_frame_panics`
- `Verif.Tunnel.reconnect_desynchronises`
- `Verif.Tunnel.server_tunnel_end`
- `Verif.Util.Backoff.delay_not_reset`
- `Verif.Util.RotateLogs.lost_log_never_rotates`
- `Verif.Web.Access.change_has_no_effect_on_logins`
- `Verif.Web.Access.failure_changes_nothing`
- `Verif.Web.Access.kill_always_fails`
- `Verif.Web.Access.login_accepted_partial`
- `Verif.Web.Access.no_effect_without_token`
- `Verif.Web.Access.no_link_if_configured`
- `Verif.Web.Access.old_token_survives_change`
- `Verif.Web.Access.pprof_needs_no_token`
- `Verif.Web.Access.profile_if_enabled`
- `Verif.Web.Access.reload_breaks_logins`
- `Verif.Web.Access.save_iff`
- `Verif.Web.Access.save_keeps_file_credentials`
- `Verif.Web.Access.saved_credentials_survive`
- `Verif.Web.Access.token_renews_itself`
- `Verif.Web.Access.token_reveals_password`
- `Verif.Web.Listen.as_configured_partial`
- `Verif.Web.Listen.bad_certificate_refused`
- `Verif.Web.Listen.host_as_configured`
- `Verif.Web.Listen.link_leads_elsewhere`
- `Verif.Web.Listen.missing_file_refused`
- `Verif.Web.Listen.no_args_never_tls`
- `Verif.Web.Listen.no_args_tls_ignored`
- `Verif.Web.Listen.v6_not_served`
