
H="Verif.Handshake."
c("C01","proved","Verif.Handshake.handshake_roundtrip","what the client writes is what the server registers")
c("C02","partial","Verif.Handshake.handshake_sound_partial Verif.Handshake.handshake_needs_magic Verif.Handshake.parseOptions_terminates Verif.Handshake.handshake_limits_partial Verif.Handshake.options_unbounded_at_65535","the limits hold for every configured maximum below 65535; at 65535 the uint16 counter wraps and the bound is proved false")
c("C03","partial","Verif.Handshake.id_length_never_refused Verif.Handshake.id_length_limit_violated Verif.Handshake.id_secret_parse_partial","the code does not enforce the maximum (negation proved); exact parse result proved")
c("C04","partial","Verif.Checksum.checksum_order_independent Verif.Checksum.registered_indices_distinct Verif.Checksum.checksum_of_services Verif.Checksum.checksum_separates_partial Verif.Checksum.checksum_collision","digest input modelled, SHA256 itself not; separation fails for prefixes ending in -tls (negation proved)")
c("C47","partial","Verif.Handshake.oversized_handshake_truncated Verif.Handshake.fitting_handshake_whole_partial","false of the code (negation proved)")
c("C08","partial","Verif.Bufio.errors_reported Verif.Bufio.discard_loses_error Verif.Bufio.reader_never_panics Verif.Bufio.reader_is_stream_partial Verif.Bufio.unread_after_discard Verif.Bufio.peek_complete Verif.Bufio.readBytes_spec Verif.Bufio.readBytes_first_line Verif.Bufio.readBytes_complete Verif.Bufio.readLine_spec Verif.Bufio.log_lines Verif.Bufio.unread_after_read Verif.Bufio.read_nothing","full claim except UnreadByte directly after Discard, where the code is proved wrong; ReadBytes/ReadString/ReadLine and the line loop over the P2P process's messages included; the rune functions are C149; Reader.WriteTo is C150; bufio.Writer is C144")
c("C09","proved","Verif.Bufio.copy_frame Verif.Bufio.copy_frame_exact Verif.Bufio.limited_read Verif.Bufio.limited_readSlice")
c("C05","partial","Verif.Route.header_search Verif.Route.header_found Verif.Route.header_absent Verif.Route.http_route_by_host Verif.Route.http_route_by_header Verif.Route.header_beyond_limit_depends_on_segmentation Verif.Route.lower_case_host_rejected Verif.Route.trimSpace_eq Verif.Route.trimSpace_spec Verif.Route.host_request_routed Verif.Route.header_request_routed_partial","proved for header lines ending within 2049 bytes, for every segmentation, end to end with bytes.TrimSpace modelled; beyond that the outcome is proved to depend on segmentation")
c("C06","proved","Verif.Route.id_from_host Verif.Route.http_route_by_host")
c("C07","partial","Verif.Route.sni_never_panics Verif.Route.sni_correct_partial Verif.Route.sni_split_hello_rejected","memory safety for every input; correctness when the whole ClientHello arrives in one read; a split ClientHello is proved to be rejected")

T="Verif.Tunnel."
c("C10","proved","Verif.Tunnel.client_demultiplexes Verif.Tunnel.every_local_connection_has_one_owner Verif.Tunnel.public_bytes_reach_the_service Verif.Tunnel.server_frames_carry_the_stream Verif.Tunnel.p2p_demultiplexes Verif.Tunnel.p2p_bytes_reach_the_session","for every interleaving, segmentation and environment; frames with a one-byte first payload and the reconnect signal excluded (see C48 and one_byte_first_frame_waits)")
c("C11","proved","Verif.Tunnel.server_demultiplexes Verif.Tunnel.service_bytes_reach_the_public_connection","the one early end besides close/ping is the panic of C12")
c("C12","partial","Verif.Tunnel.empty_orphan_frame_panics Verif.Tunnel.server_reader_never_panics_partial Verif.Tunnel.honest_tasks_never_panic","false of the code for empty frames of unknown tasks when a timeout is configured (negation proved); proved for every other byte stream")
c("C48","partial","Verif.Tunnel.signals_do_not_disturb_partial Verif.Tunnel.reconnect_desynchronises","proved for ping, ready, services and info at any place (close ends the tunnel; what it leaves is client_demultiplexes, C10); proved false for reconnect")

c("C13","partial","Verif.TaskId.task_ids_are_never_signals_partial Verif.TaskId.id_zero_reachable Verif.TaskId.sequential_ids","see the comments in TaskId/Props.lean for the boundary case")
c("C14","partial","Verif.TaskId.nearby_connections_have_distinct_ids_partial Verif.TaskId.ids_distinct_before_wrap_partial Verif.TaskId.concurrent_wrap_gives_equal_ids Verif.TaskId.ids_reused_after_cycle","equal ids are possible when several connections wrap concurrently (negation proved) and after a full cycle")

c("C15","proved","Verif.SyncMap.map_is_a_map","sequential use")

c("C17","proved","Verif.Idle.parking_keeps_minimum Verif.Idle.parking_alone_keeps_minimum Verif.Idle.init_parks_iff_minimum_met","reachable states under every interleaving of the manager's atomic sections")
c("C18","partial","Verif.Idle.waiter_decisions Verif.Idle.lock_is_released Verif.Idle.woken_waiter_returns Verif.Idle.idle_wakeup_is_lost Verif.Idle.close_wakeup_is_lost Verif.Idle.close_releases_sleepers_partial","false of the code (two lost wake-ups proved); decisions, wake-up by broadcast and release at close of waiters already asleep proved")
c("C19","proved","Verif.Limits.Token.ungenerated_key_rejected Verif.Limits.Token.key_accepted_iff","guessability of the math/rand keys is not expressible")
c("C20","partial","Verif.Limits.speed_limit_conserves_partial Verif.Limits.speed_limit_conserves_own_buffers_partial Verif.Limits.speed_limit_bypassed","holds unless a frame announces more than 2^32-speed bytes; then the uint32 counter wraps and the limit is proved to be bypassed")
c("C21","partial","Verif.Limits.Reconnect.few_failures_never_refused Verif.Limits.Reconnect.many_failures_refused Verif.Limits.Reconnect.other_ips_do_not_matter Verif.Limits.Reconnect.blocked_for_the_duration_partial Verif.Limits.Reconnect.late_failure_shortens_block","the duration holds unless a connection that passed the check earlier fails after the block began (counterexample proved)")

R="Verif.Registry."
c("C22","partial","Verif.Registry.config_mode_accepts_iff Verif.Registry.configured_user_keeps_secret Verif.Registry.created_secret_holds_partial Verif.Registry.live_was_accepted Verif.Registry.live_tunnel_had_the_secret Verif.Registry.created_secret_race Verif.Registry.created_user_leaks","configured users: proved for every history. Creation mode: proved while no tunnel of the id leaves; with leaving tunnels two different secrets can be live (negation proved)")
c("C23","partial","Verif.Registry.health_credentials_only_during_check_partial Verif.Registry.health_credentials_external Verif.Registry.empty_credentials_accepted","first half proved; second half is false in creation mode (negation proved)")
c("C24","partial","Verif.Registry.accepted_join_is_routed Verif.Registry.first_join_is_routed_exactly Verif.Registry.registry_exact_partial Verif.Registry.prefixes_released_partial Verif.Registry.refused_leaves_registry Verif.Registry.no_takeover Verif.Registry.tcp_failure_leaks_prefix Verif.Registry.partial_reload_loses_prefix","exclusivity (no take-over) for every history; exactness and release for histories without TCP-open failures and partially failing reloads, for which leaks are proved")
c("C25","proved","Verif.Registry.tunnels_within_limit Verif.Registry.configured_tunnels_within_limit Verif.Registry.InitRace.never_more_than_limit")
c("C26","proved","Verif.Registry.least_loaded_tunnel")
c("C46","proved","Verif.Config.merged_users Verif.Config.users_accepted_iff Verif.Config.users_no_panic Verif.Config.empty_user_entry_panics","an empty YAML entry (nil user) crashes the server at start; everything else is as claimed")
c("C27","partial","Verif.Ports.port_accounting_partial Verif.Ports.ports_returned_partial Verif.Ports.open_ports_are_allowed Verif.Ports.no_reopen_failure_if_granted Verif.Ports.stale_listener_double_open Verif.Ports.handover_race","allowed pools: proved for every history. Exclusive opening and partition: for histories in which no reload fails to reopen a port (always so if the OS grants binds); negation proved otherwise, and for the interleaving inside a hand-over")
c("C28","partial","Verif.Ports.requested_ports_opened_partial Verif.Ports.port_choice Verif.Ports.reload_keeps_old_port Verif.Ports.retry_opens_old_port","false of the code (negation proved); proved for first requests and unchanged ports")
c("C29","partial","Verif.Ports.Range.range_accepted_iff Verif.Ports.Range.range_denotes Verif.Ports.Range.range_bounds_partial Verif.Ports.Range.empty_range_accepted Verif.Ports.Range.pools_are_separate","everything but nonemptiness of 0-0, which is accepted and empty (negation proved)")

c("C30","partial","Verif.Client.HostRewrite.host_is_the_header Verif.Client.HostRewrite.host_limit Verif.Client.HostRewrite.host_rewritten_partial Verif.Client.HostRewrite.no_host_line_partial Verif.Client.HostRewrite.end_of_request_withheld Verif.Client.HostRewrite.lower_case_host_not_rewritten","proved for requests with a Host line; without one up to 4 bytes are withheld (negation proved). The aliasing of the pooled buffer is C122")
c("C31","proved","Verif.Client.Chunked.size_line_lenient Verif.Client.Chunked.eof_means_well_formed Verif.Client.Chunked.chunked_roundtrip Verif.Client.Chunked.chunked_complete Verif.Client.Chunked.parse_hex_exact Verif.Client.Chunked.hex_digits Verif.Client.Chunked.empty_length_is_zero","an empty chunk-size line is taken as 0")
c("C32","proved","Verif.Client.Pipe.close_errors Verif.Client.Pipe.closed_calls_return Verif.Client.Pipe.pipe_is_fifo Verif.Client.Pipe.write_returns_after_reads Verif.Client.Pipe.handoff_completes Verif.Client.Pipe.close_releases Verif.Client.Pipe.eof_only_after_close")

c("C33","partial","Verif.Client.ApiConn.api_close_sends_close Verif.Client.ApiConn.api_write_sends_payload Verif.Client.ApiConn.api_write_succeeds Verif.Client.ApiConn.api_bytes_reach_the_public_connection Verif.Client.ApiConn.api_write_count_wrong Verif.Client.ApiConn.empty_write_crashes_reader Verif.Client.ApiConn.resp_and_close_partial Verif.Client.ApiConn.resp_empty Verif.Client.ApiConn.resp_truncated","the payload is delivered whole and in order; the returned count is proved wrong (it counts frame headers); an empty write and oversized final responses are proved to misbehave")
c("C35","partial","Verif.Client.Counts.counts_nearest Verif.Client.Counts.counts_clamped Verif.Client.Counts.loops_per_remote Verif.Client.Counts.peer_table_within_limit Verif.Client.Counts.live_peers_within_limit_partial Verif.Client.Counts.peer_limit_exceeded","clamping, loops per remote and the size of the peer table proved; the number of live peers can exceed the limit when a closing task deletes a newer task's entry (negation proved)")
c("C37","partial","Verif.Util.BlockValue.get_returns_latest Verif.Util.BlockValue.getters_released Verif.Util.BlockValue.get_after_set_does_not_block Verif.Util.BlockValue.sets_never_panic_partial Verif.Util.BlockValue.concurrent_sets_panic","two concurrent first Sets can panic (negation proved)")
c("C39","proved","Verif.Client.Ping.parked_at_the_sixth Verif.Client.Ping.closing_tunnel_ends Verif.Client.Ping.loop_ends_only Verif.Client.Ping.responsive_server_never_dead Verif.Client.Ping.prompt_server_never_dead Verif.Client.Ping.silent_server_detected Verif.Client.Ping.unsolicited_pings_postpone_detection Verif.Client.Ping.traffic_does_not_reset Verif.Client.Ping.parked_only_when_quiet","for servers that answer pings only (a server sending unsolicited pings postpones detection, proved)")
c("C44","partial","Verif.Util.Backoff.backoff_delay Verif.Util.Backoff.backoff_doubles_partial Verif.Util.Backoff.accept_all_until_fatal Verif.Util.Backoff.delay_not_reset","the delay is never reset after a successful accept (negation proved)")
c("C45","proved","Verif.Util.CloseOnce.local_close_is_not_remote Verif.Util.CloseOnce.remote_close_is_remote Verif.Util.CloseOnce.transport_closed_once Verif.Util.CloseOnce.reason_is_the_first")
def ns(n,s): return " ".join(n+x for x in s.split())
c("C34","partial",ns("Verif.Config.Services.","options_attach_partial command_line_refused random_flag_actual random_flag_partial random_flag_wrong accepted_iff accepted_services defaults_only_unset missing_local_panics"),"every option but -remoteTCPRandom (aliased loop variable, negation proved); a service without `local` is proved to panic. parsing of option values: C98")
c("C38","partial",ns("Verif.Util.Stdio.","go_reads_messages_partial rust_reads_messages hex_reads_messages oversized_rejected long_message_refused split_length_corrupts"),"Rust reader and hex framing: every segmentation. Go reader: if each length prefix arrives in one read; otherwise proved wrong")
c("C40","partial",ns("Verif.Util.RotateLogs.","write_total rotation_opens_fresh purge_keeps_at_most_count greatest_not_unlinked live_log_kept_partial tenth_rotation_deletes_live_log lost_log_never_rotates restart_deletes_live_log"),"the live log is kept below ten generations; at the tenth rotation in one second it is proved to be deleted. Age-based purging is C132; failures of the operating system are not modelled")
c("C41","partial",ns("Verif.Web.ConnFilter.","external_exact_partial selected_sound_partial lists_partition ipv6_tunnel_listed_external"),"partition proved; for IPv6 the exclusion is proved not to match (brackets)")
c("C42","partial",ns("Verif.Client.PeerMsg.","process_total handled_are_the_messages messages_reassembled oversize_refused response_framed_partial response_parses_back_partial response_truncated failed_message_stays"),"reassembly and rejection for every segmentation; responses parse back if no message is longer than 4094 bytes, longer ones are proved truncated")
c("C36","partial",ns("Verif.Config.Merge.","saved_reads_back saved_restarts services_saved posted_reads_back_partial user_limits_saved_partial unnamed_not_saved saved_elsewhere user_limits_lost")+" "+ns("Verif.Config.OptionTable.","client_saved_by_name_partial server_saved_by_name_partial credentials_not_posted schemas_ok server_users_not_saved client_names server_names"),"merged options and services read back exactly; proved false when the program was started with a file other than the default (the UI saves elsewhere) and for users' explicit zero limits. YAML/JSON codecs trusted")
c("C43","partial",ns("Verif.Server.Accounting.","gives_up_after_forty counters_balance counters_balance_mod all_ended_balances shutdown_wait_bounded shutdown_never_stuck early_stop_is_idle_partial idle_round_stops late_tunnel_ends_wait"),"accounting and bounded wait for every interleaving; the wait may stop early when a tunnel is accepted during the check (negation proved)")
c("C49","partial",ns("Verif.Config.Merge.","flag_wins_partial file_next default_last explicit_zero_lost server_refuses_bad_file client_ignores_bad_file client_start_eq")+" "+ns("Verif.Config.OptionTable.","client_options_by_name server_options_by_name options_by_name_no_file"),"proved for nonzero values; explicit zeros are proved to be replaced by the default; a client is proved to ignore an unreadable file (and its flags)")
c("C50","partial",ns("Verif.Config.Merge.","crash_old_or_new_partial crash_loses_config"),"false of the code (negation proved); never a mixture")
c("C51","proved",ns("Verif.Tunnel.","client_tunnel_end closing_ping_is_third idle_closing_tunnel_ends unknown_service_ends_tunnel server_tunnel_end"),"client: every byte stream; server: every byte stream and environment")
c("C16","proved",ns("Verif.SyncMap.","linearizable single_creator same_value"),"Interleaving model of map.go and create.go at the granularity of single atomic accesses, any number of threads. linearizable: every history of calls and returns (Load, Store, LoadOrStore, LoadOrCreate, LoadAndDelete, Delete, and Range per key) is one of an atomic plain map. single_creator / same_value: the two halves of the property as consequences on histories.")
c("C52","proved",ns("Verif.Manager.","collected_iff_wanted collected_once collect_fails_iff single_file started_exactly start_fails_iff batch_start batch_start_only roleOf_config limit_255_violated connect_args_ignored"),"depth limit 255 is proved to be no limit (u8 wrap-around); `gt connect -c file` is proved to ignore its arguments. The directory walk sees a fixed file system; YAML parsing trusted")
c("C53","partial",ns("Verif.Manager.Reload.","reload_hitless reload_hitless_groups_partial reload_complete reload_ends two_groups_interrupt crash_interrupts reconnect_interrupts"),"proved when all configurations are of one kind and no new process is replaced before all are ready; otherwise negations proved (two kinds, crash, reconnect)")
c("C54","proved",ns("Verif.Manager.Supervise.","one_process restarts_spaced outage_bounded restart_possible no_resurrection killed pause_after_crash reconnect_failure_unsupervised crash_while_stopping_restarts"),"every sequence of events; time passes only when nothing is ready (no scheduling latency). A failed replacement leaves the process unsupervised, and a crash during a shutdown is restarted (both proved)")
c("C55","proved",ns("Verif.Registry.","route_was_asked_for platform_routes_allowed platform_example platform_revocation_leaks platform_grant_ignored"),"also proved: a prefix the API no longer allows (or allows only now) is not taken into account while the client's request is unchanged, because the checksum does not cover the API's answer")
c("C56","partial",ns("Verif.Registry.InitRace.","never_more_than_limit refused_at_limit_partial refused_below_limit dropped_silently sequential_example"),"the limit is never exceeded; refusal below the limit is proved possible while the first tunnel is still initialising the client object")

c("C57","partial",ns("Verif.P2P.Table.","p2p_isolated_partial p2p_deadlock deadlock_is_permanent late_frame_blocks p2p_crosstalk twoServers_perTunnel"),"proved when the numbers of P2P visitors are not used on any other tunnel (one server); with two servers, each numbering its visitors from 1, proved false: the reader of a tunnel locks a mutex it already holds, for ever, and bytes of one server's visitor reach the session of another's")
c("C58","partial",ns("Verif.P2P.Session.","answer_relayed_partial offer_never_answered offer_answer_lost requested_offer_empty child_answers"),"the relaying is right if the process answers first; the process of this repository echoes its configuration first, and it is proved that every visitor then receives an empty answer")
c("C59","partial",ns("Verif.P2P.Routes.","reaches_only_services prefix_reached_partial at_prefix_reached_partial no_tcp_service_reached no_command_line_service_reached no_default_prefix_service_reached routing_wrong"),"safety for every label; reachability for services of the file with an explicit prefix; every other kind of service is proved unreachable")
c("C60","proved",ns("Verif.P2P.PeerLoop.","idle_only_when_quiet open_channel_keeps_running timeout_at_least_five quiet_process_ends quiet_example"),"the WebRTC library and the clock are inputs")
c("C61","partial",ns("Verif.P2P.PeerLoop.","messages_handled_partial timeout_loses_message"),"proved when no timer fires in the middle of a message; otherwise a message is proved lost (the read is cancelled)")
c("C62","partial",ns("Verif.P2P.ThreadIdle.","unused_session_closed left_session_closed no_open_channel_cut_partial idle_timer_cuts_open_channel"),"proved when opening and closing are not interleaved; otherwise proved false")

c("C63","partial",ns("Verif.Reload.Route.","visitors_reach_their_service_partial without_reload_never_wrong early_visitor_crashes_tunnel reload_new_index_in_old_list reload_old_index_in_new_list reload_two_tunnels reload_undone_by_late_connection"),"proved when visitors come only while nothing is being set up; without reloads no visitor ever reaches a wrong service. Otherwise proved false: a visitor on a tunnel whose readiness was not yet announced crashes the tunnel; during a reload indexes are looked up in the wrong list; a tunnel opened at the wrong moment undoes the reload for good")
c("C64","partial",ns("Verif.Reload.Wait.","answer_keeps_tunnels success_means_updated_partial all_answered_ends_wait lost_tunnel_dooms_reloads failed_reload_dooms_next stray_error_ends_wait_early answer_after_early_end_kills_tunnel answer_before_add_kills_tunnel refused_reload_reports_success"),"success and progress proved if no connection attempt is refused during the reload; a tunnel lost before it answers is proved to make this and all later reloads end the process")

c("C65","partial",ns("Verif.Client.Loop.","lock_is_not_abandoned open_client_has_all_loops every_loop_can_try_again_partial one_dial_holds_up_all panic_stops_all_attempts panic_blocks_shutdown dial_panics_iff dial_ok_iff tls_and_tcp_never_panic"),"proved as long as no dial panics, which TLS and TCP dials never do; a QUIC dial that fails is proved to stop all loops of all remotes for ever, and a dial in progress to hold up all other loops")
c("C66","partial",ns("Verif.Client.Loop.","shutdown_tells_all_partial loops_end_after_shutdown late_tunnel_not_told attempt_after_shutdown"),"proved if no connection is being set up when Shutdown begins; otherwise proved false")

c("C67","proved",ns("Verif.Registry.","no_takeover"),"the part of C24 that holds without exception; requests have distinct prefixes (C02: every parsed request does)")
c("C68","proved",ns("Verif.Ports.","open_ports_are_allowed"),"the part of C27 that holds without exception")
c("C69","proved",ns("Verif.Registry.","config_mode_accepts_iff configured_user_keeps_secret live_tunnel_had_the_secret"),"the part of C22 that holds without exception")
c("C70","proved",ns("Verif.Route.","sni_never_panics"),"the part of C07 that holds without exception")
c("C71","proved",ns("Verif.Route.","header_search header_found header_absent http_route_by_host http_route_by_header host_request_routed trimSpace_eq trimSpace_spec"),"the part of C05 that holds without exception")
c("C72","proved",ns("Verif.Server.Accounting.","shutdown_wait_bounded shutdown_never_stuck gives_up_after_forty counters_balance counters_balance_mod all_ended_balances"),"the part of C43 that holds without exception")
c("C73","proved",ns("Verif.Client.ApiConn.","api_write_sends_payload api_write_succeeds api_bytes_reach_the_public_connection api_close_sends_close"),"the part of C33 that holds without exception")
c("C74","proved",ns("Verif.Client.PeerMsg.","process_total handled_are_the_messages messages_reassembled oversize_refused"),"the part of C42 that holds without exception; messages whose handling fails: handled_are_the_messages")
c("C75","proved",ns("Verif.Config.Merge.","crash_leaves_prefix"),"the part of C50 that holds; that a crash can lose the old configuration is crash_loses_config")
c("C76","proved",ns("Verif.Reload.Route.","without_reload_never_wrong"),"the part of C63 that holds without exception")
c("C77","proved",ns("Verif.P2P.Routes.","reaches_only_services"),"the part of C59 that holds without exception")
c("C78","proved",ns("Verif.Limits.Reconnect.","few_failures_never_refused many_failures_refused other_ips_do_not_matter"),"the part of C21 that holds without exception")
c("C79","proved",ns("Verif.Ports.Range.","range_accepted_iff range_denotes pools_are_separate"),"the part of C29 that holds without exception")
c("C80","proved",ns("Verif.Config.Services.","accepted_iff accepted_services defaults_only_unset"),"the part of C34 that holds without exception")
c("C81","proved",ns("Verif.Util.Stdio.","rust_reads_messages hex_reads_messages oversized_rejected"),"the part of C38 that holds without exception")
c("C82","proved",ns("Verif.Util.BlockValue.","get_returns_latest getters_released get_after_set_does_not_block"),"the part of C37 that holds without exception")
c("C83","proved",ns("Verif.Util.Backoff.","backoff_delay accept_all_until_fatal"),"the part of C44 that holds without exception")
c("C84","proved",ns("Verif.Bufio.","reader_never_panics errors_reported"),"the part of C08 that holds without exception")
c("C85","proved",ns("Verif.Client.Loop.","tls_tcp_client_keeps_trying open_client_has_all_loops tls_and_tcp_never_panic dial_panics_iff"),"the part of C65 that holds without exception")

c("C86","partial",ns("Verif.Client.Ready.","tunnel_wakes_sleepers ready_at_once returned_stays timeout_only_after_own_timer ready_means_some_tunnel_partial ready_without_tunnel other_timeout_reports_ready timeout_can_be_missed missed_timeout_sleeps_on"),"no wake-up by a tunnel is lost, and an error is only reported after the caller's own timeout; proved false otherwise: a tunnel already lost is reported as ready, another caller's timeout is reported as ready, a timer that fires between look and registration is missed and the caller sleeps on")
c("C87","proved",ns("Verif.Process.Lifecycle.","ready_once_after_start started_iff answer_once_after_shutdown answers_the_request lives_until_deadline stops_within_grace"),"every sequence of events; timers fire on time")
c("C88","partial",ns("Verif.Process.Lifecycle.","request_taken_partial request_kept stops_within_grace reload_blocks_requests reload_reached ready_after_done hup_stops_server_silently web_without_file_never_ready client_gives_up"),"proved in the signal loop; proved false while a client reloads its services (the loop is not running), and SIGHUP stops a server silently")
c("C89","proved",ns("Verif.Server.Status.","ten_draws first_free_draw ok_is_recent failure_is_real credentials_only_meanwhile trips_are_spaced round_trips_are_rare cached_answer_not_empty any_response_is_success"),"any_response_is_success: the status code of the round trip is not looked at, so an error page counts as success")

c("C90","proved",ns("Verif.Web.Access.","failure_changes_nothing save_iff reload_pprof authorised_is_served link_works profile_if_enabled protected_needs_authorised_token no_effect_without_token public_token no_link_if_configured profile_only_if_enabled pprof_needs_no_token"),"signatures are ideal; one configuration file. The profiling pages are proved to be open to everyone once enabled, which the statement says")
c("C91","partial",ns("Verif.Web.Access.","token_lasts login_accepted_partial start_ready saved_credentials_survive save_keeps_file_credentials change_has_no_effect_on_logins old_token_survives_change reload_breaks_logins token_renews_itself token_reveals_password kill_always_fails"),"first half proved from every start to the next reload; second half proved false: new credentials are refused until a restart, old tokens survive the change and the restart, a reload of a client can make all later logins useless")
c("C92","partial",ns("Verif.Web.Listen.","missing_file_refused as_configured_partial bad_certificate_refused host_as_configured retry_ends no_args_never_tls no_args_tls_ignored link_leads_elsewhere v6_not_served"),"proved for processes started with arguments; without arguments TLS is proved never to be used, and the link can lead to another port")

c("C93","partial",ns("Verif.Quic.Accept.","quic_handled all_served_if_all_open_partial idle_clients_are_skipped served_at_latest_ready_time delay_bounded not_before_ready at_most_one_after_shutdown tcp_all_handled tcp_handled_at_once one_client_ends_service slow_client_delays_all one_after_shutdown"),"the set of clients served and the time of service are characterised exactly: all are served if each opens its stream. The claim itself is proved false: a silent client, or one that closes its connection early, ends the service for all later ones, and a slow one delays them")
c("C94","partial",ns("Verif.Quic.Stream.","everything_can_be_read read_prefix_partial read_account read_account_open eof_only_if_closed read_makes_progress eof_before_data data_lost_at_close half_close_not_eof"),"prefix for every schedule; completeness while the stream is open. At the end proved false: end of file can be reported before waiting data and is not final; the library is represented by its contract")
c("C95","partial",ns("Verif.Quic.Stream.","no_completion_is_lost closed_stream_lets_go single_writer_partial sequential_writes no_use_after_free_without_close no_use_after_free_if_reader_closes concurrent_writes_corrupt success_before_sent refused_send_blocks use_after_free use_after_free_read_after_close"),"proved for a single writer and for a stream closed by its only reader; proved false otherwise")
c("C96","partial",ns("Verif.Quic.Deadline.","future_deadline future_deadline_not_kept ten_seconds_become_hundred cleared_deadline_partial past_deadline deadline_now_is_never"),"TCP and quic-go by the contract of net.Conn; on the BBR transport proved false for every deadline")
c("C97","partial",ns("Verif.Client.ApiDeadline.","no_early_timeout deadline_kept_partial one_timeout_per_deadline extended_deadline_not_kept stale_timeout later_reads_not_stopped clear_has_no_effect past_deadline_has_no_effect abort_after_close_never_returns expired_timer_leaks abort_waits_for_read"),"proved if every deadline is set when nothing of an earlier one is left; otherwise proved false")
c("C98","partial",ns("Verif.Config.OptValues.","word_whole_iff_partial port_exact switch_exact nothing_refused word_cut secrets_confused port_too_large port_trailing port_no_number port_leading_zero switch_other leading_space_dropped line_end_empties mistyped_port_is_random"),"exactly the texts without white space are taken whole (proved); otherwise false: no text is ever refused, texts with white space are cut after the first word (a server's secret too), numbers out of range become 0 and thereby a random port, leading zeros mean octal, yes and on switch off")
c("C99","proved",ns("Verif.Config.OptValues.","word_exact port_exact switch_exact port_in_range"),"durations and texts that are not UTF-8 not modelled")
c("C100","partial",ns("Verif.P2P.SendWait.","never_overfull in_order_partial fits_no_wait later_callback_wakes drain_wakes again_hands stuck_iff closed_empty close_ends_sender wakeup_lost_before_announcement wakeup_lost_before_sleep close_while_waiting close_while_waiting_reachable"),"order and room proved for every interleaving; progress proved false: the wake-up can be lost, and a channel closed while the sender waits keeps it asleep for ever; stuck_iff says exactly when")
c("C101","partial",ns("Verif.P2P.Callback.","close_reaches_service shut_only_if_closed delivered_prefix thread_goes_on_partial failed_dial_stops_all failed_dial_reachable"),"order proved always, progress proved as long as no connection to a service fails; otherwise proved false: one refused connection can stop every channel of the thread for ever")
c("C102","partial",ns("Verif.P2P.Forward.","prefixes settles open_complete_partial app_end_passed_on service_end_complete next_write_ends service_end_not_passed_on service_end_reachable half_close_loses_answer"),"proved except: the end of the service is never passed on to a waiting application, and an application that ends only its sending side loses the answer (both proved)")
c("C103","partial",ns("Verif.P2P.ForwardSetup.","complete_exact truncated_exact truncated_answer_noticed reads_what_peer_writes_partial truncation_unnoticed offer_framed"),"complete responses proved exact; truncation after the answer proved to be taken for success")
c("C104","partial",ns("Verif.P2P.ForwardSetup.","pick_in_range round_robin_partial shared_when_concurrent accepting_iff one_failure_stops_forwarding"),"choice in range for every interleaving and in turn when sequential; one failed attempt at the start stops forwarding for good (proved)")
c("C105","proved",ns("Verif.Client.Dialer.","tls_configured_tls_used never_plaintext check_as_configured bad_certificate_refused client_never_plaintext"),"TLS itself not modelled")
c("C106","partial",ns("Verif.Client.Dialer.","attempt_ok_iff init_exact every_host_contacted_partial quic_then_tcp default_port given_port given_port_v6 api_first_usable tunnel_survives earlier_remote_ignored unknown_scheme_refused_iff ipv6_without_port bbr_ignored bbr_never_used api_plain_never forward_ends_client_iff"),"every host is contacted (proved); proved false: of several remotes with the same host and scheme only the last counts, unknown schemes are refused only in last place, IPv6 addresses without port never work, -bbr has no effect in the client, addresses without scheme from the remote API are asked for for ever, an unreachable QUIC server ends a client with P2P forwarding")
c('C107','partial',ns('Verif.Server.Start.','opens_as_given_partial fails_clean_partial closes_all_partial tls_without_certificate_ignored api_half_certificate_in_clear quic_survives_close failed_start_serves quic_address_in_use_panics'),'proved where TLS has its files, without web server, without QUIC; proved false otherwise: a TLS address without certificate is ignored, half a certificate leaves the API in clear, a failed start with web server keeps serving, QUIC is never closed and panics if its address is in use')
c('C108','proved',ns('Verif.Server.Start.','served_iff one_socket_each something_served address_as_given quic_address_as_given tls_certificate quic_encrypted api_encrypted failing_service_fails_start starts_if_possible close_leaves_only_quic status_target'),'operating system and certificate loading are parameters')
c('C109','partial',ns('Verif.Server.AcceptLoop.','keeps_accepting_partial handled_prefix waits_bounded nothing_after_shutdown deaf_after_emfile not_keeps_accepting delay_never_reset waits_ignore_successes'),'proved for failures that are timeouts; proved false for lack of file descriptors or memory: one such failure and the address is never served again; the wait is never reset')
c('C110','partial',ns('Verif.P2P.Connect.','lines_complete every_line_sent configuration_checked reports_answers_partial refused_reported_forwarded without_configuration_nothing_sent manager_hears_nothing cannot_acknowledge stop_takes_two_minutes protocol_heard shutdown_message_forwarded'),"sending is proved; proved false: error statuses are reported as success, without a configuration nothing is sent, the manager's messages are taken for lines and never acknowledged")
c('C111','partial',ns('Verif.Manager.Signals.','signal_carried_out stop_stops_partial acted_bound signal_lost_while_starting stop_after_reload_lost touching_is_a_signal not_only_signals other_files_ignored success_without_listener no_manager_ever_reported pause_never_matters'),'proved if a manager is watching; proved false while the newest one is starting; any access to a signal file counts as the signal')
c('C112','partial',ns('Verif.Process.Sig.','status_zero_when_fine targets_exact reaches_all_partial reaches_only_partial not_itself other_program_signalled first_failure_ends not_reaches_all status_wrong status_zero_means_all'),"proved if no process fails and no other program's path begins with ours; proved false otherwise; status 0 does mean that all were reached")
c('C113','partial',ns('Verif.Server.Platform.','platform_decides_partial prefixes_from_answer accepted_iff asked_exactly escaped_token_lost'),'proved for answers without escape sequences in the granted prefixes; with them proved false (the prefix is not granted)')
c('C114','partial',ns('Verif.Server.Platform.','blocked_only_by_refusals_partial known_not_refused_partial release_frees outage_blocks not_blocked_only_by_refusals not_known_not_refused null_tokens_refused own_test_refused'),"proved if the platform always answers with status 200 and well-formed fields; proved false otherwise: during an outage every client is locked out, and stays so afterwards; the server's own test fails if the platform refuses with an error status")
c('C115','proved',ns('Verif.Server.Dispatch.','sorted not_dropped visitors_are_visitors'),'on the model of the buffered reader of C08; connections of fewer than two bytes are dropped')
c('C116','partial',ns('Verif.Server.Dispatch.','served_right served_at_once turned_away back_soon_partial not_back_soon tcp_served_iff'),'proved if the clients found have tunnels; a visitor who finds a client whose last tunnel is just leaving is proved to be turned away although the host is back at once')
c('C117','partial',ns('Verif.Server.Dispatch.','echo_faithful_partial echo_all loss_never_measured'),'echo proved; the measurement of loss is proved never to work')
c('C118','partial',ns('Verif.P2P.Gather.','told_in_order runs_bounded setup_ends_partial never_answered close_never_ends not_setup_ends'),"order and boundedness proved for every schedule; ending proved for at most 15 addresses; with 16 or more proved false: the library's thread waits for room in the channel while the program waits for the thread")
c('C119','partial',ns('Verif.Config.Lim.','effective_limits no_missing_setting tunnel_within_limits starts_iff command_line_first_partial option_ignored not_command_line_first'),'limits proved for every configuration and byte stream; proved false: -hostNumber and -hostWithID have no effect where the file sets host.number or host.withID')
c('C120','partial',ns('Verif.Config.Lim.','own_hosts_partial host_claimed'),"proved for ids without '-'; proved false otherwise: client 'a' can claim the host of client 'a-b'")
c('C121','partial',ns('Verif.Tunnel.Stall.','got_beginnings_of_own_frames got_sublist_of_stream prefix_if_never_late blocked_iff all_delivered_when_quiet reader_comes_to_rest delay_bounded_partial everybody_waits long_wait_ends_tunnel no_timeout_blocks_forever delay_repeats hole_in_stream'),'own bytes in order for every behaviour; no hole unless a write was late; the others wait at most the write timeout per write ahead. Proved false beyond that: everybody waits for a receiver that does not read (for ever without a write timeout, once per frame with one), a long wait makes the client drop the whole tunnel, and a visitor that reads again after a late write gets a stream with a hole')
c('C122','partial',ns('Verif.Pool.','own_bytes connections_keep_their_bytes_partial use_after_put_leaks fill_after_put_corrupts server_obeys client_obeys copy_obeys broadcast_obeys resp_obeys server_own client_own api_own resp_own host_own host_obeys_or_leaks host_obeys_partial host_leaks api_obeys_partial api_write_after_close_corrupts peer_obeys_partial peer_after_close_corrupts'),'own bytes for all users and interleavings as long as no request is cut within the first bytes of a header line and nothing is done with a connection after it was closed. Proved false otherwise: the Host-replacing task gives its buffer back before writing the rest of the request from it (task.go:185-191), an API connection can be written to after Close, a P2P session closed by its timer goes on using its buffer')
c('C123','partial',ns('Verif.EndToEnd.','request_reaches_its_service request_reaches_its_service_by_header tls_connection_reaches_its_service_partial connected_is_routed_partial just_joined_is_routed request_seen_with_local_host_partial'),'composition of C01, C24, C115, C05-C07, C26, C10, C30. For a client just joined: any history. For a client connected at any later time: histories without the failures of C24 (which break it). TLS: the ClientHello in one piece (a split one is refused, C07)')
c('C124','partial',ns('Verif.Client.StartStop.','success_means_started started_runs_everything failed_start_leaves_nothing_partial failed_start_leaves_the_client_running'),'The success half is proved in full. The failure half holds without forwarding; with forwarding it is false of the code: the listener is opened last, and when its port is taken Start returns an error with all loops and the API server running.')
c('C125','proved',ns('Verif.Client.StartStop.','asking_ends shutdown_after_start one_call_does_the_work late_loops_never_connect early_shutdown_kills_the_process early_shutdown_leaves_the_listener early_shutdown_does_not_wait second_shutdown_does_not_wait'),'Proved for stops that begin after Start has returned (as RunClient does). Without that premise it is false: go connectLoop precedes Add(1), so a Shutdown during Start can panic, not wait, or leave the listener; machine-checked counterexamples.')
c('C126','proved',ns('Verif.Server.Announce.','messages_understood incomplete_message_waits service_is_named'),"Round trip of the literal byte strings through the client's parser, prefix-freeness, and the lookup of the local address.")
c('C127','partial',ns('Verif.Server.Announce.','program_knows_its_ports_partial registering_program_is_told restarted_program_is_not_told'),'Proved while a single program uses the id and no registration failed to open a port, and for the program whose tunnel brings a new configuration. False for two programs: addTunnel skips the ports (and the announcements) when the checksum is the last processed one, so a client restarted while the old tunnels exist is never told its ports.')
c('C128','proved',ns('Verif.Tunnel.Conversation.','each_side_gets_a_beginning whole_answer whole_request conditions_at_rest ended_visitor_leaves_nothing ended_service_leaves_nothing gt_comes_to_rest'),'Interleaving model of the two process goroutines and the two reader loops for one connection; the table lookup and the effect of a frame are separate steps. The tunnel itself does not fail; writes are whole (late writes: C121).')
c('C129','partial',ns('Verif.Tunnel.Conversation.','closing_after_the_end_is_safe_partial end_of_request_ends_the_answer early_end_loses_the_answer half_closed_visitor_gets_no_answer half_closed_service_gets_no_more'),"False: the end of either direction ends both. Once the server has read the visitor's end of stream the task is forgotten and the client closes the local connection: in every run, nothing more reaches the visitor. Proved: who closes after having seen the other's end loses nothing.")
c('C130','partial',ns('Verif.Tunnel.Conversation.','unreachable_service_ends_by_timeout_partial unreachable_service_is_not_reported unreachable_example'),"False: after three failed dials processServiceData returns and nothing is sent to the server; in every run the visitor's connection stays open and silent until the server's read deadline (90 s by default, never if the timeout is 0). Proved: after the deadline, or when the visitor gives up, nothing remains.")
c('C131','partial',ns('Verif.','EndToEnd.tcp_visitor_reaches_its_service_partial EndToEnd.socket_reaches Ports.others_keep_my_port'),"Whole claim for histories in which no reload failed to reopen a port (false otherwise, C27); that nobody but the client itself closes its ports holds for every history. Processing of one client's options is atomic (C27's Race). The tunnel is assumed to deliver (as in C123).")
c('C132','proved',ns('Verif.Util.LogAge.','week_of_logs_kept log_is_what_was_written old_logs_are_removed settle_is_unlinking'),'For any calendar in which a date lasts less than seven days. Other failures of the operating system than a lock file in the way are not modelled; the configured path has no glob or strftime characters.')
c('C133','partial',ns('Verif.Util.LogAge.','other_files_untouched_partial foreign_file_deleted foreign_file_deleted_by_count plain_file_replaced'),'False: every file `<path>.*` is purged like a log, by age and by count, and an ordinary file at the configured path is replaced by the link with the first line. Proved: files whose names do not begin with `<path>.` are neither written nor removed.')
c('C134','proved',ns('Verif.P2P.Table.','p2p_sessions_limited p2p_request_served p2p_request_refused ended_session_frees_its_place limit_exceeded_by_two_servers'),'under the same assumption on numbers as C57 (one server); with two servers it is proved to fail; predef.Debug builds have no limit')
c('C135','partial',ns('Verif.Quic.Worker.','ended_connection_does_not_block tunnel_gets_its_data_partial all_get_tunnels_partial three_clients_stop_the_server silent_client_stops_worker extra_streams_stop_worker'),'proved if at most two connections are being set up at a time and every client opens one stream; otherwise proved false: three clients connecting at once can stop the server for ever, a client that opens no stream, or three, stops all tunnels of a worker. Assumes that MsQuic runs the callbacks of the connections of one worker one after another')
c('C136','partial',ns('Verif.Server.Answer.','ready_iff_tunnel tunnel_needs_magic refused_is_told_partial client_reads_the_answer within_limits_not_refused refusals_have_true_reasons locked_out_is_not_told unknown_option_is_not_told lost_races_are_not_told'),'proved for complete requests of the protocol; proved false otherwise: an address that is locked out, a client that uses an option the server does not know, and a client that loses five races with its own removal are dropped without a word. A host declared twice counts twice towards the limit')
c('C137','partial',ns('Verif.Server.Visitors.','expires_iff leaving_ends_it visitors_are_cut_partial stranded_at_most_timeout_partial sending_ends_it stranded_for_ever late_visitor_stays visitor_of_refused_stays'),"proved for visitors registered while the tunnel's reader worked, and with a timeout for all; proved false without a timeout: a visitor registered just after the reader ended, or given a tunnel that is being refused (it is offered to visitors before the refusal), waits for ever")
c('C138','partial',ns('Verif.Server.Visitors.','cut_only_for_a_reason_partial reload_cuts_visitors'),"proved as long as no tunnel reloads; proved false for reloads: the server's reader returns for the new configuration, and its deferred function closes every visitor of the tunnel, also those of services that did not change")
c('C139','partial',ns('Verif.P2P.Answers.','posts_handed_partial whole_post_handed number_accepted others_undisturbed unknown_refused retry_is_garbled refused bad_candidate_reported_good refused_answer_stays oversize_blocks own_number_reported_good anyone_can_answer posts_at_once_mix'),"proved for sessions whose own posts are whole, accepted and one at a time, whatever is posted to other sessions; proved false otherwise: a repeated post is appended to the part that arrived before, a refused or too long message blocks the session for ever, a refused candidate is reported as a success, anyone can post under anyone's number, two posts at once are mixed")
c('C140','partial',ns('Verif.Client.LocalConns.','expires_iff closed_with_tunnel_partial reader_closes closed_in_time speaking_ends others_stay lost_never_closed late_stays_open shared_number_stays_open number_taken_over lost_pile_up mix'),'proved for the connections entered before the tunnel was closed, and with a LocalTimeout for all the client holds; proved false otherwise: a connection entered after Close, or under a number used twice, is never closed without a LocalTimeout, and a connection to a service whose address is too long for a Host line is never closed at all')
c('C141','partial',ns('Verif.Reload.Decide.','reload_applied_partial reload_again_partial refused_changes_nothing applied_sound unchanged_reported timeout_change_refused no_secret_no_reload out_of_range_no_reload explicit_zero_no_reload port_only_no_reload first_reload_panics first_reload_panics_plain stopped_reports_success text_core text_of_core g0_plain'),'proved for clients whose options the start does not change and services that differ in prefix, URL, port or random port (SHA-256 assumed not to collide on the two texts); proved false otherwise: a change of LocalTimeout or UseLocalAsHTTPHost alone is refused; a client without a secret, with numbers out of range, an explicit zero or a port-only web address can never reload; a client whose services were refused at the start is killed by the first valid reload')
c('C142','partial',ns('Verif.Util.LogCrash.','generations_go_up gen_of_cur locks_left_by_crashes_only link_kept_on_failure files_only_grow success_is_one_line_partial full_file_is_left failure_is_a_beginning logging_resumes link_leads_to_the_line lines_lost_although_a_file_is_open link_stuck_after_a_crash restart_goes_back closed_same_day'),'proved: no byte is lost, success means the whole line once, in a file of its day, a full file is left, logging resumes when the disk does, the link is right without failures and crashes; proved false: after a crash between making the lock file and removing it the link is stuck for that day, for every later process; while a new file cannot be opened the lines are lost although the old one is open; a restarted program goes back to the first file of the day; after Close the writes of the same day fail')
c('C143','proved',ns('Verif.Config.Duration.','unit_choice round_trip reads_exactly written_denotes written_inj accepted_form unit_needed refused_keeps json_needs_text negative_accepted wraps_to_zero'),'time.ParseDuration and Duration.String (Go standard library, not in /repo) are modelled from the published source; one floating-point expression is a parameter assumed exact for whole results. Also proved: negative durations are accepted, and a text of twice 2^63 ns is accepted as zero')
c('C144','proved',ns('Verif.Bufio.Writer.','one_call stream call_returns no_failure flush_empties example_run'),'exported API of libcs/bufio, which gt itself does not call; Writer.ReadFrom and writers reporting more than they were given are not modelled')
c('C145','partial',ns('Verif.Bufio.','Scanner.lines_exact_partial Scanner.bytes_exact Runes.runes_exact Runes.ranged_unique Runes.ranged_text Words.words_exact Words.words_exist Words.words_unique Scanner.too_long Scanner.token_after_too_long Scanner.exact_fit_depends_on_reader Scanner.no_progress_reported Scanner.final_token Scanner.empty_tokens'),'the last clause fails: after ErrTooLong the next Scan returns true with the contents of the buffer as a token (token_after_too_long, for every such input); a last line of exactly the largest size is delivered or refused depending on the reader. user-written split functions are not modelled; exported API of libcs/bufio, which gt itself does not call')
c('C146','partial',ns('Verif.Util.Rand.','well_formed_partial uniform letter_inj port_range same_second clients_same_secret guessable first_start_open example_first_start'),"form, uniformity and single use are proved; the rest is proved false: the generator is math/rand seeded with the second of the start, so programs started in the same second make up the same secrets, every secret is one of as many guesses as there are possible seconds (times possible orders), and such a login opens the web interface after a first start. The generator's algorithm is not modelled")
c('C147','partial',ns('Verif.P2P.Native.','released_once released_after_closing released_was_made one_object answer_before_offer sound_partial nothing_left_partial refused_object_is_fatal use_after_release second_report_is_fatal two_get_offers_fatal all_but_one_left get_offer_makes_another one_left'),"at most one release per session is proved for every interleaving, as is soundness when the library accepts the configuration, one offer is asked for and no request is being served at the close; each of these conditions is needed, which is proved: a refused object ends the client when its session closes, a request being served at the close uses released memory, two get-offer requests on one session close a channel twice on the library's thread, and of the objects a session makes only one is ever released. The library itself is represented by its contract")
c('C148','partial',ns('Verif.P2P.Children.','kills_once killed_after_closing kills_own child_ends_partial none_running_partial never_killed_later closed_early first_ends no_limit'),'kills of own children only, at most one and only when closing are proved for every interleaving, and that the only child of a session ends with it if it was remembered before the close; the rest is proved false: a session closed while its child is being started leaves it running for ever, each further get-offer request on a session starts one more child without limit and only the last is ever killed, and the end of an earlier child closes the session and leaves the later ones running. What the child does by itself is not modelled here')
c('C149','partial',ns('Verif.Bufio.ReadRune.','runes_exact runes_after_error unread_restores unread_byte_after_rune unread_refused_partial unread_after_discard_rune sized_ranged'),'the runes and sizes are exact for every segmentation and UnreadRune directly after ReadRune restores; that UnreadRune is refused otherwise is proved for every history without Discard and proved false with it: Discard does not clear lastRuneSize, so UnreadRune after ReadRune and Discard succeeds and can leave the reader inside a rune')
c('C150','partial',ns('Verif.Bufio.WriteTo.','write_to_in_order short_write_reported write_to_exact_partial write_to_again_partial error_with_data_lost limited_error_lost'),"order and conservation are proved for everything; that the bytes end at the reader's first error and that it is returned is proved for readers that report errors apart from data (as TCP connections do) and proved false otherwise, for Reader.WriteTo and for LimitedReader.WriteTo: an error that comes with data is overwritten by the next read and the copy goes on behind it. Destinations with ReadFrom and readers with WriteTo, to which the call is passed on, are not modelled")
c('C151','partial',ns('Verif.Web.Link.','link_leads_partial tls_iff_configured_partial certificate_dropped no_config_no_tls busy_port_wrong_link busy_v6_never service_name_no_link port_zero_wrong'),'proved for every port, host:port and bracketed IPv6 address with a numeric port other than 0, with arguments, and without arguments if no certificate is configured and the port is free; proved false otherwise: without arguments a configured certificate is dropped and the console speaks plain text behind an https link, a busy port is replaced by one the link does not name, an IPv6 address with a busy port never starts; port names and port 0 have no working link. net/url is modelled for characters of names and addresses only')
c('C152','partial',ns('Verif.Tunnel.Torn.','frames_stay_whole_partial every_write_accounted nothing_after_failure torn_frame_delivered blocked_only_so_long_partial stalled_for_ever'),'whole frames are proved for connections that remember a failed write (TLS) and for tunnels without a timeout; on TCP with a timeout proved false: after a write that failed half done the next writer is let through before the tunnel is closed, and its frame is delivered as data of the first visitor. That a blocked write ends is proved relative to the last call of Write by anybody on the tunnel, and proved false relative to its own call: every further write moves the deadline for all. QUIC connections are not modelled here')
c('C153','partial',ns('Verif.Server.Halt.','shutdown_ends_partial close_ends_partial told_before_closed late_clients_not_told no_timeout_never_ends'),'proved with a timeout: the shutdown ends, every client with a tunnel is told once and every tunnel is closed once, within 120 s, the locks and one timeout for each client and each tunnel. Proved false: that this is within three minutes (two clients that do not read use them up, and later clients are never told); without a timeout one such client is enough for the shutdown never to end. Other writers on the same tunnels are left out (C152)')
c('C154','partial',ns('Verif.Bufio.Writer.','read_from_copies_partial readFrom_returns copies_all direct_copies source_error_sticks'),"everything is proved for underlying writers that are no io.ReaderFrom; for one that is, proved false that later writes work after an error of the source: the error is kept as the writer's own. The direct copy is simplified to one whose writes succeed")
c('C155','partial',ns('Verif.Quic.Close.','closed_is_closed_partial handled_prefix quic_reads_on quic_never_released quic_reader_ends'),"proved for TCP, TLS and BBR; proved false over QUIC: Close ends the sending direction of the stream only, so a client's further data is handled until its next ping, its end or the read deadline, and the QUIC connection stays until the client leaves or is silent. That quic.Connection of quic-go 0.40 has no Close, and what Close of its stream does, is taken from its documentation (the library is not in the repository). Without a timeout frames that are already in the buffer of the reader are still handled after a close on any transport (stated exactly in the theorem)")
