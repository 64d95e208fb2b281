{
 "claims": [
  {
   "property": "C01",
   "status": "proved",
   "theorems": [
    "Verif.Handshake.handshake_roundtrip"
   ],
   "note": "what the client writes is what the server registers"
  },
  {
   "property": "C02",
   "status": "partial",
   "theorems": [
    "Verif.Handshake.handshake_sound_partial",
    "Verif.Handshake.handshake_needs_magic",
    "Verif.Handshake.parseOptions_terminates",
    "Verif.Handshake.handshake_limits_partial",
    "Verif.Handshake.options_unbounded_at_65535"
   ],
   "note": "the limits hold for every configured maximum below 65535; at 65535 the uint16 counter wraps and the bound is proved false"
  },
  {
   "property": "C03",
   "status": "partial",
   "theorems": [
    "Verif.Handshake.id_length_never_refused",
    "Verif.Handshake.id_length_limit_violated",
    "Verif.Handshake.id_secret_parse_partial"
   ],
   "note": "the code does not enforce the maximum (negation proved); exact parse result proved"
  },
  {
   "property": "C04",
   "status": "partial",
   "theorems": [
    "Verif.Checksum.checksum_order_independent",
    "Verif.Checksum.registered_indices_distinct",
    "Verif.Checksum.checksum_of_services",
    "Verif.Checksum.checksum_separates_partial",
    "Verif.Checksum.checksum_collision"
   ],
   "note": "digest input modelled, SHA256 itself not; separation fails for prefixes ending in -tls (negation proved)"
  },
  {
   "property": "C05",
   "status": "partial",
   "theorems": [
    "Verif.Route.header_search",
    "Verif.Route.header_found",
    "Verif.Route.header_absent",
    "Verif.Route.http_route_by_host",
    "Verif.Route.http_route_by_header",
    "Verif.Route.header_beyond_limit_depends_on_segmentation",
    "Verif.Route.lower_case_host_rejected",
    "Verif.Route.trimSpace_eq",
    "Verif.Route.trimSpace_spec",
    "Verif.Route.host_request_routed",
    "Verif.Route.header_request_routed_partial"
   ],
   "note": "proved for header lines ending within 2049 bytes, for every segmentation, end to end with bytes.TrimSpace modelled; beyond that the outcome is proved to depend on segmentation"
  },
  {
   "property": "C06",
   "status": "proved",
   "theorems": [
    "Verif.Route.id_from_host",
    "Verif.Route.http_route_by_host"
   ],
   "note": ""
  },
  {
   "property": "C07",
   "status": "partial",
   "theorems": [
    "Verif.Route.sni_never_panics",
    "Verif.Route.sni_correct_partial",
    "Verif.Route.sni_split_hello_rejected"
   ],
   "note": "memory safety for every input; correctness when the whole ClientHello arrives in one read; a split ClientHello is proved to be rejected"
  },
  {
   "property": "C08",
   "status": "partial",
   "theorems": [
    "Verif.Bufio.errors_reported",
    "Verif.Bufio.discard_loses_error",
    "Verif.Bufio.reader_never_panics",
    "Verif.Bufio.reader_is_stream_partial",
    "Verif.Bufio.unread_after_discard",
    "Verif.Bufio.peek_complete",
    "Verif.Bufio.readBytes_spec",
    "Verif.Bufio.readBytes_first_line",
    "Verif.Bufio.readBytes_complete",
    "Verif.Bufio.readLine_spec",
    "Verif.Bufio.log_lines",
    "Verif.Bufio.unread_after_read",
    "Verif.Bufio.read_nothing"
   ],
   "note": "full claim except UnreadByte directly after Discard, where the code is proved wrong; ReadBytes/ReadString/ReadLine and the line loop over the P2P process's messages included; the rune functions are C149; Reader.WriteTo is C150; bufio.Writer is C144"
  },
  {
   "property": "C09",
   "status": "proved",
   "theorems": [
    "Verif.Bufio.copy_frame",
    "Verif.Bufio.copy_frame_exact",
    "Verif.Bufio.limited_read",
    "Verif.Bufio.limited_readSlice"
   ],
   "note": ""
  },
  {
   "property": "C10",
   "status": "proved",
   "theorems": [
    "Verif.Tunnel.client_demultiplexes",
    "Verif.Tunnel.every_local_connection_has_one_owner",
    "Verif.Tunnel.public_bytes_reach_the_service",
    "Verif.Tunnel.server_frames_carry_the_stream",
    "Verif.Tunnel.p2p_demultiplexes",
    "Verif.Tunnel.p2p_bytes_reach_the_session"
   ],
   "note": "for every interleaving, segmentation and environment; frames with a one-byte first payload and the reconnect signal excluded (see C48 and one_byte_first_frame_waits)"
  },
  {
   "property": "C100",
   "status": "partial",
   "theorems": [
    "Verif.P2P.SendWait.never_overfull",
    "Verif.P2P.SendWait.in_order_partial",
    "Verif.P2P.SendWait.fits_no_wait",
    "Verif.P2P.SendWait.later_callback_wakes",
    "Verif.P2P.SendWait.drain_wakes",
    "Verif.P2P.SendWait.again_hands",
    "Verif.P2P.SendWait.stuck_iff",
    "Verif.P2P.SendWait.closed_empty",
    "Verif.P2P.SendWait.close_ends_sender",
    "Verif.P2P.SendWait.wakeup_lost_before_announcement",
    "Verif.P2P.SendWait.wakeup_lost_before_sleep",
    "Verif.P2P.SendWait.close_while_waiting",
    "Verif.P2P.SendWait.close_while_waiting_reachable"
   ],
   "note": "order and room proved for every interleaving; progress proved false: the wake-up can be lost, and a channel closed while the sender waits keeps it asleep for ever; stuck_iff says exactly when"
  },
  {
   "property": "C101",
   "status": "partial",
   "theorems": [
    "Verif.P2P.Callback.close_reaches_service",
    "Verif.P2P.Callback.shut_only_if_closed",
    "Verif.P2P.Callback.delivered_prefix",
    "Verif.P2P.Callback.thread_goes_on_partial",
    "Verif.P2P.Callback.failed_dial_stops_all",
    "Verif.P2P.Callback.failed_dial_reachable"
   ],
   "note": "order proved always, progress proved as long as no connection to a service fails; otherwise proved false: one refused connection can stop every channel of the thread for ever"
  },
  {
   "property": "C102",
   "status": "partial",
   "theorems": [
    "Verif.P2P.Forward.prefixes",
    "Verif.P2P.Forward.settles",
    "Verif.P2P.Forward.open_complete_partial",
    "Verif.P2P.Forward.app_end_passed_on",
    "Verif.P2P.Forward.service_end_complete",
    "Verif.P2P.Forward.next_write_ends",
    "Verif.P2P.Forward.service_end_not_passed_on",
    "Verif.P2P.Forward.service_end_reachable",
    "Verif.P2P.Forward.half_close_loses_answer"
   ],
   "note": "proved except: the end of the service is never passed on to a waiting application, and an application that ends only its sending side loses the answer (both proved)"
  },
  {
   "property": "C103",
   "status": "partial",
   "theorems": [
    "Verif.P2P.ForwardSetup.complete_exact",
    "Verif.P2P.ForwardSetup.truncated_exact",
    "Verif.P2P.ForwardSetup.truncated_answer_noticed",
    "Verif.P2P.ForwardSetup.reads_what_peer_writes_partial",
    "Verif.P2P.ForwardSetup.truncation_unnoticed",
    "Verif.P2P.ForwardSetup.offer_framed"
   ],
   "note": "complete responses proved exact; truncation after the answer proved to be taken for success"
  },
  {
   "property": "C104",
   "status": "partial",
   "theorems": [
    "Verif.P2P.ForwardSetup.pick_in_range",
    "Verif.P2P.ForwardSetup.round_robin_partial",
    "Verif.P2P.ForwardSetup.shared_when_concurrent",
    "Verif.P2P.ForwardSetup.accepting_iff",
    "Verif.P2P.ForwardSetup.one_failure_stops_forwarding"
   ],
   "note": "choice in range for every interleaving and in turn when sequential; one failed attempt at the start stops forwarding for good (proved)"
  },
  {
   "property": "C105",
   "status": "proved",
   "theorems": [
    "Verif.Client.Dialer.tls_configured_tls_used",
    "Verif.Client.Dialer.never_plaintext",
    "Verif.Client.Dialer.check_as_configured",
    "Verif.Client.Dialer.bad_certificate_refused",
    "Verif.Client.Dialer.client_never_plaintext"
   ],
   "note": "TLS itself not modelled"
  },
  {
   "property": "C106",
   "status": "partial",
   "theorems": [
    "Verif.Client.Dialer.attempt_ok_iff",
    "Verif.Client.Dialer.init_exact",
    "Verif.Client.Dialer.every_host_contacted_partial",
    "Verif.Client.Dialer.quic_then_tcp",
    "Verif.Client.Dialer.default_port",
    "Verif.Client.Dialer.given_port",
    "Verif.Client.Dialer.given_port_v6",
    "Verif.Client.Dialer.api_first_usable",
    "Verif.Client.Dialer.tunnel_survives",
    "Verif.Client.Dialer.earlier_remote_ignored",
    "Verif.Client.Dialer.unknown_scheme_refused_iff",
    "Verif.Client.Dialer.ipv6_without_port",
    "Verif.Client.Dialer.bbr_ignored",
    "Verif.Client.Dialer.bbr_never_used",
    "Verif.Client.Dialer.api_plain_never",
    "Verif.Client.Dialer.forward_ends_client_iff"
   ],
   "note": "every host is contacted (proved); proved false: of several remotes with the same host and scheme only the last counts, unknown schemes are refused only in last place, IPv6 addresses without port never work, -bbr has no effect in the client, addresses without scheme from the remote API are asked for for ever, an unreachable QUIC server ends a client with P2P forwarding"
  },
  {
   "property": "C107",
   "status": "partial",
   "theorems": [
    "Verif.Server.Start.opens_as_given_partial",
    "Verif.Server.Start.fails_clean_partial",
    "Verif.Server.Start.closes_all_partial",
    "Verif.Server.Start.tls_without_certificate_ignored",
    "Verif.Server.Start.api_half_certificate_in_clear",
    "Verif.Server.Start.quic_survives_close",
    "Verif.Server.Start.failed_start_serves",
    "Verif.Server.Start.quic_address_in_use_panics"
   ],
   "note": "proved where TLS has its files, without web server, without QUIC; proved false otherwise: a TLS address without certificate is ignored, half a certificate leaves the API in clear, a failed start with web server keeps serving, QUIC is never closed and panics if its address is in use"
  },
  {
   "property": "C108",
   "status": "proved",
   "theorems": [
    "Verif.Server.Start.served_iff",
    "Verif.Server.Start.one_socket_each",
    "Verif.Server.Start.something_served",
    "Verif.Server.Start.address_as_given",
    "Verif.Server.Start.quic_address_as_given",
    "Verif.Server.Start.tls_certificate",
    "Verif.Server.Start.quic_encrypted",
    "Verif.Server.Start.api_encrypted",
    "Verif.Server.Start.failing_service_fails_start",
    "Verif.Server.Start.starts_if_possible",
    "Verif.Server.Start.close_leaves_only_quic",
    "Verif.Server.Start.status_target"
   ],
   "note": "operating system and certificate loading are parameters"
  },
  {
   "property": "C109",
   "status": "partial",
   "theorems": [
    "Verif.Server.AcceptLoop.keeps_accepting_partial",
    "Verif.Server.AcceptLoop.handled_prefix",
    "Verif.Server.AcceptLoop.waits_bounded",
    "Verif.Server.AcceptLoop.nothing_after_shutdown",
    "Verif.Server.AcceptLoop.deaf_after_emfile",
    "Verif.Server.AcceptLoop.not_keeps_accepting",
    "Verif.Server.AcceptLoop.delay_never_reset",
    "Verif.Server.AcceptLoop.waits_ignore_successes"
   ],
   "note": "proved for failures that are timeouts; proved false for lack of file descriptors or memory: one such failure and the address is never served again; the wait is never reset"
  },
  {
   "property": "C11",
   "status": "proved",
   "theorems": [
    "Verif.Tunnel.server_demultiplexes",
    "Verif.Tunnel.service_bytes_reach_the_public_connection"
   ],
   "note": "the one early end besides close/ping is the panic of C12"
  },
  {
   "property": "C110",
   "status": "partial",
   "theorems": [
    "Verif.P2P.Connect.lines_complete",
    "Verif.P2P.Connect.every_line_sent",
    "Verif.P2P.Connect.configuration_checked",
    "Verif.P2P.Connect.reports_answers_partial",
    "Verif.P2P.Connect.refused_reported_forwarded",
    "Verif.P2P.Connect.without_configuration_nothing_sent",
    "Verif.P2P.Connect.manager_hears_nothing",
    "Verif.P2P.Connect.cannot_acknowledge",
    "Verif.P2P.Connect.stop_takes_two_minutes",
    "Verif.P2P.Connect.protocol_heard",
    "Verif.P2P.Connect.shutdown_message_forwarded"
   ],
   "note": "sending is proved; proved false: error statuses are reported as success, without a configuration nothing is sent, the manager's messages are taken for lines and never acknowledged"
  },
  {
   "property": "C111",
   "status": "partial",
   "theorems": [
    "Verif.Manager.Signals.signal_carried_out",
    "Verif.Manager.Signals.stop_stops_partial",
    "Verif.Manager.Signals.acted_bound",
    "Verif.Manager.Signals.signal_lost_while_starting",
    "Verif.Manager.Signals.stop_after_reload_lost",
    "Verif.Manager.Signals.touching_is_a_signal",
    "Verif.Manager.Signals.not_only_signals",
    "Verif.Manager.Signals.other_files_ignored",
    "Verif.Manager.Signals.success_without_listener",
    "Verif.Manager.Signals.no_manager_ever_reported",
    "Verif.Manager.Signals.pause_never_matters"
   ],
   "note": "proved if a manager is watching; proved false while the newest one is starting; any access to a signal file counts as the signal"
  },
  {
   "property": "C112",
   "status": "partial",
   "theorems": [
    "Verif.Process.Sig.status_zero_when_fine",
    "Verif.Process.Sig.targets_exact",
    "Verif.Process.Sig.reaches_all_partial",
    "Verif.Process.Sig.reaches_only_partial",
    "Verif.Process.Sig.not_itself",
    "Verif.Process.Sig.other_program_signalled",
    "Verif.Process.Sig.first_failure_ends",
    "Verif.Process.Sig.not_reaches_all",
    "Verif.Process.Sig.status_wrong",
    "Verif.Process.Sig.status_zero_means_all"
   ],
   "note": "proved if no process fails and no other program's path begins with ours; proved false otherwise; status 0 does mean that all were reached"
  },
  {
   "property": "C113",
   "status": "partial",
   "theorems": [
    "Verif.Server.Platform.platform_decides_partial",
    "Verif.Server.Platform.prefixes_from_answer",
    "Verif.Server.Platform.accepted_iff",
    "Verif.Server.Platform.asked_exactly",
    "Verif.Server.Platform.escaped_token_lost"
   ],
   "note": "proved for answers without escape sequences in the granted prefixes; with them proved false (the prefix is not granted)"
  },
  {
   "property": "C114",
   "status": "partial",
   "theorems": [
    "Verif.Server.Platform.blocked_only_by_refusals_partial",
    "Verif.Server.Platform.known_not_refused_partial",
    "Verif.Server.Platform.release_frees",
    "Verif.Server.Platform.outage_blocks",
    "Verif.Server.Platform.not_blocked_only_by_refusals",
    "Verif.Server.Platform.not_known_not_refused",
    "Verif.Server.Platform.null_tokens_refused",
    "Verif.Server.Platform.own_test_refused"
   ],
   "note": "proved if the platform always answers with status 200 and well-formed fields; proved false otherwise: during an outage every client is locked out, and stays so afterwards; the server's own test fails if the platform refuses with an error status"
  },
  {
   "property": "C115",
   "status": "proved",
   "theorems": [
    "Verif.Server.Dispatch.sorted",
    "Verif.Server.Dispatch.not_dropped",
    "Verif.Server.Dispatch.visitors_are_visitors"
   ],
   "note": "on the model of the buffered reader of C08; connections of fewer than two bytes are dropped"
  },
  {
   "property": "C116",
   "status": "partial",
   "theorems": [
    "Verif.Server.Dispatch.served_right",
    "Verif.Server.Dispatch.served_at_once",
    "Verif.Server.Dispatch.turned_away",
    "Verif.Server.Dispatch.back_soon_partial",
    "Verif.Server.Dispatch.not_back_soon",
    "Verif.Server.Dispatch.tcp_served_iff"
   ],
   "note": "proved if the clients found have tunnels; a visitor who finds a client whose last tunnel is just leaving is proved to be turned away although the host is back at once"
  },
  {
   "property": "C117",
   "status": "partial",
   "theorems": [
    "Verif.Server.Dispatch.echo_faithful_partial",
    "Verif.Server.Dispatch.echo_all",
    "Verif.Server.Dispatch.loss_never_measured"
   ],
   "note": "echo proved; the measurement of loss is proved never to work"
  },
  {
   "property": "C118",
   "status": "partial",
   "theorems": [
    "Verif.P2P.Gather.told_in_order",
    "Verif.P2P.Gather.runs_bounded",
    "Verif.P2P.Gather.setup_ends_partial",
    "Verif.P2P.Gather.never_answered",
    "Verif.P2P.Gather.close_never_ends",
    "Verif.P2P.Gather.not_setup_ends"
   ],
   "note": "order and boundedness proved for every schedule; ending proved for at most 15 addresses; with 16 or more proved false: the library's thread waits for room in the channel while the program waits for the thread"
  },
  {
   "property": "C119",
   "status": "partial",
   "theorems": [
    "Verif.Config.Lim.effective_limits",
    "Verif.Config.Lim.no_missing_setting",
    "Verif.Config.Lim.tunnel_within_limits",
    "Verif.Config.Lim.starts_iff",
    "Verif.Config.Lim.command_line_first_partial",
    "Verif.Config.Lim.option_ignored",
    "Verif.Config.Lim.not_command_line_first"
   ],
   "note": "limits proved for every configuration and byte stream; proved false: -hostNumber and -hostWithID have no effect where the file sets host.number or host.withID"
  },
  {
   "property": "C12",
   "status": "partial",
   "theorems": [
    "Verif.Tunnel.empty_orphan_frame_panics",
    "Verif.Tunnel.server_reader_never_panics_partial",
    "Verif.Tunnel.honest_tasks_never_panic"
   ],
   "note": "false of the code for empty frames of unknown tasks when a timeout is configured (negation proved); proved for every other byte stream"
  },
  {
   "property": "C120",
   "status": "partial",
   "theorems": [
    "Verif.Config.Lim.own_hosts_partial",
    "Verif.Config.Lim.host_claimed"
   ],
   "note": "proved for ids without '-'; proved false otherwise: client 'a' can claim the host of client 'a-b'"
  },
  {
   "property": "C121",
   "status": "partial",
   "theorems": [
    "Verif.Tunnel.Stall.got_beginnings_of_own_frames",
    "Verif.Tunnel.Stall.got_sublist_of_stream",
    "Verif.Tunnel.Stall.prefix_if_never_late",
    "Verif.Tunnel.Stall.blocked_iff",
    "Verif.Tunnel.Stall.all_delivered_when_quiet",
    "Verif.Tunnel.Stall.reader_comes_to_rest",
    "Verif.Tunnel.Stall.delay_bounded_partial",
    "Verif.Tunnel.Stall.everybody_waits",
    "Verif.Tunnel.Stall.long_wait_ends_tunnel",
    "Verif.Tunnel.Stall.no_timeout_blocks_forever",
    "Verif.Tunnel.Stall.delay_repeats",
    "Verif.Tunnel.Stall.hole_in_stream"
   ],
   "note": "own bytes in order for every behaviour; no hole unless a write was late; the others wait at most the write timeout per write ahead. Proved false beyond that: everybody waits for a receiver that does not read (for ever without a write timeout, once per frame with one), a long wait makes the client drop the whole tunnel, and a visitor that reads again after a late write gets a stream with a hole"
  },
  {
   "property": "C122",
   "status": "partial",
   "theorems": [
    "Verif.Pool.own_bytes",
    "Verif.Pool.connections_keep_their_bytes_partial",
    "Verif.Pool.use_after_put_leaks",
    "Verif.Pool.fill_after_put_corrupts",
    "Verif.Pool.server_obeys",
    "Verif.Pool.client_obeys",
    "Verif.Pool.copy_obeys",
    "Verif.Pool.broadcast_obeys",
    "Verif.Pool.resp_obeys",
    "Verif.Pool.server_own",
    "Verif.Pool.client_own",
    "Verif.Pool.api_own",
    "Verif.Pool.resp_own",
    "Verif.Pool.host_own",
    "Verif.Pool.host_obeys_or_leaks",
    "Verif.Pool.host_obeys_partial",
    "Verif.Pool.host_leaks",
    "Verif.Pool.api_obeys_partial",
    "Verif.Pool.api_write_after_close_corrupts",
    "Verif.Pool.peer_obeys_partial",
    "Verif.Pool.peer_after_close_corrupts"
   ],
   "note": "own bytes for all users and interleavings as long as no request is cut within the first bytes of a header line and nothing is done with a connection after it was closed. Proved false otherwise: the Host-replacing task gives its buffer back before writing the rest of the request from it (task.go:185-191), an API connection can be written to after Close, a P2P session closed by its timer goes on using its buffer"
  },
  {
   "property": "C123",
   "status": "partial",
   "theorems": [
    "Verif.EndToEnd.request_reaches_its_service",
    "Verif.EndToEnd.request_reaches_its_service_by_header",
    "Verif.EndToEnd.tls_connection_reaches_its_service_partial",
    "Verif.EndToEnd.connected_is_routed_partial",
    "Verif.EndToEnd.just_joined_is_routed",
    "Verif.EndToEnd.request_seen_with_local_host_partial"
   ],
   "note": "composition of C01, C24, C115, C05-C07, C26, C10, C30. For a client just joined: any history. For a client connected at any later time: histories without the failures of C24 (which break it). TLS: the ClientHello in one piece (a split one is refused, C07)"
  },
  {
   "property": "C124",
   "status": "partial",
   "theorems": [
    "Verif.Client.StartStop.success_means_started",
    "Verif.Client.StartStop.started_runs_everything",
    "Verif.Client.StartStop.failed_start_leaves_nothing_partial",
    "Verif.Client.StartStop.failed_start_leaves_the_client_running"
   ],
   "note": "The success half is proved in full. The failure half holds without forwarding; with forwarding it is false of the code: the listener is opened last, and when its port is taken Start returns an error with all loops and the API server running."
  },
  {
   "property": "C125",
   "status": "proved",
   "theorems": [
    "Verif.Client.StartStop.asking_ends",
    "Verif.Client.StartStop.shutdown_after_start",
    "Verif.Client.StartStop.one_call_does_the_work",
    "Verif.Client.StartStop.late_loops_never_connect",
    "Verif.Client.StartStop.early_shutdown_kills_the_process",
    "Verif.Client.StartStop.early_shutdown_leaves_the_listener",
    "Verif.Client.StartStop.early_shutdown_does_not_wait",
    "Verif.Client.StartStop.second_shutdown_does_not_wait"
   ],
   "note": "Proved for stops that begin after Start has returned (as RunClient does). Without that premise it is false: go connectLoop precedes Add(1), so a Shutdown during Start can panic, not wait, or leave the listener; machine-checked counterexamples."
  },
  {
   "property": "C126",
   "status": "proved",
   "theorems": [
    "Verif.Server.Announce.messages_understood",
    "Verif.Server.Announce.incomplete_message_waits",
    "Verif.Server.Announce.service_is_named"
   ],
   "note": "Round trip of the literal byte strings through the client's parser, prefix-freeness, and the lookup of the local address."
  },
  {
   "property": "C127",
   "status": "partial",
   "theorems": [
    "Verif.Server.Announce.program_knows_its_ports_partial",
    "Verif.Server.Announce.registering_program_is_told",
    "Verif.Server.Announce.restarted_program_is_not_told"
   ],
   "note": "Proved while a single program uses the id and no registration failed to open a port, and for the program whose tunnel brings a new configuration. False for two programs: addTunnel skips the ports (and the announcements) when the checksum is the last processed one, so a client restarted while the old tunnels exist is never told its ports."
  },
  {
   "property": "C128",
   "status": "proved",
   "theorems": [
    "Verif.Tunnel.Conversation.each_side_gets_a_beginning",
    "Verif.Tunnel.Conversation.whole_answer",
    "Verif.Tunnel.Conversation.whole_request",
    "Verif.Tunnel.Conversation.conditions_at_rest",
    "Verif.Tunnel.Conversation.ended_visitor_leaves_nothing",
    "Verif.Tunnel.Conversation.ended_service_leaves_nothing",
    "Verif.Tunnel.Conversation.gt_comes_to_rest"
   ],
   "note": "Interleaving model of the two process goroutines and the two reader loops for one connection; the table lookup and the effect of a frame are separate steps. The tunnel itself does not fail; writes are whole (late writes: C121)."
  },
  {
   "property": "C129",
   "status": "partial",
   "theorems": [
    "Verif.Tunnel.Conversation.closing_after_the_end_is_safe_partial",
    "Verif.Tunnel.Conversation.end_of_request_ends_the_answer",
    "Verif.Tunnel.Conversation.early_end_loses_the_answer",
    "Verif.Tunnel.Conversation.half_closed_visitor_gets_no_answer",
    "Verif.Tunnel.Conversation.half_closed_service_gets_no_more"
   ],
   "note": "False: the end of either direction ends both. Once the server has read the visitor's end of stream the task is forgotten and the client closes the local connection: in every run, nothing more reaches the visitor. Proved: who closes after having seen the other's end loses nothing."
  },
  {
   "property": "C13",
   "status": "partial",
   "theorems": [
    "Verif.TaskId.task_ids_are_never_signals_partial",
    "Verif.TaskId.id_zero_reachable",
    "Verif.TaskId.sequential_ids"
   ],
   "note": "see the comments in TaskId/Props.lean for the boundary case"
  },
  {
   "property": "C130",
   "status": "partial",
   "theorems": [
    "Verif.Tunnel.Conversation.unreachable_service_ends_by_timeout_partial",
    "Verif.Tunnel.Conversation.unreachable_service_is_not_reported",
    "Verif.Tunnel.Conversation.unreachable_example"
   ],
   "note": "False: after three failed dials processServiceData returns and nothing is sent to the server; in every run the visitor's connection stays open and silent until the server's read deadline (90 s by default, never if the timeout is 0). Proved: after the deadline, or when the visitor gives up, nothing remains."
  },
  {
   "property": "C131",
   "status": "partial",
   "theorems": [
    "Verif.EndToEnd.tcp_visitor_reaches_its_service_partial",
    "Verif.EndToEnd.socket_reaches",
    "Verif.Ports.others_keep_my_port"
   ],
   "note": "Whole claim for histories in which no reload failed to reopen a port (false otherwise, C27); that nobody but the client itself closes its ports holds for every history. Processing of one client's options is atomic (C27's Race). The tunnel is assumed to deliver (as in C123)."
  },
  {
   "property": "C132",
   "status": "proved",
   "theorems": [
    "Verif.Util.LogAge.week_of_logs_kept",
    "Verif.Util.LogAge.log_is_what_was_written",
    "Verif.Util.LogAge.old_logs_are_removed",
    "Verif.Util.LogAge.settle_is_unlinking"
   ],
   "note": "For any calendar in which a date lasts less than seven days. Other failures of the operating system than a lock file in the way are not modelled; the configured path has no glob or strftime characters."
  },
  {
   "property": "C133",
   "status": "partial",
   "theorems": [
    "Verif.Util.LogAge.other_files_untouched_partial",
    "Verif.Util.LogAge.foreign_file_deleted",
    "Verif.Util.LogAge.foreign_file_deleted_by_count",
    "Verif.Util.LogAge.plain_file_replaced"
   ],
   "note": "False: every file `<path>.*` is purged like a log, by age and by count, and an ordinary file at the configured path is replaced by the link with the first line. Proved: files whose names do not begin with `<path>.` are neither written nor removed."
  },
  {
   "property": "C134",
   "status": "proved",
   "theorems": [
    "Verif.P2P.Table.p2p_sessions_limited",
    "Verif.P2P.Table.p2p_request_served",
    "Verif.P2P.Table.p2p_request_refused",
    "Verif.P2P.Table.ended_session_frees_its_place",
    "Verif.P2P.Table.limit_exceeded_by_two_servers"
   ],
   "note": "under the same assumption on numbers as C57 (one server); with two servers it is proved to fail; predef.Debug builds have no limit"
  },
  {
   "property": "C135",
   "status": "partial",
   "theorems": [
    "Verif.Quic.Worker.ended_connection_does_not_block",
    "Verif.Quic.Worker.tunnel_gets_its_data_partial",
    "Verif.Quic.Worker.all_get_tunnels_partial",
    "Verif.Quic.Worker.three_clients_stop_the_server",
    "Verif.Quic.Worker.silent_client_stops_worker",
    "Verif.Quic.Worker.extra_streams_stop_worker"
   ],
   "note": "proved if at most two connections are being set up at a time and every client opens one stream; otherwise proved false: three clients connecting at once can stop the server for ever, a client that opens no stream, or three, stops all tunnels of a worker. Assumes that MsQuic runs the callbacks of the connections of one worker one after another"
  },
  {
   "property": "C136",
   "status": "partial",
   "theorems": [
    "Verif.Server.Answer.ready_iff_tunnel",
    "Verif.Server.Answer.tunnel_needs_magic",
    "Verif.Server.Answer.refused_is_told_partial",
    "Verif.Server.Answer.client_reads_the_answer",
    "Verif.Server.Answer.within_limits_not_refused",
    "Verif.Server.Answer.refusals_have_true_reasons",
    "Verif.Server.Answer.locked_out_is_not_told",
    "Verif.Server.Answer.unknown_option_is_not_told",
    "Verif.Server.Answer.lost_races_are_not_told"
   ],
   "note": "proved for complete requests of the protocol; proved false otherwise: an address that is locked out, a client that uses an option the server does not know, and a client that loses five races with its own removal are dropped without a word. A host declared twice counts twice towards the limit"
  },
  {
   "property": "C137",
   "status": "partial",
   "theorems": [
    "Verif.Server.Visitors.expires_iff",
    "Verif.Server.Visitors.leaving_ends_it",
    "Verif.Server.Visitors.visitors_are_cut_partial",
    "Verif.Server.Visitors.stranded_at_most_timeout_partial",
    "Verif.Server.Visitors.sending_ends_it",
    "Verif.Server.Visitors.stranded_for_ever",
    "Verif.Server.Visitors.late_visitor_stays",
    "Verif.Server.Visitors.visitor_of_refused_stays"
   ],
   "note": "proved for visitors registered while the tunnel's reader worked, and with a timeout for all; proved false without a timeout: a visitor registered just after the reader ended, or given a tunnel that is being refused (it is offered to visitors before the refusal), waits for ever"
  },
  {
   "property": "C138",
   "status": "partial",
   "theorems": [
    "Verif.Server.Visitors.cut_only_for_a_reason_partial",
    "Verif.Server.Visitors.reload_cuts_visitors"
   ],
   "note": "proved as long as no tunnel reloads; proved false for reloads: the server's reader returns for the new configuration, and its deferred function closes every visitor of the tunnel, also those of services that did not change"
  },
  {
   "property": "C139",
   "status": "partial",
   "theorems": [
    "Verif.P2P.Answers.posts_handed_partial",
    "Verif.P2P.Answers.whole_post_handed",
    "Verif.P2P.Answers.number_accepted",
    "Verif.P2P.Answers.others_undisturbed",
    "Verif.P2P.Answers.unknown_refused",
    "Verif.P2P.Answers.retry_is_garbled",
    "Verif.P2P.Answers.refused",
    "Verif.P2P.Answers.bad_candidate_reported_good",
    "Verif.P2P.Answers.refused_answer_stays",
    "Verif.P2P.Answers.oversize_blocks",
    "Verif.P2P.Answers.own_number_reported_good",
    "Verif.P2P.Answers.anyone_can_answer",
    "Verif.P2P.Answers.posts_at_once_mix"
   ],
   "note": "proved for sessions whose own posts are whole, accepted and one at a time, whatever is posted to other sessions; proved false otherwise: a repeated post is appended to the part that arrived before, a refused or too long message blocks the session for ever, a refused candidate is reported as a success, anyone can post under anyone's number, two posts at once are mixed"
  },
  {
   "property": "C14",
   "status": "partial",
   "theorems": [
    "Verif.TaskId.nearby_connections_have_distinct_ids_partial",
    "Verif.TaskId.ids_distinct_before_wrap_partial",
    "Verif.TaskId.concurrent_wrap_gives_equal_ids",
    "Verif.TaskId.ids_reused_after_cycle"
   ],
   "note": "equal ids are possible when several connections wrap concurrently (negation proved) and after a full cycle"
  },
  {
   "property": "C140",
   "status": "partial",
   "theorems": [
    "Verif.Client.LocalConns.expires_iff",
    "Verif.Client.LocalConns.closed_with_tunnel_partial",
    "Verif.Client.LocalConns.reader_closes",
    "Verif.Client.LocalConns.closed_in_time",
    "Verif.Client.LocalConns.speaking_ends",
    "Verif.Client.LocalConns.others_stay",
    "Verif.Client.LocalConns.lost_never_closed",
    "Verif.Client.LocalConns.late_stays_open",
    "Verif.Client.LocalConns.shared_number_stays_open",
    "Verif.Client.LocalConns.number_taken_over",
    "Verif.Client.LocalConns.lost_pile_up",
    "Verif.Client.LocalConns.mix"
   ],
   "note": "proved for the connections entered before the tunnel was closed, and with a LocalTimeout for all the client holds; proved false otherwise: a connection entered after Close, or under a number used twice, is never closed without a LocalTimeout, and a connection to a service whose address is too long for a Host line is never closed at all"
  },
  {
   "property": "C141",
   "status": "partial",
   "theorems": [
    "Verif.Reload.Decide.reload_applied_partial",
    "Verif.Reload.Decide.reload_again_partial",
    "Verif.Reload.Decide.refused_changes_nothing",
    "Verif.Reload.Decide.applied_sound",
    "Verif.Reload.Decide.unchanged_reported",
    "Verif.Reload.Decide.timeout_change_refused",
    "Verif.Reload.Decide.no_secret_no_reload",
    "Verif.Reload.Decide.out_of_range_no_reload",
    "Verif.Reload.Decide.explicit_zero_no_reload",
    "Verif.Reload.Decide.port_only_no_reload",
    "Verif.Reload.Decide.first_reload_panics",
    "Verif.Reload.Decide.first_reload_panics_plain",
    "Verif.Reload.Decide.stopped_reports_success",
    "Verif.Reload.Decide.text_core",
    "Verif.Reload.Decide.text_of_core",
    "Verif.Reload.Decide.g0_plain"
   ],
   "note": "proved for clients whose options the start does not change and services that differ in prefix, URL, port or random port (SHA-256 assumed not to collide on the two texts); proved false otherwise: a change of LocalTimeout or UseLocalAsHTTPHost alone is refused; a client without a secret, with numbers out of range, an explicit zero or a port-only web address can never reload; a client whose services were refused at the start is killed by the first valid reload"
  },
  {
   "property": "C142",
   "status": "partial",
   "theorems": [
    "Verif.Util.LogCrash.generations_go_up",
    "Verif.Util.LogCrash.gen_of_cur",
    "Verif.Util.LogCrash.locks_left_by_crashes_only",
    "Verif.Util.LogCrash.link_kept_on_failure",
    "Verif.Util.LogCrash.files_only_grow",
    "Verif.Util.LogCrash.success_is_one_line_partial",
    "Verif.Util.LogCrash.full_file_is_left",
    "Verif.Util.LogCrash.failure_is_a_beginning",
    "Verif.Util.LogCrash.logging_resumes",
    "Verif.Util.LogCrash.link_leads_to_the_line",
    "Verif.Util.LogCrash.lines_lost_although_a_file_is_open",
    "Verif.Util.LogCrash.link_stuck_after_a_crash",
    "Verif.Util.LogCrash.restart_goes_back",
    "Verif.Util.LogCrash.closed_same_day"
   ],
   "note": "proved: no byte is lost, success means the whole line once, in a file of its day, a full file is left, logging resumes when the disk does, the link is right without failures and crashes; proved false: after a crash between making the lock file and removing it the link is stuck for that day, for every later process; while a new file cannot be opened the lines are lost although the old one is open; a restarted program goes back to the first file of the day; after Close the writes of the same day fail"
  },
  {
   "property": "C143",
   "status": "proved",
   "theorems": [
    "Verif.Config.Duration.unit_choice",
    "Verif.Config.Duration.round_trip",
    "Verif.Config.Duration.reads_exactly",
    "Verif.Config.Duration.written_denotes",
    "Verif.Config.Duration.written_inj",
    "Verif.Config.Duration.accepted_form",
    "Verif.Config.Duration.unit_needed",
    "Verif.Config.Duration.refused_keeps",
    "Verif.Config.Duration.json_needs_text",
    "Verif.Config.Duration.negative_accepted",
    "Verif.Config.Duration.wraps_to_zero"
   ],
   "note": "time.ParseDuration and Duration.String (Go standard library, not in /repo) are modelled from the published source; one floating-point expression is a parameter assumed exact for whole results. Also proved: negative durations are accepted, and a text of twice 2^63 ns is accepted as zero"
  },
  {
   "property": "C144",
   "status": "proved",
   "theorems": [
    "Verif.Bufio.Writer.one_call",
    "Verif.Bufio.Writer.stream",
    "Verif.Bufio.Writer.call_returns",
    "Verif.Bufio.Writer.no_failure",
    "Verif.Bufio.Writer.flush_empties",
    "Verif.Bufio.Writer.example_run"
   ],
   "note": "exported API of libcs/bufio, which gt itself does not call; Writer.ReadFrom and writers reporting more than they were given are not modelled"
  },
  {
   "property": "C145",
   "status": "partial",
   "theorems": [
    "Verif.Bufio.Scanner.lines_exact_partial",
    "Verif.Bufio.Scanner.bytes_exact",
    "Verif.Bufio.Runes.runes_exact",
    "Verif.Bufio.Runes.ranged_unique",
    "Verif.Bufio.Runes.ranged_text",
    "Verif.Bufio.Words.words_exact",
    "Verif.Bufio.Words.words_exist",
    "Verif.Bufio.Words.words_unique",
    "Verif.Bufio.Scanner.too_long",
    "Verif.Bufio.Scanner.token_after_too_long",
    "Verif.Bufio.Scanner.exact_fit_depends_on_reader",
    "Verif.Bufio.Scanner.no_progress_reported",
    "Verif.Bufio.Scanner.final_token",
    "Verif.Bufio.Scanner.empty_tokens"
   ],
   "note": "the last clause fails: after ErrTooLong the next Scan returns true with the contents of the buffer as a token (token_after_too_long, for every such input); a last line of exactly the largest size is delivered or refused depending on the reader. user-written split functions are not modelled; exported API of libcs/bufio, which gt itself does not call"
  },
  {
   "property": "C146",
   "status": "partial",
   "theorems": [
    "Verif.Util.Rand.well_formed_partial",
    "Verif.Util.Rand.uniform",
    "Verif.Util.Rand.letter_inj",
    "Verif.Util.Rand.port_range",
    "Verif.Util.Rand.same_second",
    "Verif.Util.Rand.clients_same_secret",
    "Verif.Util.Rand.guessable",
    "Verif.Util.Rand.first_start_open",
    "Verif.Util.Rand.example_first_start"
   ],
   "note": "form, uniformity and single use are proved; the rest is proved false: the generator is math/rand seeded with the second of the start, so programs started in the same second make up the same secrets, every secret is one of as many guesses as there are possible seconds (times possible orders), and such a login opens the web interface after a first start. The generator's algorithm is not modelled"
  },
  {
   "property": "C147",
   "status": "partial",
   "theorems": [
    "Verif.P2P.Native.released_once",
    "Verif.P2P.Native.released_after_closing",
    "Verif.P2P.Native.released_was_made",
    "Verif.P2P.Native.one_object",
    "Verif.P2P.Native.answer_before_offer",
    "Verif.P2P.Native.sound_partial",
    "Verif.P2P.Native.nothing_left_partial",
    "Verif.P2P.Native.refused_object_is_fatal",
    "Verif.P2P.Native.use_after_release",
    "Verif.P2P.Native.second_report_is_fatal",
    "Verif.P2P.Native.two_get_offers_fatal",
    "Verif.P2P.Native.all_but_one_left",
    "Verif.P2P.Native.get_offer_makes_another",
    "Verif.P2P.Native.one_left"
   ],
   "note": "at most one release per session is proved for every interleaving, as is soundness when the library accepts the configuration, one offer is asked for and no request is being served at the close; each of these conditions is needed, which is proved: a refused object ends the client when its session closes, a request being served at the close uses released memory, two get-offer requests on one session close a channel twice on the library's thread, and of the objects a session makes only one is ever released. The library itself is represented by its contract"
  },
  {
   "property": "C148",
   "status": "partial",
   "theorems": [
    "Verif.P2P.Children.kills_once",
    "Verif.P2P.Children.killed_after_closing",
    "Verif.P2P.Children.kills_own",
    "Verif.P2P.Children.child_ends_partial",
    "Verif.P2P.Children.none_running_partial",
    "Verif.P2P.Children.never_killed_later",
    "Verif.P2P.Children.closed_early",
    "Verif.P2P.Children.first_ends",
    "Verif.P2P.Children.no_limit"
   ],
   "note": "kills of own children only, at most one and only when closing are proved for every interleaving, and that the only child of a session ends with it if it was remembered before the close; the rest is proved false: a session closed while its child is being started leaves it running for ever, each further get-offer request on a session starts one more child without limit and only the last is ever killed, and the end of an earlier child closes the session and leaves the later ones running. What the child does by itself is not modelled here"
  },
  {
   "property": "C149",
   "status": "partial",
   "theorems": [
    "Verif.Bufio.ReadRune.runes_exact",
    "Verif.Bufio.ReadRune.runes_after_error",
    "Verif.Bufio.ReadRune.unread_restores",
    "Verif.Bufio.ReadRune.unread_byte_after_rune",
    "Verif.Bufio.ReadRune.unread_refused_partial",
    "Verif.Bufio.ReadRune.unread_after_discard_rune",
    "Verif.Bufio.ReadRune.sized_ranged"
   ],
   "note": "the runes and sizes are exact for every segmentation and UnreadRune directly after ReadRune restores; that UnreadRune is refused otherwise is proved for every history without Discard and proved false with it: Discard does not clear lastRuneSize, so UnreadRune after ReadRune and Discard succeeds and can leave the reader inside a rune"
  },
  {
   "property": "C15",
   "status": "proved",
   "theorems": [
    "Verif.SyncMap.map_is_a_map"
   ],
   "note": "sequential use"
  },
  {
   "property": "C150",
   "status": "partial",
   "theorems": [
    "Verif.Bufio.WriteTo.write_to_in_order",
    "Verif.Bufio.WriteTo.short_write_reported",
    "Verif.Bufio.WriteTo.write_to_exact_partial",
    "Verif.Bufio.WriteTo.write_to_again_partial",
    "Verif.Bufio.WriteTo.error_with_data_lost",
    "Verif.Bufio.WriteTo.limited_error_lost"
   ],
   "note": "order and conservation are proved for everything; that the bytes end at the reader's first error and that it is returned is proved for readers that report errors apart from data (as TCP connections do) and proved false otherwise, for Reader.WriteTo and for LimitedReader.WriteTo: an error that comes with data is overwritten by the next read and the copy goes on behind it. Destinations with ReadFrom and readers with WriteTo, to which the call is passed on, are not modelled"
  },
  {
   "property": "C151",
   "status": "partial",
   "theorems": [
    "Verif.Web.Link.link_leads_partial",
    "Verif.Web.Link.tls_iff_configured_partial",
    "Verif.Web.Link.certificate_dropped",
    "Verif.Web.Link.no_config_no_tls",
    "Verif.Web.Link.busy_port_wrong_link",
    "Verif.Web.Link.busy_v6_never",
    "Verif.Web.Link.service_name_no_link",
    "Verif.Web.Link.port_zero_wrong"
   ],
   "note": "proved for every port, host:port and bracketed IPv6 address with a numeric port other than 0, with arguments, and without arguments if no certificate is configured and the port is free; proved false otherwise: without arguments a configured certificate is dropped and the console speaks plain text behind an https link, a busy port is replaced by one the link does not name, an IPv6 address with a busy port never starts; port names and port 0 have no working link. net/url is modelled for characters of names and addresses only"
  },
  {
   "property": "C152",
   "status": "partial",
   "theorems": [
    "Verif.Tunnel.Torn.frames_stay_whole_partial",
    "Verif.Tunnel.Torn.every_write_accounted",
    "Verif.Tunnel.Torn.nothing_after_failure",
    "Verif.Tunnel.Torn.torn_frame_delivered",
    "Verif.Tunnel.Torn.blocked_only_so_long_partial",
    "Verif.Tunnel.Torn.stalled_for_ever"
   ],
   "note": "whole frames are proved for connections that remember a failed write (TLS) and for tunnels without a timeout; on TCP with a timeout proved false: after a write that failed half done the next writer is let through before the tunnel is closed, and its frame is delivered as data of the first visitor. That a blocked write ends is proved relative to the last call of Write by anybody on the tunnel, and proved false relative to its own call: every further write moves the deadline for all. QUIC connections are not modelled here"
  },
  {
   "property": "C153",
   "status": "partial",
   "theorems": [
    "Verif.Server.Halt.shutdown_ends_partial",
    "Verif.Server.Halt.close_ends_partial",
    "Verif.Server.Halt.told_before_closed",
    "Verif.Server.Halt.late_clients_not_told",
    "Verif.Server.Halt.no_timeout_never_ends"
   ],
   "note": "proved with a timeout: the shutdown ends, every client with a tunnel is told once and every tunnel is closed once, within 120 s, the locks and one timeout for each client and each tunnel. Proved false: that this is within three minutes (two clients that do not read use them up, and later clients are never told); without a timeout one such client is enough for the shutdown never to end. Other writers on the same tunnels are left out (C152)"
  },
  {
   "property": "C154",
   "status": "partial",
   "theorems": [
    "Verif.Bufio.Writer.read_from_copies_partial",
    "Verif.Bufio.Writer.readFrom_returns",
    "Verif.Bufio.Writer.copies_all",
    "Verif.Bufio.Writer.direct_copies",
    "Verif.Bufio.Writer.source_error_sticks"
   ],
   "note": "everything is proved for underlying writers that are no io.ReaderFrom; for one that is, proved false that later writes work after an error of the source: the error is kept as the writer's own. The direct copy is simplified to one whose writes succeed"
  },
  {
   "property": "C155",
   "status": "partial",
   "theorems": [
    "Verif.Quic.Close.closed_is_closed_partial",
    "Verif.Quic.Close.handled_prefix",
    "Verif.Quic.Close.quic_reads_on",
    "Verif.Quic.Close.quic_never_released",
    "Verif.Quic.Close.quic_reader_ends"
   ],
   "note": "proved for TCP, TLS and BBR; proved false over QUIC: Close ends the sending direction of the stream only, so a client's further data is handled until its next ping, its end or the read deadline, and the QUIC connection stays until the client leaves or is silent. That quic.Connection of quic-go 0.40 has no Close, and what Close of its stream does, is taken from its documentation (the library is not in the repository). Without a timeout frames that are already in the buffer of the reader are still handled after a close on any transport (stated exactly in the theorem)"
  },
  {
   "property": "C16",
   "status": "proved",
   "theorems": [
    "Verif.SyncMap.linearizable",
    "Verif.SyncMap.single_creator",
    "Verif.SyncMap.same_value"
   ],
   "note": "Interleaving model of map.go and create.go at the granularity of single atomic accesses, any number of threads. linearizable: every history of calls and returns (Load, Store, LoadOrStore, LoadOrCreate, LoadAndDelete, Delete, and Range per key) is one of an atomic plain map. single_creator / same_value: the two halves of the property as consequences on histories."
  },
  {
   "property": "C17",
   "status": "proved",
   "theorems": [
    "Verif.Idle.parking_keeps_minimum",
    "Verif.Idle.parking_alone_keeps_minimum",
    "Verif.Idle.init_parks_iff_minimum_met"
   ],
   "note": "reachable states under every interleaving of the manager's atomic sections"
  },
  {
   "property": "C18",
   "status": "partial",
   "theorems": [
    "Verif.Idle.waiter_decisions",
    "Verif.Idle.lock_is_released",
    "Verif.Idle.woken_waiter_returns",
    "Verif.Idle.idle_wakeup_is_lost",
    "Verif.Idle.close_wakeup_is_lost",
    "Verif.Idle.close_releases_sleepers_partial"
   ],
   "note": "false of the code (two lost wake-ups proved); decisions, wake-up by broadcast and release at close of waiters already asleep proved"
  },
  {
   "property": "C19",
   "status": "proved",
   "theorems": [
    "Verif.Limits.Token.ungenerated_key_rejected",
    "Verif.Limits.Token.key_accepted_iff"
   ],
   "note": "guessability of the math/rand keys is not expressible"
  },
  {
   "property": "C20",
   "status": "partial",
   "theorems": [
    "Verif.Limits.speed_limit_conserves_partial",
    "Verif.Limits.speed_limit_conserves_own_buffers_partial",
    "Verif.Limits.speed_limit_bypassed"
   ],
   "note": "holds unless a frame announces more than 2^32-speed bytes; then the uint32 counter wraps and the limit is proved to be bypassed"
  },
  {
   "property": "C21",
   "status": "partial",
   "theorems": [
    "Verif.Limits.Reconnect.few_failures_never_refused",
    "Verif.Limits.Reconnect.many_failures_refused",
    "Verif.Limits.Reconnect.other_ips_do_not_matter",
    "Verif.Limits.Reconnect.blocked_for_the_duration_partial",
    "Verif.Limits.Reconnect.late_failure_shortens_block"
   ],
   "note": "the duration holds unless a connection that passed the check earlier fails after the block began (counterexample proved)"
  },
  {
   "property": "C22",
   "status": "partial",
   "theorems": [
    "Verif.Registry.config_mode_accepts_iff",
    "Verif.Registry.configured_user_keeps_secret",
    "Verif.Registry.created_secret_holds_partial",
    "Verif.Registry.live_was_accepted",
    "Verif.Registry.live_tunnel_had_the_secret",
    "Verif.Registry.created_secret_race",
    "Verif.Registry.created_user_leaks"
   ],
   "note": "configured users: proved for every history. Creation mode: proved while no tunnel of the id leaves; with leaving tunnels two different secrets can be live (negation proved)"
  },
  {
   "property": "C23",
   "status": "partial",
   "theorems": [
    "Verif.Registry.health_credentials_only_during_check_partial",
    "Verif.Registry.health_credentials_external",
    "Verif.Registry.empty_credentials_accepted"
   ],
   "note": "first half proved; second half is false in creation mode (negation proved)"
  },
  {
   "property": "C24",
   "status": "partial",
   "theorems": [
    "Verif.Registry.accepted_join_is_routed",
    "Verif.Registry.first_join_is_routed_exactly",
    "Verif.Registry.registry_exact_partial",
    "Verif.Registry.prefixes_released_partial",
    "Verif.Registry.refused_leaves_registry",
    "Verif.Registry.no_takeover",
    "Verif.Registry.tcp_failure_leaks_prefix",
    "Verif.Registry.partial_reload_loses_prefix"
   ],
   "note": "exclusivity (no take-over) for every history; exactness and release for histories without TCP-open failures and partially failing reloads, for which leaks are proved"
  },
  {
   "property": "C25",
   "status": "proved",
   "theorems": [
    "Verif.Registry.tunnels_within_limit",
    "Verif.Registry.configured_tunnels_within_limit",
    "Verif.Registry.InitRace.never_more_than_limit"
   ],
   "note": ""
  },
  {
   "property": "C26",
   "status": "proved",
   "theorems": [
    "Verif.Registry.least_loaded_tunnel"
   ],
   "note": ""
  },
  {
   "property": "C27",
   "status": "partial",
   "theorems": [
    "Verif.Ports.port_accounting_partial",
    "Verif.Ports.ports_returned_partial",
    "Verif.Ports.open_ports_are_allowed",
    "Verif.Ports.no_reopen_failure_if_granted",
    "Verif.Ports.stale_listener_double_open",
    "Verif.Ports.handover_race"
   ],
   "note": "allowed pools: proved for every history. Exclusive opening and partition: for histories in which no reload fails to reopen a port (always so if the OS grants binds); negation proved otherwise, and for the interleaving inside a hand-over"
  },
  {
   "property": "C28",
   "status": "partial",
   "theorems": [
    "Verif.Ports.requested_ports_opened_partial",
    "Verif.Ports.port_choice",
    "Verif.Ports.reload_keeps_old_port",
    "Verif.Ports.retry_opens_old_port"
   ],
   "note": "false of the code (negation proved); proved for first requests and unchanged ports"
  },
  {
   "property": "C29",
   "status": "partial",
   "theorems": [
    "Verif.Ports.Range.range_accepted_iff",
    "Verif.Ports.Range.range_denotes",
    "Verif.Ports.Range.range_bounds_partial",
    "Verif.Ports.Range.empty_range_accepted",
    "Verif.Ports.Range.pools_are_separate"
   ],
   "note": "everything but nonemptiness of 0-0, which is accepted and empty (negation proved)"
  },
  {
   "property": "C30",
   "status": "partial",
   "theorems": [
    "Verif.Client.HostRewrite.host_is_the_header",
    "Verif.Client.HostRewrite.host_limit",
    "Verif.Client.HostRewrite.host_rewritten_partial",
    "Verif.Client.HostRewrite.no_host_line_partial",
    "Verif.Client.HostRewrite.end_of_request_withheld",
    "Verif.Client.HostRewrite.lower_case_host_not_rewritten"
   ],
   "note": "proved for requests with a Host line; without one up to 4 bytes are withheld (negation proved). The aliasing of the pooled buffer is C122"
  },
  {
   "property": "C31",
   "status": "proved",
   "theorems": [
    "Verif.Client.Chunked.size_line_lenient",
    "Verif.Client.Chunked.eof_means_well_formed",
    "Verif.Client.Chunked.chunked_roundtrip",
    "Verif.Client.Chunked.chunked_complete",
    "Verif.Client.Chunked.parse_hex_exact",
    "Verif.Client.Chunked.hex_digits",
    "Verif.Client.Chunked.empty_length_is_zero"
   ],
   "note": "an empty chunk-size line is taken as 0"
  },
  {
   "property": "C32",
   "status": "proved",
   "theorems": [
    "Verif.Client.Pipe.close_errors",
    "Verif.Client.Pipe.closed_calls_return",
    "Verif.Client.Pipe.pipe_is_fifo",
    "Verif.Client.Pipe.write_returns_after_reads",
    "Verif.Client.Pipe.handoff_completes",
    "Verif.Client.Pipe.close_releases",
    "Verif.Client.Pipe.eof_only_after_close"
   ],
   "note": ""
  },
  {
   "property": "C33",
   "status": "partial",
   "theorems": [
    "Verif.Client.ApiConn.api_close_sends_close",
    "Verif.Client.ApiConn.api_write_sends_payload",
    "Verif.Client.ApiConn.api_write_succeeds",
    "Verif.Client.ApiConn.api_bytes_reach_the_public_connection",
    "Verif.Client.ApiConn.api_write_count_wrong",
    "Verif.Client.ApiConn.empty_write_crashes_reader",
    "Verif.Client.ApiConn.resp_and_close_partial",
    "Verif.Client.ApiConn.resp_empty",
    "Verif.Client.ApiConn.resp_truncated"
   ],
   "note": "the payload is delivered whole and in order; the returned count is proved wrong (it counts frame headers); an empty write and oversized final responses are proved to misbehave"
  },
  {
   "property": "C34",
   "status": "partial",
   "theorems": [
    "Verif.Config.Services.options_attach_partial",
    "Verif.Config.Services.command_line_refused",
    "Verif.Config.Services.random_flag_actual",
    "Verif.Config.Services.random_flag_partial",
    "Verif.Config.Services.random_flag_wrong",
    "Verif.Config.Services.accepted_iff",
    "Verif.Config.Services.accepted_services",
    "Verif.Config.Services.defaults_only_unset",
    "Verif.Config.Services.missing_local_panics"
   ],
   "note": "every option but -remoteTCPRandom (aliased loop variable, negation proved); a service without `local` is proved to panic. parsing of option values: C98"
  },
  {
   "property": "C35",
   "status": "partial",
   "theorems": [
    "Verif.Client.Counts.counts_nearest",
    "Verif.Client.Counts.counts_clamped",
    "Verif.Client.Counts.loops_per_remote",
    "Verif.Client.Counts.peer_table_within_limit",
    "Verif.Client.Counts.live_peers_within_limit_partial",
    "Verif.Client.Counts.peer_limit_exceeded"
   ],
   "note": "clamping, loops per remote and the size of the peer table proved; the number of live peers can exceed the limit when a closing task deletes a newer task's entry (negation proved)"
  },
  {
   "property": "C36",
   "status": "partial",
   "theorems": [
    "Verif.Config.Merge.saved_reads_back",
    "Verif.Config.Merge.saved_restarts",
    "Verif.Config.Merge.services_saved",
    "Verif.Config.Merge.posted_reads_back_partial",
    "Verif.Config.Merge.user_limits_saved_partial",
    "Verif.Config.Merge.unnamed_not_saved",
    "Verif.Config.Merge.saved_elsewhere",
    "Verif.Config.Merge.user_limits_lost",
    "Verif.Config.OptionTable.client_saved_by_name_partial",
    "Verif.Config.OptionTable.server_saved_by_name_partial",
    "Verif.Config.OptionTable.credentials_not_posted",
    "Verif.Config.OptionTable.schemas_ok",
    "Verif.Config.OptionTable.server_users_not_saved",
    "Verif.Config.OptionTable.client_names",
    "Verif.Config.OptionTable.server_names"
   ],
   "note": "merged options and services read back exactly; proved false when the program was started with a file other than the default (the UI saves elsewhere) and for users' explicit zero limits. YAML/JSON codecs trusted"
  },
  {
   "property": "C37",
   "status": "partial",
   "theorems": [
    "Verif.Util.BlockValue.get_returns_latest",
    "Verif.Util.BlockValue.getters_released",
    "Verif.Util.BlockValue.get_after_set_does_not_block",
    "Verif.Util.BlockValue.sets_never_panic_partial",
    "Verif.Util.BlockValue.concurrent_sets_panic"
   ],
   "note": "two concurrent first Sets can panic (negation proved)"
  },
  {
   "property": "C38",
   "status": "partial",
   "theorems": [
    "Verif.Util.Stdio.go_reads_messages_partial",
    "Verif.Util.Stdio.rust_reads_messages",
    "Verif.Util.Stdio.hex_reads_messages",
    "Verif.Util.Stdio.oversized_rejected",
    "Verif.Util.Stdio.long_message_refused",
    "Verif.Util.Stdio.split_length_corrupts"
   ],
   "note": "Rust reader and hex framing: every segmentation. Go reader: if each length prefix arrives in one read; otherwise proved wrong"
  },
  {
   "property": "C39",
   "status": "proved",
   "theorems": [
    "Verif.Client.Ping.parked_at_the_sixth",
    "Verif.Client.Ping.closing_tunnel_ends",
    "Verif.Client.Ping.loop_ends_only",
    "Verif.Client.Ping.responsive_server_never_dead",
    "Verif.Client.Ping.prompt_server_never_dead",
    "Verif.Client.Ping.silent_server_detected",
    "Verif.Client.Ping.unsolicited_pings_postpone_detection",
    "Verif.Client.Ping.traffic_does_not_reset",
    "Verif.Client.Ping.parked_only_when_quiet"
   ],
   "note": "for servers that answer pings only (a server sending unsolicited pings postpones detection, proved)"
  },
  {
   "property": "C40",
   "status": "partial",
   "theorems": [
    "Verif.Util.RotateLogs.write_total",
    "Verif.Util.RotateLogs.rotation_opens_fresh",
    "Verif.Util.RotateLogs.purge_keeps_at_most_count",
    "Verif.Util.RotateLogs.greatest_not_unlinked",
    "Verif.Util.RotateLogs.live_log_kept_partial",
    "Verif.Util.RotateLogs.tenth_rotation_deletes_live_log",
    "Verif.Util.RotateLogs.lost_log_never_rotates",
    "Verif.Util.RotateLogs.restart_deletes_live_log"
   ],
   "note": "the live log is kept below ten generations; at the tenth rotation in one second it is proved to be deleted. Age-based purging is C132; failures of the operating system are not modelled"
  },
  {
   "property": "C41",
   "status": "partial",
   "theorems": [
    "Verif.Web.ConnFilter.external_exact_partial",
    "Verif.Web.ConnFilter.selected_sound_partial",
    "Verif.Web.ConnFilter.lists_partition",
    "Verif.Web.ConnFilter.ipv6_tunnel_listed_external"
   ],
   "note": "partition proved; for IPv6 the exclusion is proved not to match (brackets)"
  },
  {
   "property": "C42",
   "status": "partial",
   "theorems": [
    "Verif.Client.PeerMsg.process_total",
    "Verif.Client.PeerMsg.handled_are_the_messages",
    "Verif.Client.PeerMsg.messages_reassembled",
    "Verif.Client.PeerMsg.oversize_refused",
    "Verif.Client.PeerMsg.response_framed_partial",
    "Verif.Client.PeerMsg.response_parses_back_partial",
    "Verif.Client.PeerMsg.response_truncated",
    "Verif.Client.PeerMsg.failed_message_stays"
   ],
   "note": "reassembly and rejection for every segmentation; responses parse back if no message is longer than 4094 bytes, longer ones are proved truncated"
  },
  {
   "property": "C43",
   "status": "partial",
   "theorems": [
    "Verif.Server.Accounting.gives_up_after_forty",
    "Verif.Server.Accounting.counters_balance",
    "Verif.Server.Accounting.counters_balance_mod",
    "Verif.Server.Accounting.all_ended_balances",
    "Verif.Server.Accounting.shutdown_wait_bounded",
    "Verif.Server.Accounting.shutdown_never_stuck",
    "Verif.Server.Accounting.early_stop_is_idle_partial",
    "Verif.Server.Accounting.idle_round_stops",
    "Verif.Server.Accounting.late_tunnel_ends_wait"
   ],
   "note": "accounting and bounded wait for every interleaving; the wait may stop early when a tunnel is accepted during the check (negation proved)"
  },
  {
   "property": "C44",
   "status": "partial",
   "theorems": [
    "Verif.Util.Backoff.backoff_delay",
    "Verif.Util.Backoff.backoff_doubles_partial",
    "Verif.Util.Backoff.accept_all_until_fatal",
    "Verif.Util.Backoff.delay_not_reset"
   ],
   "note": "the delay is never reset after a successful accept (negation proved)"
  },
  {
   "property": "C45",
   "status": "proved",
   "theorems": [
    "Verif.Util.CloseOnce.local_close_is_not_remote",
    "Verif.Util.CloseOnce.remote_close_is_remote",
    "Verif.Util.CloseOnce.transport_closed_once",
    "Verif.Util.CloseOnce.reason_is_the_first"
   ],
   "note": ""
  },
  {
   "property": "C46",
   "status": "proved",
   "theorems": [
    "Verif.Config.merged_users",
    "Verif.Config.users_accepted_iff",
    "Verif.Config.users_no_panic",
    "Verif.Config.empty_user_entry_panics"
   ],
   "note": "an empty YAML entry (nil user) crashes the server at start; everything else is as claimed"
  },
  {
   "property": "C47",
   "status": "partial",
   "theorems": [
    "Verif.Handshake.oversized_handshake_truncated",
    "Verif.Handshake.fitting_handshake_whole_partial"
   ],
   "note": "false of the code (negation proved)"
  },
  {
   "property": "C48",
   "status": "partial",
   "theorems": [
    "Verif.Tunnel.signals_do_not_disturb_partial",
    "Verif.Tunnel.reconnect_desynchronises"
   ],
   "note": "proved for ping, ready, services and info at any place (close ends the tunnel; what it leaves is client_demultiplexes, C10); proved false for reconnect"
  },
  {
   "property": "C49",
   "status": "partial",
   "theorems": [
    "Verif.Config.Merge.flag_wins_partial",
    "Verif.Config.Merge.file_next",
    "Verif.Config.Merge.default_last",
    "Verif.Config.Merge.explicit_zero_lost",
    "Verif.Config.Merge.server_refuses_bad_file",
    "Verif.Config.Merge.client_ignores_bad_file",
    "Verif.Config.Merge.client_start_eq",
    "Verif.Config.OptionTable.client_options_by_name",
    "Verif.Config.OptionTable.server_options_by_name",
    "Verif.Config.OptionTable.options_by_name_no_file"
   ],
   "note": "proved for nonzero values; explicit zeros are proved to be replaced by the default; a client is proved to ignore an unreadable file (and its flags)"
  },
  {
   "property": "C50",
   "status": "partial",
   "theorems": [
    "Verif.Config.Merge.crash_old_or_new_partial",
    "Verif.Config.Merge.crash_loses_config"
   ],
   "note": "false of the code (negation proved); never a mixture"
  },
  {
   "property": "C51",
   "status": "proved",
   "theorems": [
    "Verif.Tunnel.client_tunnel_end",
    "Verif.Tunnel.closing_ping_is_third",
    "Verif.Tunnel.idle_closing_tunnel_ends",
    "Verif.Tunnel.unknown_service_ends_tunnel",
    "Verif.Tunnel.server_tunnel_end"
   ],
   "note": "client: every byte stream; server: every byte stream and environment"
  },
  {
   "property": "C52",
   "status": "proved",
   "theorems": [
    "Verif.Manager.collected_iff_wanted",
    "Verif.Manager.collected_once",
    "Verif.Manager.collect_fails_iff",
    "Verif.Manager.single_file",
    "Verif.Manager.started_exactly",
    "Verif.Manager.start_fails_iff",
    "Verif.Manager.batch_start",
    "Verif.Manager.batch_start_only",
    "Verif.Manager.roleOf_config",
    "Verif.Manager.limit_255_violated",
    "Verif.Manager.connect_args_ignored"
   ],
   "note": "depth limit 255 is proved to be no limit (u8 wrap-around); `gt connect -c file` is proved to ignore its arguments. The directory walk sees a fixed file system; YAML parsing trusted"
  },
  {
   "property": "C53",
   "status": "partial",
   "theorems": [
    "Verif.Manager.Reload.reload_hitless",
    "Verif.Manager.Reload.reload_hitless_groups_partial",
    "Verif.Manager.Reload.reload_complete",
    "Verif.Manager.Reload.reload_ends",
    "Verif.Manager.Reload.two_groups_interrupt",
    "Verif.Manager.Reload.crash_interrupts",
    "Verif.Manager.Reload.reconnect_interrupts"
   ],
   "note": "proved when all configurations are of one kind and no new process is replaced before all are ready; otherwise negations proved (two kinds, crash, reconnect)"
  },
  {
   "property": "C54",
   "status": "proved",
   "theorems": [
    "Verif.Manager.Supervise.one_process",
    "Verif.Manager.Supervise.restarts_spaced",
    "Verif.Manager.Supervise.outage_bounded",
    "Verif.Manager.Supervise.restart_possible",
    "Verif.Manager.Supervise.no_resurrection",
    "Verif.Manager.Supervise.killed",
    "Verif.Manager.Supervise.pause_after_crash",
    "Verif.Manager.Supervise.reconnect_failure_unsupervised",
    "Verif.Manager.Supervise.crash_while_stopping_restarts"
   ],
   "note": "every sequence of events; time passes only when nothing is ready (no scheduling latency). A failed replacement leaves the process unsupervised, and a crash during a shutdown is restarted (both proved)"
  },
  {
   "property": "C55",
   "status": "proved",
   "theorems": [
    "Verif.Registry.route_was_asked_for",
    "Verif.Registry.platform_routes_allowed",
    "Verif.Registry.platform_example",
    "Verif.Registry.platform_revocation_leaks",
    "Verif.Registry.platform_grant_ignored"
   ],
   "note": "also proved: a prefix the API no longer allows (or allows only now) is not taken into account while the client's request is unchanged, because the checksum does not cover the API's answer"
  },
  {
   "property": "C56",
   "status": "partial",
   "theorems": [
    "Verif.Registry.InitRace.never_more_than_limit",
    "Verif.Registry.InitRace.refused_at_limit_partial",
    "Verif.Registry.InitRace.refused_below_limit",
    "Verif.Registry.InitRace.dropped_silently",
    "Verif.Registry.InitRace.sequential_example"
   ],
   "note": "the limit is never exceeded; refusal below the limit is proved possible while the first tunnel is still initialising the client object"
  },
  {
   "property": "C57",
   "status": "partial",
   "theorems": [
    "Verif.P2P.Table.p2p_isolated_partial",
    "Verif.P2P.Table.p2p_deadlock",
    "Verif.P2P.Table.deadlock_is_permanent",
    "Verif.P2P.Table.late_frame_blocks",
    "Verif.P2P.Table.p2p_crosstalk",
    "Verif.P2P.Table.twoServers_perTunnel"
   ],
   "note": "proved when the numbers of P2P visitors are not used on any other tunnel (one server); with two servers, each numbering its visitors from 1, proved false: the reader of a tunnel locks a mutex it already holds, for ever, and bytes of one server's visitor reach the session of another's"
  },
  {
   "property": "C58",
   "status": "partial",
   "theorems": [
    "Verif.P2P.Session.answer_relayed_partial",
    "Verif.P2P.Session.offer_never_answered",
    "Verif.P2P.Session.offer_answer_lost",
    "Verif.P2P.Session.requested_offer_empty",
    "Verif.P2P.Session.child_answers"
   ],
   "note": "the relaying is right if the process answers first; the process of this repository echoes its configuration first, and it is proved that every visitor then receives an empty answer"
  },
  {
   "property": "C59",
   "status": "partial",
   "theorems": [
    "Verif.P2P.Routes.reaches_only_services",
    "Verif.P2P.Routes.prefix_reached_partial",
    "Verif.P2P.Routes.at_prefix_reached_partial",
    "Verif.P2P.Routes.no_tcp_service_reached",
    "Verif.P2P.Routes.no_command_line_service_reached",
    "Verif.P2P.Routes.no_default_prefix_service_reached",
    "Verif.P2P.Routes.routing_wrong"
   ],
   "note": "safety for every label; reachability for services of the file with an explicit prefix; every other kind of service is proved unreachable"
  },
  {
   "property": "C60",
   "status": "proved",
   "theorems": [
    "Verif.P2P.PeerLoop.idle_only_when_quiet",
    "Verif.P2P.PeerLoop.open_channel_keeps_running",
    "Verif.P2P.PeerLoop.timeout_at_least_five",
    "Verif.P2P.PeerLoop.quiet_process_ends",
    "Verif.P2P.PeerLoop.quiet_example"
   ],
   "note": "the WebRTC library and the clock are inputs"
  },
  {
   "property": "C61",
   "status": "partial",
   "theorems": [
    "Verif.P2P.PeerLoop.messages_handled_partial",
    "Verif.P2P.PeerLoop.timeout_loses_message"
   ],
   "note": "proved when no timer fires in the middle of a message; otherwise a message is proved lost (the read is cancelled)"
  },
  {
   "property": "C62",
   "status": "partial",
   "theorems": [
    "Verif.P2P.ThreadIdle.unused_session_closed",
    "Verif.P2P.ThreadIdle.left_session_closed",
    "Verif.P2P.ThreadIdle.no_open_channel_cut_partial",
    "Verif.P2P.ThreadIdle.idle_timer_cuts_open_channel"
   ],
   "note": "proved when opening and closing are not interleaved; otherwise proved false"
  },
  {
   "property": "C63",
   "status": "partial",
   "theorems": [
    "Verif.Reload.Route.visitors_reach_their_service_partial",
    "Verif.Reload.Route.without_reload_never_wrong",
    "Verif.Reload.Route.early_visitor_crashes_tunnel",
    "Verif.Reload.Route.reload_new_index_in_old_list",
    "Verif.Reload.Route.reload_old_index_in_new_list",
    "Verif.Reload.Route.reload_two_tunnels",
    "Verif.Reload.Route.reload_undone_by_late_connection"
   ],
   "note": "proved when visitors come only while nothing is being set up; without reloads no visitor ever reaches a wrong service. Otherwise proved false: a visitor on a tunnel whose readiness was not yet announced crashes the tunnel; during a reload indexes are looked up in the wrong list; a tunnel opened at the wrong moment undoes the reload for good"
  },
  {
   "property": "C64",
   "status": "partial",
   "theorems": [
    "Verif.Reload.Wait.answer_keeps_tunnels",
    "Verif.Reload.Wait.success_means_updated_partial",
    "Verif.Reload.Wait.all_answered_ends_wait",
    "Verif.Reload.Wait.lost_tunnel_dooms_reloads",
    "Verif.Reload.Wait.failed_reload_dooms_next",
    "Verif.Reload.Wait.stray_error_ends_wait_early",
    "Verif.Reload.Wait.answer_after_early_end_kills_tunnel",
    "Verif.Reload.Wait.answer_before_add_kills_tunnel",
    "Verif.Reload.Wait.refused_reload_reports_success"
   ],
   "note": "success and progress proved if no connection attempt is refused during the reload; a tunnel lost before it answers is proved to make this and all later reloads end the process"
  },
  {
   "property": "C65",
   "status": "partial",
   "theorems": [
    "Verif.Client.Loop.lock_is_not_abandoned",
    "Verif.Client.Loop.open_client_has_all_loops",
    "Verif.Client.Loop.every_loop_can_try_again_partial",
    "Verif.Client.Loop.one_dial_holds_up_all",
    "Verif.Client.Loop.panic_stops_all_attempts",
    "Verif.Client.Loop.panic_blocks_shutdown",
    "Verif.Client.Loop.dial_panics_iff",
    "Verif.Client.Loop.dial_ok_iff",
    "Verif.Client.Loop.tls_and_tcp_never_panic"
   ],
   "note": "proved as long as no dial panics, which TLS and TCP dials never do; a QUIC dial that fails is proved to stop all loops of all remotes for ever, and a dial in progress to hold up all other loops"
  },
  {
   "property": "C66",
   "status": "partial",
   "theorems": [
    "Verif.Client.Loop.shutdown_tells_all_partial",
    "Verif.Client.Loop.loops_end_after_shutdown",
    "Verif.Client.Loop.late_tunnel_not_told",
    "Verif.Client.Loop.attempt_after_shutdown"
   ],
   "note": "proved if no connection is being set up when Shutdown begins; otherwise proved false"
  },
  {
   "property": "C67",
   "status": "proved",
   "theorems": [
    "Verif.Registry.no_takeover"
   ],
   "note": "the part of C24 that holds without exception; requests have distinct prefixes (C02: every parsed request does)"
  },
  {
   "property": "C68",
   "status": "proved",
   "theorems": [
    "Verif.Ports.open_ports_are_allowed"
   ],
   "note": "the part of C27 that holds without exception"
  },
  {
   "property": "C69",
   "status": "proved",
   "theorems": [
    "Verif.Registry.config_mode_accepts_iff",
    "Verif.Registry.configured_user_keeps_secret",
    "Verif.Registry.live_tunnel_had_the_secret"
   ],
   "note": "the part of C22 that holds without exception"
  },
  {
   "property": "C70",
   "status": "proved",
   "theorems": [
    "Verif.Route.sni_never_panics"
   ],
   "note": "the part of C07 that holds without exception"
  },
  {
   "property": "C71",
   "status": "proved",
   "theorems": [
    "Verif.Route.header_search",
    "Verif.Route.header_found",
    "Verif.Route.header_absent",
    "Verif.Route.http_route_by_host",
    "Verif.Route.http_route_by_header",
    "Verif.Route.host_request_routed",
    "Verif.Route.trimSpace_eq",
    "Verif.Route.trimSpace_spec"
   ],
   "note": "the part of C05 that holds without exception"
  },
  {
   "property": "C72",
   "status": "proved",
   "theorems": [
    "Verif.Server.Accounting.shutdown_wait_bounded",
    "Verif.Server.Accounting.shutdown_never_stuck",
    "Verif.Server.Accounting.gives_up_after_forty",
    "Verif.Server.Accounting.counters_balance",
    "Verif.Server.Accounting.counters_balance_mod",
    "Verif.Server.Accounting.all_ended_balances"
   ],
   "note": "the part of C43 that holds without exception"
  },
  {
   "property": "C73",
   "status": "proved",
   "theorems": [
    "Verif.Client.ApiConn.api_write_sends_payload",
    "Verif.Client.ApiConn.api_write_succeeds",
    "Verif.Client.ApiConn.api_bytes_reach_the_public_connection",
    "Verif.Client.ApiConn.api_close_sends_close"
   ],
   "note": "the part of C33 that holds without exception"
  },
  {
   "property": "C74",
   "status": "proved",
   "theorems": [
    "Verif.Client.PeerMsg.process_total",
    "Verif.Client.PeerMsg.handled_are_the_messages",
    "Verif.Client.PeerMsg.messages_reassembled",
    "Verif.Client.PeerMsg.oversize_refused"
   ],
   "note": "the part of C42 that holds without exception; messages whose handling fails: handled_are_the_messages"
  },
  {
   "property": "C75",
   "status": "proved",
   "theorems": [
    "Verif.Config.Merge.crash_leaves_prefix"
   ],
   "note": "the part of C50 that holds; that a crash can lose the old configuration is crash_loses_config"
  },
  {
   "property": "C76",
   "status": "proved",
   "theorems": [
    "Verif.Reload.Route.without_reload_never_wrong"
   ],
   "note": "the part of C63 that holds without exception"
  },
  {
   "property": "C77",
   "status": "proved",
   "theorems": [
    "Verif.P2P.Routes.reaches_only_services"
   ],
   "note": "the part of C59 that holds without exception"
  },
  {
   "property": "C78",
   "status": "proved",
   "theorems": [
    "Verif.Limits.Reconnect.few_failures_never_refused",
    "Verif.Limits.Reconnect.many_failures_refused",
    "Verif.Limits.Reconnect.other_ips_do_not_matter"
   ],
   "note": "the part of C21 that holds without exception"
  },
  {
   "property": "C79",
   "status": "proved",
   "theorems": [
    "Verif.Ports.Range.range_accepted_iff",
    "Verif.Ports.Range.range_denotes",
    "Verif.Ports.Range.pools_are_separate"
   ],
   "note": "the part of C29 that holds without exception"
  },
  {
   "property": "C80",
   "status": "proved",
   "theorems": [
    "Verif.Config.Services.accepted_iff",
    "Verif.Config.Services.accepted_services",
    "Verif.Config.Services.defaults_only_unset"
   ],
   "note": "the part of C34 that holds without exception"
  },
  {
   "property": "C81",
   "status": "proved",
   "theorems": [
    "Verif.Util.Stdio.rust_reads_messages",
    "Verif.Util.Stdio.hex_reads_messages",
    "Verif.Util.Stdio.oversized_rejected"
   ],
   "note": "the part of C38 that holds without exception"
  },
  {
   "property": "C82",
   "status": "proved",
   "theorems": [
    "Verif.Util.BlockValue.get_returns_latest",
    "Verif.Util.BlockValue.getters_released",
    "Verif.Util.BlockValue.get_after_set_does_not_block"
   ],
   "note": "the part of C37 that holds without exception"
  },
  {
   "property": "C83",
   "status": "proved",
   "theorems": [
    "Verif.Util.Backoff.backoff_delay",
    "Verif.Util.Backoff.accept_all_until_fatal"
   ],
   "note": "the part of C44 that holds without exception"
  },
  {
   "property": "C84",
   "status": "proved",
   "theorems": [
    "Verif.Bufio.reader_never_panics",
    "Verif.Bufio.errors_reported"
   ],
   "note": "the part of C08 that holds without exception"
  },
  {
   "property": "C85",
   "status": "proved",
   "theorems": [
    "Verif.Client.Loop.tls_tcp_client_keeps_trying",
    "Verif.Client.Loop.open_client_has_all_loops",
    "Verif.Client.Loop.tls_and_tcp_never_panic",
    "Verif.Client.Loop.dial_panics_iff"
   ],
   "note": "the part of C65 that holds without exception"
  },
  {
   "property": "C86",
   "status": "partial",
   "theorems": [
    "Verif.Client.Ready.tunnel_wakes_sleepers",
    "Verif.Client.Ready.ready_at_once",
    "Verif.Client.Ready.returned_stays",
    "Verif.Client.Ready.timeout_only_after_own_timer",
    "Verif.Client.Ready.ready_means_some_tunnel_partial",
    "Verif.Client.Ready.ready_without_tunnel",
    "Verif.Client.Ready.other_timeout_reports_ready",
    "Verif.Client.Ready.timeout_can_be_missed",
    "Verif.Client.Ready.missed_timeout_sleeps_on"
   ],
   "note": "no wake-up by a tunnel is lost, and an error is only reported after the caller's own timeout; proved false otherwise: a tunnel already lost is reported as ready, another caller's timeout is reported as ready, a timer that fires between look and registration is missed and the caller sleeps on"
  },
  {
   "property": "C87",
   "status": "proved",
   "theorems": [
    "Verif.Process.Lifecycle.ready_once_after_start",
    "Verif.Process.Lifecycle.started_iff",
    "Verif.Process.Lifecycle.answer_once_after_shutdown",
    "Verif.Process.Lifecycle.answers_the_request",
    "Verif.Process.Lifecycle.lives_until_deadline",
    "Verif.Process.Lifecycle.stops_within_grace"
   ],
   "note": "every sequence of events; timers fire on time"
  },
  {
   "property": "C88",
   "status": "partial",
   "theorems": [
    "Verif.Process.Lifecycle.request_taken_partial",
    "Verif.Process.Lifecycle.request_kept",
    "Verif.Process.Lifecycle.stops_within_grace",
    "Verif.Process.Lifecycle.reload_blocks_requests",
    "Verif.Process.Lifecycle.reload_reached",
    "Verif.Process.Lifecycle.ready_after_done",
    "Verif.Process.Lifecycle.hup_stops_server_silently",
    "Verif.Process.Lifecycle.web_without_file_never_ready",
    "Verif.Process.Lifecycle.client_gives_up"
   ],
   "note": "proved in the signal loop; proved false while a client reloads its services (the loop is not running), and SIGHUP stops a server silently"
  },
  {
   "property": "C89",
   "status": "proved",
   "theorems": [
    "Verif.Server.Status.ten_draws",
    "Verif.Server.Status.first_free_draw",
    "Verif.Server.Status.ok_is_recent",
    "Verif.Server.Status.failure_is_real",
    "Verif.Server.Status.credentials_only_meanwhile",
    "Verif.Server.Status.trips_are_spaced",
    "Verif.Server.Status.round_trips_are_rare",
    "Verif.Server.Status.cached_answer_not_empty",
    "Verif.Server.Status.any_response_is_success"
   ],
   "note": "any_response_is_success: the status code of the round trip is not looked at, so an error page counts as success"
  },
  {
   "property": "C90",
   "status": "proved",
   "theorems": [
    "Verif.Web.Access.failure_changes_nothing",
    "Verif.Web.Access.save_iff",
    "Verif.Web.Access.reload_pprof",
    "Verif.Web.Access.authorised_is_served",
    "Verif.Web.Access.link_works",
    "Verif.Web.Access.profile_if_enabled",
    "Verif.Web.Access.protected_needs_authorised_token",
    "Verif.Web.Access.no_effect_without_token",
    "Verif.Web.Access.public_token",
    "Verif.Web.Access.no_link_if_configured",
    "Verif.Web.Access.profile_only_if_enabled",
    "Verif.Web.Access.pprof_needs_no_token"
   ],
   "note": "signatures are ideal; one configuration file. The profiling pages are proved to be open to everyone once enabled, which the statement says"
  },
  {
   "property": "C91",
   "status": "partial",
   "theorems": [
    "Verif.Web.Access.token_lasts",
    "Verif.Web.Access.login_accepted_partial",
    "Verif.Web.Access.start_ready",
    "Verif.Web.Access.saved_credentials_survive",
    "Verif.Web.Access.save_keeps_file_credentials",
    "Verif.Web.Access.change_has_no_effect_on_logins",
    "Verif.Web.Access.old_token_survives_change",
    "Verif.Web.Access.reload_breaks_logins",
    "Verif.Web.Access.token_renews_itself",
    "Verif.Web.Access.token_reveals_password",
    "Verif.Web.Access.kill_always_fails"
   ],
   "note": "first half proved from every start to the next reload; second half proved false: new credentials are refused until a restart, old tokens survive the change and the restart, a reload of a client can make all later logins useless"
  },
  {
   "property": "C92",
   "status": "partial",
   "theorems": [
    "Verif.Web.Listen.missing_file_refused",
    "Verif.Web.Listen.as_configured_partial",
    "Verif.Web.Listen.bad_certificate_refused",
    "Verif.Web.Listen.host_as_configured",
    "Verif.Web.Listen.retry_ends",
    "Verif.Web.Listen.no_args_never_tls",
    "Verif.Web.Listen.no_args_tls_ignored",
    "Verif.Web.Listen.link_leads_elsewhere",
    "Verif.Web.Listen.v6_not_served"
   ],
   "note": "proved for processes started with arguments; without arguments TLS is proved never to be used, and the link can lead to another port"
  },
  {
   "property": "C93",
   "status": "partial",
   "theorems": [
    "Verif.Quic.Accept.quic_handled",
    "Verif.Quic.Accept.all_served_if_all_open_partial",
    "Verif.Quic.Accept.idle_clients_are_skipped",
    "Verif.Quic.Accept.served_at_latest_ready_time",
    "Verif.Quic.Accept.delay_bounded",
    "Verif.Quic.Accept.not_before_ready",
    "Verif.Quic.Accept.at_most_one_after_shutdown",
    "Verif.Quic.Accept.tcp_all_handled",
    "Verif.Quic.Accept.tcp_handled_at_once",
    "Verif.Quic.Accept.one_client_ends_service",
    "Verif.Quic.Accept.slow_client_delays_all",
    "Verif.Quic.Accept.one_after_shutdown"
   ],
   "note": "the set of clients served and the time of service are characterised exactly: all are served if each opens its stream. The claim itself is proved false: a silent client, or one that closes its connection early, ends the service for all later ones, and a slow one delays them"
  },
  {
   "property": "C94",
   "status": "partial",
   "theorems": [
    "Verif.Quic.Stream.everything_can_be_read",
    "Verif.Quic.Stream.read_prefix_partial",
    "Verif.Quic.Stream.read_account",
    "Verif.Quic.Stream.read_account_open",
    "Verif.Quic.Stream.eof_only_if_closed",
    "Verif.Quic.Stream.read_makes_progress",
    "Verif.Quic.Stream.eof_before_data",
    "Verif.Quic.Stream.data_lost_at_close",
    "Verif.Quic.Stream.half_close_not_eof"
   ],
   "note": "prefix for every schedule; completeness while the stream is open. At the end proved false: end of file can be reported before waiting data and is not final; the library is represented by its contract"
  },
  {
   "property": "C95",
   "status": "partial",
   "theorems": [
    "Verif.Quic.Stream.no_completion_is_lost",
    "Verif.Quic.Stream.closed_stream_lets_go",
    "Verif.Quic.Stream.single_writer_partial",
    "Verif.Quic.Stream.sequential_writes",
    "Verif.Quic.Stream.no_use_after_free_without_close",
    "Verif.Quic.Stream.no_use_after_free_if_reader_closes",
    "Verif.Quic.Stream.concurrent_writes_corrupt",
    "Verif.Quic.Stream.success_before_sent",
    "Verif.Quic.Stream.refused_send_blocks",
    "Verif.Quic.Stream.use_after_free",
    "Verif.Quic.Stream.use_after_free_read_after_close"
   ],
   "note": "proved for a single writer and for a stream closed by its only reader; proved false otherwise"
  },
  {
   "property": "C96",
   "status": "partial",
   "theorems": [
    "Verif.Quic.Deadline.future_deadline",
    "Verif.Quic.Deadline.future_deadline_not_kept",
    "Verif.Quic.Deadline.ten_seconds_become_hundred",
    "Verif.Quic.Deadline.cleared_deadline_partial",
    "Verif.Quic.Deadline.past_deadline",
    "Verif.Quic.Deadline.deadline_now_is_never"
   ],
   "note": "TCP and quic-go by the contract of net.Conn; on the BBR transport proved false for every deadline"
  },
  {
   "property": "C97",
   "status": "partial",
   "theorems": [
    "Verif.Client.ApiDeadline.no_early_timeout",
    "Verif.Client.ApiDeadline.deadline_kept_partial",
    "Verif.Client.ApiDeadline.one_timeout_per_deadline",
    "Verif.Client.ApiDeadline.extended_deadline_not_kept",
    "Verif.Client.ApiDeadline.stale_timeout",
    "Verif.Client.ApiDeadline.later_reads_not_stopped",
    "Verif.Client.ApiDeadline.clear_has_no_effect",
    "Verif.Client.ApiDeadline.past_deadline_has_no_effect",
    "Verif.Client.ApiDeadline.abort_after_close_never_returns",
    "Verif.Client.ApiDeadline.expired_timer_leaks",
    "Verif.Client.ApiDeadline.abort_waits_for_read"
   ],
   "note": "proved if every deadline is set when nothing of an earlier one is left; otherwise proved false"
  },
  {
   "property": "C98",
   "status": "partial",
   "theorems": [
    "Verif.Config.OptValues.word_whole_iff_partial",
    "Verif.Config.OptValues.port_exact",
    "Verif.Config.OptValues.switch_exact",
    "Verif.Config.OptValues.nothing_refused",
    "Verif.Config.OptValues.word_cut",
    "Verif.Config.OptValues.secrets_confused",
    "Verif.Config.OptValues.port_too_large",
    "Verif.Config.OptValues.port_trailing",
    "Verif.Config.OptValues.port_no_number",
    "Verif.Config.OptValues.port_leading_zero",
    "Verif.Config.OptValues.switch_other",
    "Verif.Config.OptValues.leading_space_dropped",
    "Verif.Config.OptValues.line_end_empties",
    "Verif.Config.OptValues.mistyped_port_is_random"
   ],
   "note": "exactly the texts without white space are taken whole (proved); otherwise false: no text is ever refused, texts with white space are cut after the first word (a server's secret too), numbers out of range become 0 and thereby a random port, leading zeros mean octal, yes and on switch off"
  },
  {
   "property": "C99",
   "status": "proved",
   "theorems": [
    "Verif.Config.OptValues.word_exact",
    "Verif.Config.OptValues.port_exact",
    "Verif.Config.OptValues.switch_exact",
    "Verif.Config.OptValues.port_in_range"
   ],
   "note": "durations and texts that are not UTF-8 not modelled"
  }
 ]
}
