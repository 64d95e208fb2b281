#!/usr/bin/env python3
"""Regenerates /verif/properties.jsonl from the table below."""
import json
P=[]
def p(title, statement, quantifier, why, anchors):
    P.append(dict(id="C%02d"%(len(P)+1), title=title, statement=statement, quantifier=quantifier, why_tests_cant=why, anchors=anchors))

p("Handshake round trip: the server registers exactly the services the client declared",
  "When a client connects with an id, a secret and a list of services (HTTP host prefixes, HTTPS host prefixes, TCP ports fixed or random), the server's handshake parser recovers that id, that secret and, for every service in order, exactly the declared routing entry (prefix, TLS or not, or port and random flag) under the service's own index, consumes exactly the bytes the client wrote, and leaves any bytes that follow untouched.",
  "every id/secret of length 1..200, every nonempty service list within the server's limits, every byte string following the handshake",
  "the set of service lists, names and ports is unbounded and the encoding nests 'option-and-next-option' markers whose counter arithmetic only shows errors at particular depths",
  ["libcs/client/conn.go:gen", "libcs/client/conn.go:init", "libcs/server/conn.go:handleTunnel", "libcs/server/conn.go:parseOptions", "libcs/predef/const.go"])
p("Handshake limits are enforced for every byte stream",
  "Whatever bytes a peer sends, option parsing terminates, and if it succeeds the registration never has more host prefixes than the configured host number (when nonzero), never has more TCP ports than the configured TCP number, never took more than the configured maximum of handshake options, and every explicitly requested host prefix matches the configured regular expressions (when any are configured).",
  "every byte stream, every limit configuration, every regex predicate",
  "adversarial streams are unbounded; off-by-one in limit checks appears only at particular counts",
  ["libcs/server/conn.go:parseOptions", "libcs/server/conn.go:handleTunnel"])
p("Handshake id and secret length limits",
  "The server rejects a tunnel handshake whose id or secret length is outside [1,200] (MinIDSize..MaxIDSize, MinSecretSize..MaxSecretSize).",
  "every handshake byte stream",
  "requires every length byte 0..255; the check in the code combines the two bounds with && and so is unreachable",
  ["libcs/server/conn.go:handleTunnel", "libcs/predef/const.go"])
p("Service-set checksum is a function of the registered services only, and separates different sets",
  "The digest input the server computes for a registration does not depend on map iteration order, is equal for two tunnels that registered the same services in the same order, and differs for tunnels that registered different services (so a reload with different services is never mistaken for 'unchanged').",
  "every registration, every iteration order of the two maps, every pair of registrations",
  "Go map iteration order is random and the pair space is infinite; collisions of the digest preimage are found only by reasoning",
  ["libcs/server/conn.go:calChecksum", "libcs/server/conn.go:processHostPrefixes"])
p("HTTP routing: the host header found is the first one, for any TCP segmentation",
  "For an incoming HTTP request, however it is split into TCP segments, the server picks as target host the trimmed value of the first header line with the configured name, never consumes any byte of the request while looking, never looks further than 2048 bytes, and rejects requests whose header block ends without such a line.",
  "every request byte string, every segmentation into reads",
  "segmentation is a schedule: all 2^(n-1) ways of splitting each request",
  ["libcs/server/http.go:peekHeader", "libcs/server/http.go:peekHost"])
p("Host to client-id mapping",
  "The id extracted from a host 'id.domain.tld' is exactly the text before the first dot; hosts without two separated dots are rejected; an accepted id contains no dot; and no accepted host yields an id different from its first label.",
  "every byte string used as host",
  "unbounded input space with boundary conditions at dots and ends",
  ["libcs/server/http.go:parseIDFromHost", "libcs/server/conn.go:handleHTTP"])
p("TLS SNI peek is in bounds on every input and correct on every well-formed ClientHello",
  "Parsing the first bytes of a TLS connection never indexes outside the received bytes whatever the peer sent, always terminates, and for a well-formed ClientHello carrying a server_name extension returns exactly that name, whatever session id, cipher suites, compression methods and other extensions surround it.",
  "every byte string; every well-formed ClientHello",
  "arbitrary attacker-controlled lengths; out-of-range index is a remote crash",
  ["libcs/server/tls.go:peekTLSHost", "libcs/server/conn.go:handleSNI"])
p("Buffered reader is a faithful byte stream",
  "Any sequence of Peek, Discard, Read, ReadByte, UnreadByte, ReadSlice and Buffered calls on the buffered reader over any underlying reader behaves like the same operations on one contiguous byte sequence: no byte lost, duplicated or reordered, whatever sizes the underlying reader returns.",
  "every byte stream, every chunking by the underlying reader (including zero-byte reads and late errors), every operation sequence, every buffer size >= 16",
  "operation sequences times chunkings is infinite",
  ["libcs/bufio/bufio.go:Reader", "libcs/bufio/bufio.go:fill", "libcs/bufio/bufio.go:Peek", "libcs/bufio/bufio.go:Discard", "libcs/bufio/bufio.go:Read"])
p("A limited reader transfers exactly the frame body",
  "Copying a frame of N bytes out of a connection delivers exactly the next N bytes of the stream in order, leaves byte N+1 as the next byte of the connection, and reports how many remain if the connection ends early.",
  "every N, every stream and chunking, every buffered prefix",
  "chunk boundaries relative to N are unbounded",
  ["libcs/bufio/reader.go:LimitedReader", "libcs/bufio/reader.go:WriteTo"])
p("Tunnel multiplexing, server to client: no cross-talk, no reordering",
  "For any number of concurrent public connections multiplexed over one tunnel, with frames interleaved in any order, the client delivers to each local service connection exactly the bytes the corresponding public connection sent, in order, to the service selected by its service index, and nothing from another connection.",
  "every number of tasks, every split into reads, every interleaving of frames",
  "interleavings are schedules",
  ["libcs/server/conn.go:process", "libcs/client/conn.go:readLoop", "libcs/client/conn.go:processServiceData", "libcs/client/conn.go:processData"])
p("Tunnel multiplexing, client to server: no cross-talk, and unknown tasks keep the stream in sync",
  "Response frames interleaved in any order are delivered to the public connection that owns the task id, in order; frames for tasks that no longer exist are skipped entirely so that later frames are still decoded at the right boundary.",
  "every set of live tasks, every interleaving, every frame size",
  "interleavings and closing races are schedules",
  ["libcs/client/task.go:process", "libcs/server/conn.go:readLoop"])
p("A data frame for an already-closed task never crashes the server",
  "Whatever frames a client sends, including an empty data frame for a task id that does not exist, the server's tunnel reader either handles it, skips it or ends that tunnel; it never dereferences a missing task.",
  "every frame sequence, every set of live tasks",
  "the failing combination (zero length, unknown task, timeout configured) is one point of an infinite space",
  ["libcs/server/conn.go:readLoop"])
p("Task ids are never confused with control signals",
  "The task id assigned to a public connection is never one of the reserved signal values and never 0, for any number of connections served before, so a task frame can never be decoded as ping/close/ready/error/info/services/reconnect.",
  "every number of previous tasks (including 2^32 wrap-around), every interleaving of concurrent assignments",
  "wrap-around occurs after 4 billion connections",
  ["libcs/server/client.go:process", "libcs/conn/conn.go"])
p("Concurrent tasks of one tunnel have distinct ids",
  "Two public connections served through the same tunnel at the same time have different task ids.",
  "every history of assignments including counter wrap and concurrent wrap",
  "needs 2^32 assignments or a particular interleaving of atomic operations",
  ["libcs/server/client.go:process"])
p("The id-to-client map behaves as a map",
  "Any sequence of Load, Store, LoadOrStore, LoadOrCreate, LoadAndDelete, Delete and Range on the server's concurrent map returns the same results as on a plain map.",
  "every operation sequence over every key and value type",
  "promotion of the dirty map and expunged markers depend on long op sequences",
  ["libcs/server/sync/map.go", "libcs/server/sync/create.go"])
p("Creating a client entry is atomic under concurrency",
  "When several connections concurrently LoadOrCreate, Load and Delete the same key, every LoadOrCreate that reports 'created' installed the value that concurrent callers observe; two callers never both believe they created the live entry without a delete in between.",
  "every number of threads, every interleaving of the atomic steps",
  "interleavings of atomic operations",
  ["libcs/server/sync/create.go:LoadOrCreate", "libcs/server/sync/create.go:tryLoadOrCreate", "libcs/server/sync/map.go:delete"])
p("Idle pool: parking never drops below the configured minimum",
  "A client connection is told to park (change to wait) only when more than the minimum number of idle connections remain, so parking alone never takes the number of idle connections below the configured minimum; a connecting tunnel is parked on initialisation only if the minimum is already met.",
  "every sequence of idle-manager operations over every number of connections",
  "unbounded op sequences",
  ["libcs/client/idle.go:ChangeToWait", "libcs/client/idle.go:Init"])
p("Idle pool: a parked connection wakes when no idle connection is left",
  "A connection waiting in WaitIdle is released once no connection is idle or the manager is closed; no such state is left with the waiter asleep and no pending wake-up.",
  "every interleaving of waiters and state changes",
  "lost wake-ups are schedule-dependent",
  ["libcs/client/idle.go:WaitIdle", "libcs/client/idle.go:SetRunningWithTaskCount", "libcs/client/idle.go:Close"])
p("Web login tokens: limited uses, expiry, no forging",
  "A temporary login key is accepted at most MaxUse times, never after its expiry, and a key that was never generated (or was exhausted) is never accepted; using one key does not affect another.",
  "every sequence of generate/verify calls at every time",
  "unbounded histories and clock values",
  ["libcs/web/server/tokenManager.go"])
p("Speed limiting conserves bytes",
  "For any sequence of transfers under a per-client speed limit, the total time slept in seconds times the limit accounts for all bytes transferred up to less than one second's worth; i.e. bytes transferred < limit*(sleep seconds+1).",
  "every sequence of transfer sizes and every limit, including counter wrap-around at 2^32",
  "needs long sequences; wrap-around needs totals above 2^32",
  ["libcs/server/client.go:speedLimit"])
p("Reconnect limiting blocks an IP after the allowed number of failures",
  "With reconnect limiting on, an IP whose handshakes keep failing authentication is refused before authentication after the configured number of failures, stays refused until the configured duration has passed, and failures from one IP never block another.",
  "every interleaved sequence of connection attempts from every set of IPs at every time",
  "unbounded histories, clock values",
  ["libcs/server/conn.go:handle", "libcs/server/conn.go:handleTunnel"])
p("Authentication decision: a tunnel is accepted only with the right secret",
  "With configured users a tunnel is accepted only if the id is configured and its secret equals the configured secret; with the user-creation mode the first secret presented for a free id is the only one accepted while any tunnel of it is live.",
  "every user table, every id/secret pair, every history of joins and leaves",
  "secrets and histories are unbounded",
  ["libcs/server/server.go:authUserWithConfig", "libcs/server/server.go:authUserOrCreateUser", "libcs/server/config.go:auth", "libcs/server/client.go:removeTunnel"])
p("Internal API credentials cannot be used by outsiders",
  "The credentials used by the server's own health-check client are accepted only while a check is in progress and never as the empty id/secret.",
  "every history of checks and authentication attempts",
  "needs an attempt at particular points of a history",
  ["libcs/server/api/server.go:Auth", "libcs/server/server.go:authUserOrCreateUser"])
p("Host prefix exclusivity",
  "A host prefix routes to at most one client at any time, a client can never take over a prefix that another live client registered, a failed registration leaves the registry as it was before, and prefixes of a client are released when its last tunnel leaves.",
  "every history of tunnel joins, reloads and leaves by any number of clients",
  "unbounded histories; rollback paths on conflict",
  ["libcs/server/conn.go:processHostPrefixes", "libcs/server/client.go:addTunnel", "libcs/server/client.go:removeTunnel"])
p("A client never has more tunnels than its connection limit",
  "At any time the number of live tunnels of a client is at most its configured connections.",
  "every history of joins, reloads and leaves",
  "unbounded histories",
  ["libcs/server/client.go:addTunnel", "libcs/server/client.go:removeTunnel"])
p("Least-loaded tunnel selection",
  "A new public connection is assigned to a live tunnel of the client with the fewest tasks; if the client has any tunnel one is selected.",
  "every map of tunnels to task counts, every map iteration order",
  "Go map iteration order is random",
  ["libcs/server/client.go:getTunnel"])
p("TCP port accounting",
  "A public TCP port is never open for two services at once, every port opened for a client comes from its allowed pools, and closing returns it so that pool and open ports always partition the configured set.",
  "every history of opens, closes, bind failures and reloads by any number of clients",
  "unbounded histories",
  ["libcs/server/client.go:openTCPPort", "libcs/server/client.go:deleteTCPListener", "libcs/server/client.go:closeTCPListeners", "libcs/server/conn.go:processTCPOptions"])
p("TCP reload opens the newly requested port",
  "When a client reloads its services and changes the fixed public port of the TCP service at some index, the server opens the newly requested port for that service.",
  "every reload from every previous registration",
  "needs reload sequences with changed ports at the same index",
  ["libcs/server/conn.go:processTCPOptions", "libcs/server/client.go:openTCPPort"])
p("Port range parsing and pool separation",
  "A configured range string denotes exactly the ports it spells (\"a\" -> {a}, \"a-b\" -> a..b, \"0\" -> 1..65535); every accepted range is nonempty and within 1..65535; the pools of different users and the global pool are pairwise disjoint.",
  "every range string; every list of users' ranges",
  "string space is infinite",
  ["libcs/util/portrange.go", "libcs/server/server.go:parseTCPs"])
p("HTTP Host rewriting is independent of segmentation",
  "When the client rewrites the Host header of proxied requests, the bytes written to the local service are the request with exactly its first Host line replaced, whatever way the request arrives in pieces, and each write reports the full length of its piece.",
  "every request, every split into writes",
  "2^(n-1) segmentations per request",
  ["libcs/client/task.go:Write"])
p("Chunked coding round trip",
  "Any sequence of writes through the chunked writer followed by close is decoded by the chunked reader to exactly the concatenation of the writes, with end of stream exactly there; hexadecimal chunk lengths are parsed exactly and over-long ones rejected.",
  "every sequence of writes",
  "unbounded sequences and sizes",
  ["libcs/client/std/chunked.go"])
p("In-memory pipe is a FIFO with blocking hand-off",
  "Bytes written to the in-memory pipe are read in order with none lost or duplicated whatever the sizes of reads and writes, each write returns only after all its bytes were read or an end was closed, and reports exactly the bytes read.",
  "every sequence of reads, writes and closes, every interleaving of the hand-off",
  "sizes and schedules are unbounded",
  ["libcs/client/std/pipe.go"])
p("API connection writes obey the io.Writer contract",
  "A write of n bytes on the client's API connection sends exactly those bytes in frames no larger than the peer's buffer and returns n.",
  "every payload",
  "sizes unbounded; contract violated for every nonempty payload",
  ["libcs/client/api/conn.go:Write"])
p("Service options on the command line attach to the right local",
  "Each per-service option given after the k-th -local (and before the next) configures the k-th service and no other; an accepted configuration has no duplicate host prefix, all prefixes are 1..200 bytes, every TCP service has a local port and a remote port or random flag; defaults are applied only to unset options.",
  "every command line (any number and order of options)",
  "permutations of options are unbounded",
  ["libcs/client/client.go:parseServices", "libcs/config/positionslice.go"])
p("Client connection counts are clamped",
  "For every configured value the number of remote connections used is in 1..10, idle connections in 1..remote connections, WebRTC connections in 1..50, and values already in range are kept.",
  "every combination of unsigned configuration values",
  "boundary conditions over three interacting values",
  ["libcs/client/client.go:Start"])
p("Configuration written by the web UI reads back the same",
  "Saving a merged configuration and loading it yields the same effective configuration.",
  "every configuration",
  "unbounded configuration space; zero values interact with defaults",
  ["libcs/client/web/service/service.go", "libcs/client/client.go"])
p("Block-until-set value",
  "A reader of a block-value never gets a value before one was set, gets a value that was set, and every reader is released after the first set; setting repeatedly never panics.",
  "every interleaving of setters and getters",
  "schedules",
  ["libcs/util/blockvalue.go"])
p("Parent-child stdio framing round trip",
  "A message written by one process with the length-prefixed stdio framing is read by the other exactly, messages stay separated, and over-long frames are rejected, for any pipe segmentation.",
  "every message sequence, every segmentation",
  "segmentation schedules",
  ["libcs/util/stdio.go"])
p("Dead remote detection is bounded",
  "A client tunnel whose server stops answering is closed after a bounded number of read timeouts, while a server that answers every ping is never declared dead.",
  "every sequence of timeouts, pings and frames",
  "unbounded event sequences",
  ["libcs/client/conn.go:readLoop"])
p("Log rotation never overwrites or deletes live logs",
  "Rotation never reopens an existing generation name, and purging keeps at most the configured count while never unlinking the file being written.",
  "every history of rotations and existing files",
  "needs particular numbers of generations",
  ["libcs/logger/file-rotatelogs/rotatelogs.go", "libcs/logger/logger.go"])
p("Connection filters of the web UI partition the connections",
  "Filtering connections by a predicate returns exactly the connections that match, in order, and the complementary filter exactly the rest.",
  "every list of connections and ports",
  "unbounded lists",
  ["libcs/web/server/util/net.go"])
p("Peer signalling messages are reassembled exactly",
  "Length-prefixed signalling messages for the peer-to-peer mode are reassembled exactly, whatever segmentation they arrive in, over-long ones are rejected, and responses the client sends can be parsed back.",
  "every message sequence and segmentation",
  "segmentation schedules",
  ["libcs/client/peer.go:process", "libcs/client/peerproc.go", "libcs/client/peer.go:response"])
p("Server connection accounting balances",
  "At all times accepted connections = served + failed + in progress and tunnelling equals the number of live tunnels; after every connection ended the counters balance and shutdown's wait terminates.",
  "every interleaving of connections starting, becoming tunnels and ending",
  "schedules",
  ["libcs/server/server.go:Shutdown", "libcs/server/conn.go:handle"])
p("Accept loop back-off",
  "After consecutive temporary accept errors the delay doubles from 5ms, never exceeds 1s, is reset after a success, and a non-temporary error ends the loop.",
  "every sequence of accept results",
  "unbounded sequences",
  ["libcs/server/server.go:acceptLoop"])
p("Close runs once",
  "Closing a connection from any number of goroutines closes the underlying transport exactly once, and the recorded origin (local or remote) is that of the first close.",
  "every interleaving of closers",
  "schedules",
  ["libcs/conn/conn.go:CloseWithValue", "libcs/conn/conn.go:CloseByRemote"])
p("User configuration merge",
  "Merging users from file and command line yields, for every id, the command-line secret if given there and the file's otherwise; mismatching id/secret counts and ids or secrets outside 1..200 bytes are rejected.",
  "every pair of user lists",
  "unbounded lists",
  ["libcs/server/config.go:mergeUsers", "libcs/server/config.go:verify"])
p("Oversized service lists are refused, not cut",
  "If the client's service list does not fit the fixed buffer in which the handshake (or a reload request) is assembled, the client reports an error; it never sends a truncated list.",
  "every service list",
  "unbounded lists of arbitrary sizes",
  ["libcs/client/conn.go:gen", "libcs/client/conn.go:init"])
p("Control signals never disturb the proxied data",
  "Control signals (ping, close, ready, services, info, reconnect) that the server sends on a tunnel between data frames never change what the proxied connections receive.",
  "every position of every signal in every frame sequence",
  "unbounded interleavings",
  ["libcs/client/conn.go:readLoop", "libcs/server/client.go:close", "libcs/conn/conn.go:SendReconnectSignal"])
p("Option precedence",
  "An option given on the command line takes effect over the file, the file over the default, and an option given nowhere has its default; a configuration file that cannot be read stops the program.",
  "every combination of command line, file and defaults",
  "the cross product of options, sources and values is unbounded",
  ["libcs/config/config.go:ParseFlags", "libcs/server/server.go:New", "libcs/client/client.go:New", "libcs/server/server.go:MergeConfig"])
p("Saving a configuration survives a crash",
  "If the process stops at any point while the web UI saves the configuration, the file holds the old or the new configuration.",
  "every crash point",
  "needs a crash between two system calls",
  ["libcs/util/path.go:WriteYamlToFile"])
p("When a tunnel ends",
  "The client ends a tunnel only at an error signal, a frame naming a service it does not have, a close signal when one was received before or no connection is open on the tunnel, or a ping after a close signal when no connection is open; the server only at a second close signal or a ping it cannot answer. A single close signal never cuts open connections.",
  "every byte stream either side may send and every behaviour of the local side",
  "unbounded interleavings of signals and connections",
  ["libcs/client/conn.go:readLoop", "libcs/server/conn.go:readLoop"])
p("Batch start covers exactly the configuration files",
  "Started on a directory, gt starts exactly one process for every YAML file (.yaml or .yml) of at most 10 MiB found there within the depth limit, in the role the file describes, and no other; it refuses to start anything if a directory or file within the limit cannot be read or no file is found.",
  "every directory tree, every working directory and every depth limit below 255",
  "unbounded trees and names",
  ["bin/src/manager.rs:collect_files", "bin/src/manager.rs:collect_configs", "bin/src/manager.rs:run_configs"])
p("Hitless reload",
  "While gt reloads, an old process is asked to shut down only after the process that replaces it (or, for a removed configuration, all new processes) reported that it is ready; afterwards every old process was asked.",
  "every set of configurations, every order in which processes become ready, crash or reconnect",
  "needs all interleavings of two managers and their processes",
  ["bin/src/manager.rs:process_signal", "bin/src/manager.rs:handle_stdout", "bin/src/manager.rs:run"])
p("Process supervision",
  "A process that ends without having been asked to is started again, within a bounded time and at most once a minute, for ever; a process that announced its shutdown, or that was killed, released or replaced, is never started again; there is never more than one process per supervisor.",
  "every sequence of crashes, operations, failing starts and times",
  "unbounded executions and times",
  ["bin/src/manager.rs:run", "bin/src/manager.rs:handle_stdout"])
p("Hosts come from accepted requests",
  "Every host prefix that routes to a client was asked for by a tunnel of that client's id that the server accepted; when an authentication API is used, it is the client's id or a prefix the API named for that client.",
  "every history of tunnels, reloads and answers of the authentication API",
  "unbounded histories",
  ["libcs/server/conn.go:processHostPrefixes", "libcs/server/conn.go:handleTunnel", "libcs/server/server.go:authWithAPI", "libcs/server/server.go:authUserWithAPI"])
p("Refused only at the limit",
  "A tunnel is told that the maximum number of connections is reached only if its client has that many tunnels; the limit is never exceeded, also while several first tunnels of the client arrive at once.",
  "every interleaving of any number of tunnels of one id that connect and end",
  "a race between the creation and the initialisation of the client",
  ["libcs/server/conn.go:handleTunnel", "libcs/server/client.go:init", "libcs/server/client.go:addTunnel"])
p("P2P requests do not disturb other traffic",
  "Handling P2P requests never stops the client or server from handling the other frames of its tunnels, and a request of one visitor never reaches or ends the session of another.",
  "every sequence of frames of any number of visitors on any number of tunnels, and every number of sessions up to and beyond the limit",
  "needs the interleaving of frames with the end of sessions",
  ["libcs/client/conn.go:processP2P", "libcs/client/conn.go:newPeerTask", "libcs/client/conn.go:newPeerProcTask", "libcs/client/peer.go:respAndClose"])
p("P2P answers come from the visitor's peer",
  "A visitor that sends an offer through the client receives the answer its own peer process produced, followed by that process's candidates in order, and nothing else; a visitor that asks for an offer receives the offer the process produced.",
  "every offer, every answer and every list of candidates",
  "two processes exchange any number of messages",
  ["libcs/client/peerproc.go:processOffer", "libcs/client/peerproc.go:getOffer", "bin/src/peer/conn.rs:new", "bin/src/peer/conn.rs:handle"])
p("P2P channels reach the service they name",
  "A P2P data channel reaches nothing or the local URL of a service the client runs; labelled with a host prefix or TCP port of a service it reaches that service, as a visitor of the server would.",
  "every accepted configuration, every history of announced ports and reloads, every label",
  "unbounded labels, configurations and histories",
  ["libcs/client/peerproc.go:init", "bin/src/peer/conn.rs:new_data_channel_process_handler", "libcs/client/signal.go:handleInfo"])
p("P2P processes end when idle, and only then",
  "A P2P process gives up for idleness only when no channel is open and none was for the whole idle period, which is never less than five seconds, and it does so within two idle periods if it stays without channels and messages.",
  "every timing of messages and channels and every configured timeout",
  "unbounded timings",
  ["bin/src/peer/conn.rs:handle", "bin/src/peer/conn.rs:setup_data_channel"])
p("P2P processes handle every message",
  "A P2P process handles exactly the messages the client sends it, in order, however they are cut into reads and whenever its timers fire.",
  "every list of messages, every segmentation and every timing",
  "the loss needs a timer that fires in the middle of a message",
  ["bin/src/peer/conn.rs:handle", "bin/src/peer/mod.rs:read_json"])
p("An open P2P channel is never cut by the idle timer",
  "In thread mode a P2P session is ended by its idle timer only when none of its channels is open.",
  "every interleaving of channels that open and close",
  "needs one channel to open while another closes",
  ["libcs/client/peer.go:OnOpen", "libcs/client/conn.go:newPeerTask"])
p("Visitors reach the right service during reloads",
  "A visitor is connected to the local service that its host or port names in the configuration the server routed it by, also while tunnels are being opened and while the client reloads its services.",
  "every interleaving of the messages of any number of tunnels, reloads, lost connections and visitors",
  "both ends change their configuration at different times; the fault needs a visitor in between",
  ["libcs/client/client.go:ReloadServices", "libcs/client/client.go:addTunnel", "libcs/client/conn.go:readLoop", "libcs/server/client.go:addTunnel", "libcs/server/conn.go:handleTunnel"])
p("A successful reload has updated every tunnel",
  "ReloadServices returns without an error only when every tunnel of the client uses the new services or is gone; it returns once every tunnel has answered, and neither a lost tunnel nor a failed earlier reload keeps it from returning.",
  "every interleaving of writes, answers, losses, refusals and earlier reloads",
  "a counter shared by the reload and the readers of all tunnels",
  ["libcs/client/client.go:ReloadServices", "libcs/client/conn.go:readLoop"])
p("The client keeps trying to connect",
  "While a client is open each of its connection loops can always begin another attempt: neither failed attempts, lost tunnels, parked loops nor another remote that cannot be reached lock it out, and no loop ends.",
  "every interleaving of the loops of any number of remotes, every sequence of failures",
  "loops share a mutex held across a dial; the fault needs a dial that panics in another loop",
  ["libcs/client/client.go:connect", "libcs/client/client.go:connectLoop", "libcs/client/client.go:dial", "libcs/conn/quicConn.go:QuicDial"])
p("Shutting a client down ends every tunnel",
  "After Shutdown of a client has begun no new connection attempt begins, every open tunnel has been told to close, and every loop ends once its tunnel does.",
  "every interleaving of Shutdown with the connection loops",
  "the fault needs a tunnel that becomes ready after the signals were sent",
  ["libcs/client/client.go:ShutdownWithoutClosingLogger", "libcs/client/client.go:connect", "libcs/client/client.go:connectLoop"])
p('Host prefixes are never taken over',
  'Whatever tunnels come, leave, are refused or reload, no event hands a host prefix that is registered for one client to another client.',
  'every history of the server, every request, every authentication mode',
  'unbounded histories of overlapping registrations',
  ['libcs/server/client.go:addTunnel', 'libcs/server/client.go:removeTunnel', 'libcs/server/server.go:getOrCreateClient'])
p("Public TCP ports come from the client's own pool",
  'Every port the server ever has open for a client belongs to the pool configured for that client, whatever the client requests and whatever the operating system refuses.',
  'every history of requests, reloads, losses and bind results',
  'unbounded histories',
  ['libcs/server/client.go:processTCPOptions', 'libcs/server/server.go:parseTCPs'])
p('Configured secrets decide',
  'With configured users a tunnel is let in exactly if it presents a configured id with its secret, or the credentials of a health check in progress; every live tunnel did so. Where clients may create users as well, this still holds for every configured id.',
  'every history, every id and secret',
  'unbounded histories of logins, creations and checks',
  ['libcs/server/server.go:authUserWithConfig', 'libcs/server/server.go:authUserOrCreateUser', 'libcs/server/api/server.go:Auth'])
p('The TLS peek is safe',
  'Looking for the server name of a TLS connection always returns, never indexes outside the received bytes and consumes nothing, whatever the peer sends and however the connection fails.',
  'every byte stream, segmentation and failure',
  'unbounded inputs',
  ['libcs/server/tls.go:peekTLSHost'])
p('HTTP requests with early headers are routed alike however they are cut',
  "If the first line named by the configured header, or the end of the header block, lies within the first 2049 bytes, the server finds that line's value (or rejects the request) whatever the segmentation; whatever it finds is true of the request, and nothing is consumed.",
  'every request, segmentation and failure schedule',
  'unbounded requests and segmentations',
  ['libcs/server/http.go:peekHeader', 'libcs/server/conn.go:handleHTTP'])
p("The server's shutdown wait ends",
  'Shutdown of a server waits at most 40 rounds whatever its connections do, and is never blocked; the counters it looks at are the numbers they stand for at all times.',
  'every interleaving of any number of connections with the shutdown',
  'unbounded interleavings',
  ['libcs/server/server.go:Shutdown', 'libcs/server/server.go:handle'])
p('API responses reach the visitor whole',
  "Whatever is written on a client's API connection reaches exactly the public connection it answers, whole and in order, followed by its end, whatever other visitors do at the same time; on a failed write a beginning of it was sent.",
  'every list of nonempty writes, every network behaviour, every interleaving with other tasks',
  'unbounded writes and interleavings',
  ['libcs/client/api/conn.go:Write', 'libcs/server/conn.go:readLoop'])
p('Signalling messages are handled as sent',
  'A P2P request body that carries whole messages of at most 4096 bytes leads to exactly these messages being handled, in order, however it is cut into pieces; a longer message is refused and nothing after it is handled.',
  'every list of messages, every segmentation',
  'unbounded segmentations',
  ['libcs/client/peer.go:process', 'libcs/client/peerproc.go:process'])
p('A crash while saving never mixes configurations',
  'If the process stops at any point while the web UI saves the configuration, the file holds the old contents or a beginning of the new ones.',
  'every crash point, every old and new configuration',
  'crash points',
  ['libcs/client/web/service', 'libcs/server/web/service'])
p('Without reloads no visitor reaches a wrong service',
  'As long as a client does not reload, every visitor reaches the service its host or port names, or none, in every execution.',
  'every interleaving of any number of tunnels, losses and visitors',
  'unbounded interleavings of two programs',
  ['libcs/client/client.go:addTunnel', 'libcs/server/client.go:addTunnel', 'libcs/server/conn.go:handleTunnel'])
p('P2P channels reach nothing but services',
  'Whatever label a visitor gives a P2P data channel, it is connected to nothing or to the local URL of a service that the client runs.',
  'every accepted configuration, every history of announced ports and reloads, every label',
  'unbounded labels, configurations and histories',
  ['libcs/client/peerproc.go:init', 'bin/src/peer/conn.rs:new_data_channel_process_handler'])
p('Reconnect limiting is fair',
  'An IP with at most the configured number of failed authentications is never refused; one with more is refused until a release timer of it fires; what other IPs do changes nothing.',
  'every interleaving of connections of any number of IPs',
  'unbounded interleavings',
  ['libcs/server/conn.go:handleTunnel', 'libcs/server/server.go:reconnect'])
p('Port ranges mean what they spell',
  'A configured range is accepted exactly if it is a number or two numbers in order within 0..65535, and stands for exactly the ports it spells; the pools of different users and the global pool are disjoint.',
  'every range string and every list of users',
  'unbounded strings and lists',
  ['libcs/util/portrange.go', 'libcs/server/server.go:parseTCPs'])
p('Accepted services are usable',
  'A client accepts a list of services exactly under the documented conditions, and then every service has a local URL with a port, a timeout and a remote port or the random flag if it is TCP, and no two services share a prefix.',
  'every command line and file',
  'unbounded lists of options',
  ['libcs/client/client.go:parseServices'])
p('The manager reads its children exactly',
  'The messages a child process writes to its parent are read exactly and in order, however the pipe cuts them.',
  'every list of messages and every segmentation',
  'unbounded segmentations',
  ['bin/src/peer/mod.rs:read_json', 'bin/src/manager.rs:read_hex_len_json'])
p('A blocking value releases its readers',
  'A reader of a block-value gets the value of the latest set before it returns, never returns before one, and is released once a set completed, whatever other readers and setters do.',
  'every interleaving of readers and setters',
  'interleavings',
  ['libcs/util/blockvalue.go'])
p('The accept loop survives temporary errors',
  'Every accepted connection is handled, in order, until shutdown or a permanent error; after a temporary error the loop sleeps between 5 ms and 1 s.',
  'every sequence of accept results',
  'unbounded sequences',
  ['libcs/server/server.go:acceptLoop'])
p('Buffered reading always returns and reports errors',
  "No call on the buffered reader panics or hangs, whatever the connection does; the errors its calls report are the connection's errors in order, none invented and none reported twice.",
  'every sequence of calls and every behaviour of the connection',
  'unbounded sequences',
  ['libcs/bufio/bufio.go'])
p('Clients with TLS, TCP or BBR remotes keep trying',
  'A client whose remotes are reached by TLS, TCP or QUIC with BBR can begin another attempt in each of its loops at any time before Shutdown, and no loop ends before.',
  'every interleaving of the loops of any number of remotes, every sequence of failures',
  'unbounded interleavings',
  ['libcs/client/client.go:connect', 'libcs/client/client.go:connectLoop', 'libcs/client/client.go:dial'])
p('Waiting until a client is ready',
  'WaitUntilReady returns without an error only if the client has a tunnel, returns as soon as it has one, and at the latest when its timeout has passed, then with an error.',
  'every interleaving of any number of callers, timers, tunnels being added and removed',
  'interleavings between look, registration, timer and broadcast',
  ['libcs/client/client.go:WaitUntilReady', 'libcs/client/client.go:addTunnel'])
p('A child process reports truthfully and stops in time',
  'A server or client process tells its parent at most once that it is ready, and only after Start succeeded; it answers at most one shutdown request, with the answer that belongs to it, and only after Shutdown returned; and it is gone at most 180 s (server) or 30 s (client) after it took the request, whatever happens.',
  'every sequence of signals, messages, timers and outcomes of Start, Shutdown and reload',
  'unbounded sequences of events',
  ['libcs/lib/export/lib.go:RunServer', 'libcs/lib/export/lib.go:RunClient', 'libcs/lib/export/lib.go:handleStdIO'])
p('A child process handles every shutdown request',
  'A shutdown request that reaches a process, by signal or by its standard input, is taken at the next step of the process and answered.',
  'every sequence of signals, messages, timers and outcomes of Start, Shutdown and reload',
  'unbounded sequences of events',
  ['libcs/lib/export/lib.go:RunServer', 'libcs/lib/export/lib.go:RunClient', 'libcs/lib/export/lib.go:handleStdIO'])
p('The status page tells the truth',
  'Whenever /status answers with success, a complete round trip through the public address, a fresh client and its tunnel was made at most 15 s before or during the request; a failure is reported only if the round trip of this request failed; the temporary credentials are in force only during a request and are never those of a connected client; and round trips are at least 15 s apart, however many requests come.',
  'every history of requests, every outcome and duration of the round trips',
  'unbounded histories',
  ['libcs/server/api/server.go:check', 'libcs/server/api/server.go:status', 'libcs/server/api/server.go:randomIDSecret'])
p('The web interface is closed to strangers',
  'Apart from login, health check, the link of a first start, static files and (if enabled) the profiling pages, the web interface answers only requests that carry a token which was issued less than 30 minutes before, with the signing key in use, and which goes back to a login with the user name and password then in force or to the first start of a process without configured credentials; other requests change nothing.',
  'every history of requests, starts, reloads and edits of the configuration file',
  'unbounded histories; chains of tokens',
  ['libcs/server/web/web.go:setRoutes', 'libcs/web/server/middleware/jwt.go:JWTAuthMiddleware', 'libcs/server/web/api/api.go:Login', 'libcs/server/web/api/api.go:ChangeUserInfo', 'libcs/client/web/web.go:setRoutes'])
p('Credentials of the web interface take effect',
  'A login with the credentials in force yields a token that is accepted for 30 minutes; when the credentials are changed, the new ones are in force from then on and the old password and the tokens obtained with it are not.',
  'every history of requests, starts, reloads and edits of the configuration file',
  'unbounded histories',
  ['libcs/server/web/api/api.go:ChangeUserInfo', 'libcs/server/web/service/service.go:VerifyUser', 'libcs/client/client.go:ReloadServices'])
p('The web interface is served as configured',
  'The web interface is served on the configured host only, speaks TLS if and only if a certificate is configured, a bad certificate is refused, and the link that is shown leads to it.',
  'every configuration and every sequence of answers of the operating system',
  'unbounded sequences of failures',
  ['libcs/server/web/web.go:getServer', 'libcs/server/web/web.go:start', 'libcs/client/web/web.go:start'])
p('One QUIC client cannot keep the others out',
  'A client that connects to the QUIC address and is slow, silent, or gone again before it has opened its stream neither prevents nor delays the service of the clients that come after it; and after the shutdown of the server has begun no further QUIC connection is served.',
  'every sequence of QUIC connections, each opening its stream after any time, ending, or staying silent; both QUIC implementations; every time of the shutdown',
  'unbounded sequences of connections and delays',
  ['libcs/conn/quicConn.go:Accept', 'libcs/conn/msquic/listener.go:Accept', 'libcs/server/server.go:acceptLoop'])
p('Streams of the BBR QUIC transport deliver all bytes before end of file',
  'What Read returns is a prefix of what the peer sent, for every size of buffers; end of file is reported only after the peer ended its side, after all bytes have been returned, and for good.',
  'every interleaving of arriving data, reads with any buffer size, shutdown by the peer and close',
  'interleavings of callbacks and reads',
  ['libcs/conn/msquic/stream.go:Read', 'libcs/conn/msquic/stream.go:OnStreamReceive', 'libcs/conn/msquic/stream.go:OnStreamShutdownComplete'])
p('Concurrent use of a stream of the BBR QUIC transport is safe',
  'As net.Conn demands, a stream may be written to by several goroutines and closed by another: every write that reports success has been sent, unmixed; every write ends; and the native stream object is never used after it was deleted.',
  'every interleaving of writes by any number of goroutines, sends and completions of the library, reads and close',
  'interleavings',
  ['libcs/conn/msquic/stream.go:Write', 'libcs/conn/msquic/stream.cpp:Send', 'libcs/conn/msquic/stream.go:Close', 'libcs/conn/conn.go:Write'])
p('Time limits hold on every transport',
  'A read deadline set on a connection makes reads of a silent connection fail when it has passed, on TCP, TLS and both QUIC transports.',
  'every time of the call and every deadline',
  'all pairs of times, including wrap-around of integers',
  ['libcs/conn/msquic/conneciton.go:SetDeadline', 'libcs/server/conn.go:handle'])
p('Deadlines on connections of the internal API',
  'SetReadDeadline on a virtual connection of the internal API behaves as net.Conn demands: reads fail after the deadline in force has passed and not before, a later call replaces an earlier one, and the call returns.',
  'every sequence of calls, reads, arriving data, passing time and close',
  'unbounded histories and races between timers and data',
  ['libcs/client/api/conn.go:SetReadDeadline', 'libcs/client/api/conn.go:Read', 'libcs/client/std/pipe.go:StopPending'])
p('Values of repeated options are taken whole or refused',
  'The value of a command line option that may be repeated (ids, secrets, port ranges and host patterns of the server; remotes, locals, host prefixes, ports and switches of the client) is either taken exactly as the user wrote it, or the program refuses to start.',
  'every text',
  'all texts',
  ['libcs/config/position.go:Set', 'libcs/config/slice.go:Set', 'libcs/client/config.go', 'libcs/server/config.go'])
p('Ordinary option values are taken as written',
  'A text without white space, a port number 0..65535 in decimal, and a switch written true, false, 1 or 0 have exactly that value, and no text yields a port outside 0..65535.',
  'every text without white space, every port number, every spelling of the switch',
  'all texts and numbers',
  ['libcs/config/position.go:Set', 'libcs/config/slice.go:Set'])
p('A P2P transfer goes on whenever there is room, and ends when the channel is closed',
  'Data read from a service for a P2P visitor is handed to the data channel in order and never beyond the room of its buffer; when the buffer is full the transfer waits and goes on as soon as there is room again; when the channel is closed the transfer ends and its resources are released.',
  'every sequence of messages of any size, and every interleaving of the sender with the callbacks of the library and the closing of the channel',
  'races between a condition variable and callbacks',
  ['libcs/client/webrtc/datachannel.go:SendOnce', 'libcs/client/webrtc/datachannel.go:onBufferedAmountChange', 'libcs/client/peer.go:OnOpen'])
p('One P2P channel does not stop the others',
  'Messages of a P2P data channel reach its service in order, none twice and none skipped, and whatever happens to one channel - a service that refuses connections, a visitor that leaves - the other channels go on.',
  'any number of channels sharing a thread, every interleaving of their callbacks with the goroutines, every outcome of the connections to the services',
  'interleavings of unboundedly many channels',
  ['libcs/client/peer.go:OnOpen', 'libcs/client/peer.go:OnStateChange', 'libcs/client/peer.go:OnMessage', 'libcs/util/blockvalue.go:Get'])
p('A TCP connection forwarded over P2P ends on both sides',
  'Of a TCP connection forwarded over P2P each side receives what the other wrote, in order and completely; when one side ends the connection, the other receives what was written before and is then told of the end.',
  'every interleaving of writes and ends of application and service with the two goroutines and the deliveries of the channel',
  'interleavings and unbounded traffic',
  ['libcs/client/tcpforward.go:tcpForwardStart', 'libcs/client/peer.go:OnOpen', 'libcs/client/peer.go:OnStateChange'])
p('Signalling responses are read completely or the attempt fails',
  'The forwarder reads from the response exactly the answer and the candidates the other client wrote; a response that breaks off is an error.',
  'every answer, every list of candidates, every point at which the response breaks off',
  'all byte strings and truncation points',
  ['libcs/client/tcpforward.go:createPeerConnection', 'libcs/client/peer.go:response'])
p('The forwarder serves connections on its address',
  'When P2P forwarding is configured, a connection to its address is accepted and gets one of the configured peer connections, in turn; temporary failures at the start are overcome.',
  'every configured number of connections, every number of simultaneous applications, every interleaving, every outcome of the attempts at start',
  'unbounded numbers of goroutines and attempts',
  ['libcs/client/tcpforward.go:createPeerConnections', 'libcs/client/tcpforward.go:tcpForwardStart', 'libcs/client/client.go:Start'])
p('Encryption that is configured is used',
  'If a tls:// remote is configured for a host, every connection of the client to that host uses TLS; a host with a tls:// or quic:// remote is never contacted without encryption, whatever fails; certificates are checked as configured, and a certificate file that cannot be used keeps the client from starting.',
  'every list of remotes and every combination of the certificate options',
  'all lists of remotes',
  ['libcs/client/client.go:init', 'libcs/client/client.go:dial', 'libcs/client/client.go:processRemotes'])
p('Every configured server is contacted as configured',
  'Every -remote given is either refused at start or used: its host, its port (443 or 80 by default) and its transport, with the congestion control selected by -bbr; an address obtained from the remote API is treated like one given as -remote; a server that cannot be reached does not end the client.',
  'every list of remotes (names, IPv4 and IPv6 addresses, with and without ports, known and unknown schemes), every sequence of answers of the remote API',
  'all lists and texts',
  ['libcs/client/client.go:processRemotes', 'libcs/client/client.go:init', 'libcs/client/client.go:initWithRemoteAPI', 'libcs/conn/quicConn.go:QuicDial'])
p('A server listens where it is told to, or does not start',
  'When the server has started, every service whose address is configured is open and no other; when it reports that it could not start, it listens nowhere; after it was closed nothing is open.',
  'every configuration of addresses and certificates, every failure of binding or loading',
  'combinations of settings and failures',
  ['libcs/server/server.go:Start', 'libcs/server/server.go:Close', 'libcs/conn/quicConn.go:QuicListen', 'libcs/lib/export/lib.go:RunServer'])
p('What a started server has opened',
  "Of a server that has started, each service has exactly one socket, on the address given ('80', ':80' or host:port); TLS uses the configured certificate and at least the configured version; QUIC is always encrypted; the API is encrypted if certificate and key are given; an address that cannot be bound or a certificate that cannot be loaded keeps the server from starting, and nothing else does; after closing at most the QUIC socket is left.",
  'every configuration of addresses and certificates, every failure of binding or loading',
  'combinations of settings and failures',
  ['libcs/server/server.go:Start', 'libcs/server/server.go:tlsListen', 'libcs/server/server.go:quicListen', 'libcs/server/server.go:newTLSConfig', 'libcs/server/server.go:startAPIServer', 'libcs/server/server.go:Close'])
p('The server goes on accepting connections',
  'While the server runs, every connection to its TCP, TLS and SNI addresses and forwarded ports is handled once; a failure that passes (no free file descriptors) only delays this, by at most a second; after the shutdown has begun no connection is handled.',
  'every sequence of connections, failures of accept, and shutdown',
  'unbounded histories',
  ['libcs/server/server.go:acceptLoop', 'libcs/client/tcpforward.go:tcpForwardStart'])
p('gt connect forwards what it is given',
  'Every line on standard input is sent to the configured server in one request of its own, in order and unchanged; success is reported exactly for the lines the server took; the manager can stop the connector with its shutdown message.',
  'every input, every configuration, every sequence of answers of the server',
  'unbounded inputs and all answers',
  ['bin/src/cs.rs:run_connect', 'bin/src/peer/mod.rs:process_connect', 'bin/src/peer/connect.rs:forward_data_with_server', 'bin/src/manager.rs:handle_stdout'])
p('gt -s reaches the running manager',
  "A signal sent with 'gt -s' is carried out exactly once; after a reported 'stop' no manager is left; without a signal nothing is done.",
  'every history of signals, restarts and other accesses to the signal files',
  'all interleavings of signals and restarts',
  ['bin/src/manager.rs:watcher', 'bin/src/manager.rs:run_manager', 'bin/src/manager.rs:send_signal'])
p('-s of the Go programs reaches exactly the running instances',
  "'-s reload|restart|stop|kill' signals every other process of the same program, no other process and not itself; the exit status tells whether all were reached.",
  'every list of processes, every failure of reading a path or of signalling',
  'all process tables and failures',
  ['libcs/client/client.go:sig', 'libcs/client/client.go:processSignal', 'libcs/server/server.go:sig', 'libcs/server/server.go:processSignal'])
p('The platform decides who may connect, and under which hosts',
  "With -authAPI a tunnel is accepted only if the platform knows its id and secret (or it is the server's own test of itself), and is registered exactly for those of its declared host prefixes that are its id or were granted by the platform, which is asked once about each tunnel.",
  'every tunnel, every answer of the platform, every history',
  'all answers and histories',
  ['libcs/server/server.go:authWithAPI', 'libcs/server/server.go:authUserWithAPI', 'libcs/server/conn.go:handleTunnel'])
p('Only refused clients are locked out',
  'With -authAPI a client known to the platform is not refused, and an address is blocked only after the platform has refused it more often than allowed.',
  'every history of tunnels and answers of the platform, outages included',
  'histories with failures of another system',
  ['libcs/server/server.go:authWithAPI', 'libcs/server/server.go:authUserWithAPI', 'libcs/server/conn.go:handleTunnel', 'libcs/server/conn.go:handle'])
p('Clients and visitors share an address without confusion',
  "However a connection's bytes are cut into pieces, it is taken for a client's exactly if it begins with F0 01, for a probe if it begins with F0 02; every other connection is a visitor's, HTTP requests and TLS handshakes always, and its handler sees every byte from the first on.",
  'every byte stream, segmentation and error',
  'all segmentations',
  ['libcs/server/conn.go:handle'])
p('A visitor waits for a host that is just coming back',
  'A visitor is served at once if the host is there, by a tunnel of its client and with its service; if the host is back within two seconds he is served; otherwise he is turned away after three seconds.',
  'every history of registrations and tunnels, every moment of arrival',
  'all timings',
  ['libcs/server/conn.go:handleHTTP', 'libcs/server/conn.go:handleSNI', 'libcs/server/conn.go:handleTCP', 'libcs/server/client.go:process'])
p('Probes measure delay and loss',
  'The server sends every probe datagram back unchanged; the client reports the share of lost probes.',
  'every sequence of answers and losses',
  'all patterns of loss',
  ['libcs/server/conn.go:handleProbe', 'libcs/conn/quicConn.go:GetQuicProbesResults'])
p('Setting up a direct connection ends',
  "In thread mode a visitor who asks for a direct connection is told, in order, the addresses the library finds, then the end of the list; closing the connection at any moment ends, too. No schedule of the library's callbacks makes either hang.",
  'every number of addresses, every schedule, every moment of closing',
  'all schedules',
  ['libcs/client/peer.go:OnICECandidate', 'libcs/client/peer.go:response', 'libcs/client/peer.go:Close', 'libcs/client/webrtc/peerconnection.go:Close'])
p('The limits that hold for a client are the configured ones',
  'Whichever way a client is let in, the number of its hosts and TCP ports, its speed, its connections and the form of its hosts are limited by its own settings where it has some, and by the settings for all otherwise; of these the command line counts before the file. Whatever bytes a client sends, its accepted tunnels stay within these limits, and no login makes the server read a setting that is not there.',
  'every configuration, every way of being let in, every byte stream',
  'all combinations of set and unset values',
  ['libcs/server/server.go:parseHost', 'libcs/server/server.go:parseTCPs', 'libcs/server/server.go:authUserOrCreateUser', 'libcs/server/server.go:authUserWithAPI', 'libcs/server/conn.go:parseOptions'])
p('With hostWithID clients have hosts of their own',
  'If the id is put in front of declared hosts, two clients with different ids never declare the same host.',
  'every pair of ids and every declaration',
  'all ids and prefixes',
  ['libcs/server/conn.go:parseOptions'])
p('A receiver that does not read does not stop the others',
  'Several visitors (or local services) share a tunnel. Whatever one of them does, each of the others gets its own bytes, complete and in order, without waiting for the one that does not read; and a visitor that stays connected never gets its stream with a part missing in the middle.',
  'every mix of frames, every order in which receivers read, stall and close, every passage of time',
  'unbounded stalls and interleavings',
  ['libcs/server/conn.go:readLoop', 'libcs/conn/conn.go:Write', 'libcs/client/conn.go:processData', 'libcs/client/task.go:Write', 'libcs/bufio/reader.go:WriteTo'])
p('Bytes of one connection never appear in another through a shared buffer',
  "All connections of a process take their buffers from one common pool. Whatever is in a buffer when it is taken, and however the connections are interleaved, the bytes a connection writes are its own: none of another connection's request, answer or header.",
  'every number of connections of every kind, every interleaving, every segmentation of the requests, every contents of the pool',
  "unbounded interleavings; a wrong byte appears only under a rare schedule and depends on the pool's hidden choice",
  ['libcs/pool/pool.go:BytesPool', 'libcs/client/task.go:Write', 'libcs/client/task.go:process', 'libcs/server/conn.go:process', 'libcs/client/api/conn.go:Write', 'libcs/client/api/conn.go:Close', 'libcs/client/peer.go:CloseWithLock'])
p("A visitor's request reaches the service configured for its host, whole",
  "A client is configured with services; the server accepted it. A visitor connects and sends, in whatever pieces, a request whose Host names one of the host prefixes under some domain (or a TLS ClientHello with that server name). Then, whatever other traffic there is, exactly that service of exactly that client receives exactly the bytes the visitor sent, in order, then the end of the connection; the connection goes through one of the client's least loaded tunnels.",
  'every configuration within the limits, every history of the server, every request and segmentation, every interleaving with other connections',
  'composition of parser, registry, router and multiplexer over unbounded histories, byte streams and interleavings',
  ['libcs/client/conn.go:gen', 'libcs/server/conn.go:parseOptions', 'libcs/server/conn.go:handle', 'libcs/server/conn.go:handleHTTP', 'libcs/server/conn.go:handleSNI', 'libcs/server/client.go:addTunnel', 'libcs/server/client.go:getTunnel', 'libcs/server/client.go:process', 'libcs/server/conn.go:process', 'libcs/client/conn.go:readLoop'])
p('Starting a client is all or nothing',
  'When Client.Start returns nil, exactly the connection loops the options ask for run, the internal API server serves and the TCP forward listener is open iff it was configured; when Start returns an error, nothing that it began keeps running.',
  'all option sets (number of remote hosts, remote API or not, remoteConnections, forwarding or not), all outcomes of validation, queries and listening, and all interleavings of Start with the loops it has launched',
  'The loops run concurrently with the rest of Start; a test sees one schedule and rarely has the forward port taken.',
  ['libcs/client/client.go:Start', 'libcs/client/client.go:connectLoop'])
p('Stopping a client after it was started',
  'If Shutdown/Close are only called after Start has returned, then in every interleaving with the loops and other calls: the process never dies of a negative wait group, one call at most does the work, when that Shutdown has returned no loop runs, and when that Shutdown or Close has returned the API server is closed and the forward listener is not open.',
  "all option sets, all interleavings of any number of Shutdown/Close calls with Start's loops",
  "Races between Start, the loops' end and Shutdown depend on schedules no test forces.",
  ['libcs/client/client.go:Shutdown', 'libcs/client/client.go:Close', 'libcs/client/client.go:ShutdownWithoutClosingLogger', 'libcs/client/client.go:connectLoop'])
p('The client understands what the server says about its registration',
  'Every sequence of signals the server writes about registrations (ping, close, ready, services, each error, a port that could not be opened with its service, an opened port with its service) is read by the client as exactly that sequence, leaving exactly the following bytes; a proper prefix of a message is never acted upon; and the service named is the one with that index.',
  'all sequences of messages, all 16-bit service indexes and ports, all following bytes, all cut points',
  'The encodings are hand-written byte strings on one side and code numbers on the other; tests exercise a few of them.',
  ['libcs/conn/conn.go:SendErrorSignalFailedToOpenTCPPort', 'libcs/conn/conn.go:SendInfoTCPPortOpened', 'libcs/client/signal.go:handleError', 'libcs/client/signal.go:handleInfo', 'libcs/client/conn.go:readLoop'])
p('A connected client knows the public ports of its TCP services',
  'Whenever a client program has a tunnel at the server, it has been told, for each service of the configuration the server serves for it, the public TCP port at which that service is reached.',
  'all histories of joins, reloads and ends of tunnels, all port pools, all outcomes of bind and orders of map iteration',
  'A random port can only be learnt from the announcement; whether it comes depends on what other tunnels with the id did before.',
  ['libcs/server/client.go:addTunnel', 'libcs/server/conn.go:processTCPOptions', 'libcs/client/signal.go:handleInfo'])
p('A conversation arrives whole, in order, and is taken down everywhere',
  "Under every interleaving of the four goroutines that carry a visitor's connection, what either side has received is a beginning of what the other has sent. If the visitor keeps its connection open and nobody times out, it receives everything the service sends, and its connection is closed after the service has ended and not before; likewise the service receives the whole request. Left alone, gt comes to rest after boundedly many steps, and when the visitor or the service has ended nothing of the conversation remains on the server or the client: no table entry, no goroutine, no open connection.",
  'all interleavings, all data, all sizes of reads, all moments of closing, half-closing and timeouts on either side',
  'The two directions and the two close handshakes race; a test sees a handful of the orders.',
  ['libcs/server/conn.go:process', 'libcs/server/conn.go:readLoop', 'libcs/client/task.go:process', 'libcs/client/conn.go:readLoop', 'libcs/client/conn.go:processData'])
p('Closing one direction of a connection leaves the other intact',
  'A visitor that has sent its request and closes its sending side (TCP half-close) still receives the whole answer; a service that closes its sending side still receives the rest of the request.',
  'all requests, answers, interleavings',
  'The tunnel has one close frame for both directions; whether the answer survives depends on the order in which it and the close frame travel.',
  ['libcs/server/conn.go:process', 'libcs/client/task.go:CloseByRemote', 'libcs/client/task.go:process', 'libcs/server/conn.go:readLoop'])
p('A visitor of a service that cannot be reached is told',
  "When the client cannot connect to the local service, the visitor's connection is closed (or answered) without waiting for a timeout.",
  'all interleavings, all data',
  'The error path of the dial produces no observable effect at the client; its effect is an absence at the server, for as long as the read deadline lasts.',
  ['libcs/client/conn.go:processServiceData', 'libcs/client/conn.go:dial', 'libcs/server/conn.go:process'])
p('A visitor of a public TCP port reaches the service the port was announced for',
  'After a client has registered, it understands the announcement of exactly one public port per TCP service; the port is one its user may have, and the requested one if that is fixed; and a connection to that port, whatever it sends and whatever other clients do meanwhile, is carried to that service of that client, byte for byte, until the client registers again or leaves.',
  "all configurations, histories of the server's ports, visitors' bytes and their segmentation, task numbers",
  "Joins the client's configuration, the server's port bookkeeping under arbitrary histories of other clients, and the tunnel; each has unbounded state.",
  ['libcs/server/client.go:openTCPPort', 'libcs/server/client.go:openSpecifiedTCPPort', 'libcs/server/conn.go:processTCPOptions', 'libcs/server/conn.go:handleTCP', 'libcs/client/signal.go'])
p('Without a count limit, a week of logs is kept',
  'With logFileMaxCount 0 every line logged during the last seven days can be read in a log file of the directory, through rotations by date and size, restarts, slow removals and leftover lock files; and once a new file has been opened and the removals are done, no log file remains that was not written for seven days.',
  'all histories of writes, restarts, removals and foreign files; all calendars',
  'Removal runs in its own goroutine and depends on names, dates and modification times over weeks of history.',
  ['libcs/logger/file-rotatelogs/rotatelogs.go:getWriter_nolock', 'libcs/logger/file-rotatelogs/rotatelogs.go:rotate_nolock', 'libcs/logger/file-rotatelogs/rotatelogs.go:New', 'libcs/logger/logger.go:Init'])
p('Log rotation touches only the logs of this program',
  'Rotating and purging logs changes and removes no file but log files this program wrote.',
  'all histories and directory contents',
  "The set of files in the directory is unbounded and not the program's own.",
  ['libcs/logger/file-rotatelogs/rotatelogs.go:rotate_nolock', 'libcs/logger/file-rotatelogs/rotatelogs.go:New'])
p('Open P2P sessions never exceed the configured number',
  'A client never has more open P2P sessions at a time than -webrtcRemoteConnections allows; below the limit a request for a P2P session that comes through a tunnel whose server announced STUN addresses is taken up, at the limit it is refused without any effect on the others.',
  'all interleavings of requests, data frames and closings on any number of tunnels, any limit; numbers of P2P visitors used once (C57)',
  'the count is shared by all tunnels and changed by timers, children and readers at once; a test sees a few interleavings',
  ['libcs/client/conn.go newPeerProcTask newPeerTask', 'libcs/client/peerproc.go CloseWithLock closeWithLock'])
p('Clients of the BBR transport do not hold each other up',
  "On the QUIC transport with BBR, whatever is sent on an established tunnel reaches the server's end of it, whatever other clients do, and clients that connect at the same time all get their tunnels.",
  "all assignments of connections to MsQuic's worker threads, all interleavings of their callbacks, the accept loop, the network and closings",
  'a wait for ever needs several clients at particular points of their set-up and on the same worker thread',
  ['libcs/conn/msquic/listener.go Accept OnNewConnection', 'libcs/conn/msquic/conneciton.go PeerStreamStarted OnPeerStreamStarted OnConnectionShutdownComplete', 'libcs/conn/msquic/connection.cpp callback'])
p('A client that is refused is told why, and what it is told is so',
  'Whoever asks the server for a tunnel is answered: with the ports opened for it and the word that it is ready, exactly if it has become a tunnel, or with an error whose reason holds (wrong credentials, too many options, hosts or ports, a host that no pattern of the user allows, a host taken by another client, too many tunnels, a different configuration connected). Whoever keeps to the limits is not refused for them.',
  'all requests (ids, secrets, option lists), all users, limits, states of the registry and decisions of the platform',
  'tests refuse a handful of requests; here the message is compared with the reason for every list of options and every state of the server',
  ['libcs/server/conn.go handle handleTunnel parseOptions', 'libcs/server/client.go addTunnel', 'libcs/conn/conn.go SendErrorSignal*', 'libcs/client/conn.go readLoop'])
p('When a tunnel ends its visitors are disconnected',
  'When a tunnel is gone, every visitor that was connected through it is disconnected; with a timeout set none is left waiting for longer than the timeout.',
  'all interleavings of the end of the tunnel (or of its refusal) with visitors that are being connected, connected or sending',
  'the visitor must be between two steps of its connection exactly when the tunnel ends',
  ['libcs/server/conn.go readLoop process addTask handleTunnelLoop handle', 'libcs/server/client.go addTunnel getTunnel removeTunnel'])
p('Reloading the services leaves open connections alone',
  "A visitor that is connected stays connected while the tunnel works, until it goes itself, its service closes, it is silent for longer than the timeout or the tunnel can no longer be written to; in particular a reload of the client's services does not disconnect it.",
  'all interleavings of visitors, answers, close signals and reloads on a tunnel',
  'must hold for any number of connections in any state at the moment of the reload',
  ['libcs/server/conn.go readLoop handleTunnelLoop', 'libcs/client/client.go ReloadServices'])
p('A P2P answer reaches the session it names, and can be repeated',
  'A visitor that was given an offer and a number posts its answer and candidates under that number; exactly these messages are handed to the peer of that session, in order, the first as the answer, whatever else is posted to other sessions; posts for unknown numbers are refused; a post reported as successful was handed over whole; a post that failed can be repeated; only the visitor that was given the number can use it.',
  'every sequence of posts, every header, every message and every way it is cut; every place where a connection breaks',
  'depends on the state earlier requests leave in a session, at any byte position, and on overlapping requests',
  ['libcs/client/peerproc.go processAnswer process', 'libcs/client/peer.go processAnswer process getOffer'])
p('The connections to local services end with their tunnel',
  'When a tunnel of the client ends - because the client closes it, a write fails or its reader returns - every connection to a local service that was opened for a visitor of this tunnel is closed, at once or at the latest when LocalTimeout is over; the end of one connection closes no other; no connection is left behind.',
  'every interleaving of the reader of the tunnel with the goroutines of any number of connections, every number the server gives, every behaviour of the services',
  'the connections left behind appear only when the tunnel is closed between connecting to a service and entering it in the table',
  ['libcs/client/conn.go Close readLoop dial processServiceData processData', 'libcs/client/task.go process CloseWithValue setHost'])
p('When a reload of the services is carried out',
  'A reload of a running client whose services have changed and whose other options have not is carried out, whatever the options are; services that have not changed are reported as such; a reload in which another option differs is refused; a refused reload leaves the running client as it is; a reload never ends the process.',
  'every configuration given at the start and at the reload (options, services, web address, with or without file), every stage the start reached, every sequence of reloads',
  'the decision depends on what the start has made of the options in between: defaults put back, numbers brought into range, a secret made up',
  ['libcs/client/client.go New MergeConfig Start ReloadServices', 'libcs/client/config.go service.String services.String Options', 'libcs/client/web/web.go checkConfig', 'libcs/lib/export/lib.go RunClient'])
p('Logging when the disk fails and when the program crashes',
  'A log line whose write reports success is in the log, whole and once, at the end of a file of its day; a write that fails or is cut by a crash leaves at most a beginning of its line; nothing already logged is lost; when the disk works again, logging resumes; the link named by the log path leads to the file being written.',
  'every history of writes, crashes at any point, restarts and closes, every combination of failing disk operations, every disk with whatever left-over files',
  'the claim ranges over crash points between any two disk operations and over failures of each of them, followed by any later history',
  ['libcs/logger/file-rotatelogs/rotatelogs.go RotateLogs.Write getWriter_nolock rotate_nolock Close'])
p('Durations are read and written exactly',
  'A duration option (reconnectDelay, remoteTimeout, timeout, reconnectDuration, webrtcConnectionIdleTimeout) that is saved and read again, from a YAML file, from a form of the web UI or from the command line, is the same duration, for each of the 2^64 durations. A text made of numbers with units (h, m, s, ms, us/µs, ns; fractions down to whole nanoseconds) is read as exactly the duration it denotes if that fits in 64 bits. Nothing else is accepted except a single zero: in particular a number without a unit is refused, and a refused text in a file or form leaves the option as it was.',
  'every int64 duration; every text; every sequence of components with any number of digits; every previous value',
  '2^64 durations and infinitely many texts; the interesting ones are at carries, trailing zeros and limits',
  ['libcs/config/duration.go:Duration', 'libcs/config/duration.go:UnmarshalYAML', 'libcs/config/duration.go:UnmarshalJSON', 'libcs/config/duration.go:MarshalYAML', 'libcs/config/duration.go:MarshalJSON'])
p('The buffered writer is a faithful byte stream',
  'Whatever the underlying writer does (short writes, with or without an error), over any history of Write, WriteByte, WriteString, WriteRune and Flush: the bytes reported as taken are, in order and once, what the underlying writer has received followed by at most one buffer full that is still held; a Flush that reports success leaves nothing held back; a call that takes less than it was given reports an error; after an error no byte is taken any more and every call reports the same error; every call returns if the underlying writer takes nothing without an error only finitely often; over a writer that never fails every call takes everything.',
  'every buffer size, every sequence of calls with any arguments, every finite script of what the underlying Write does',
  'the sequences of calls, sizes and partial writes are unbounded; tests pick a few buffer sizes',
  ['libcs/bufio/bufio.go:Flush', 'libcs/bufio/bufio.go:Write', 'libcs/bufio/bufio.go:WriteByte', 'libcs/bufio/bufio.go:WriteString', 'libcs/bufio/bufio.go:WriteRune'])
p('The scanner delivers every line, word, byte or rune once, however the input is cut',
  "Whatever way the reader cuts the input into reads (also inside a line end or inside a UTF-8 sequence, with empty reads in between, and with its final error together with the last bytes or after them): the loop `for s.Scan() { use(s.Bytes()) }` gets exactly the lines of the input (with ScanLines), or its bytes (ScanBytes), or the encodings of what a range loop over the whole input gives (ScanRunes), or its words, the longest stretches without Unicode white space (ScanWords), in order and once each, and then ends, with Err reporting the reader's error, or nothing at end of file; this holds with every buffer given, for lines shorter than the largest buffer and words shorter than it by a rune's width. A line that does not fit is reported as ErrTooLong, and after Scan has returned false it returns false again.",
  'every input, every segmentation into reads with at most 100 empty reads in a row, every final error, every initial buffer and maximum size',
  'inputs, cuts and sizes are unbounded; tests use a few readers',
  ['libcs/bufio/scan.go:Scan', 'libcs/bufio/scan.go:advance', 'libcs/bufio/scan.go:ScanLines', 'libcs/bufio/scan.go:ScanBytes', 'libcs/bufio/scan.go:ScanRunes', 'libcs/bufio/scan.go:ScanWords', 'libcs/bufio/scan.go:Buffer'])
p('Made-up secrets are well formed and cannot be guessed',
  "Every secret, name, password and key that the programs make up (the client's secret, the web administrator's name and password, the signing key, the temporary key, the id and secret of the server's API) has the stated number of letters and digits, each of the 62 as likely as the others if the generator's numbers are, and within one process no number of the generator is used for two letters; two programs do not make up the same secret, and nobody who knows no more than when a program was started can find its secrets out.",
  'every generator, every sequence of requests in every order in which concurrent callers get the lock, every start time',
  'a property of all sequences and of what others can compute; a test sees strings that look random',
  ['libcs/util/rand.go:RandomString', 'libcs/util/rand.go:RandomPort', 'libcs/util/rand.go:init', 'libcs/client/client.go:Start', 'libcs/server/web/web.go:isFirstStart', 'libcs/server/web/web.go:checkConfig'])
p('A P2P session uses its WebRTC connection only while it exists and releases it',
  'When P2P connections run inside the client (webrtcThreadMode), nothing that visitors, timers, lost connections or the end of a tunnel do to a session makes the client use a connection object that the WebRTC library refused or that was already released, or close a channel twice; a session that is only sent offers, answers and candidates makes at most one connection object; every connection object the session made is released exactly once when the session is closed, however many of them decide to close it at the same time.',
  'every sequence of requests on a session, every interleaving of their steps with timers and callbacks of the library, every answer of the library to the configuration',
  'memory safety across a language border under all interleavings; a test run sees one of them, and a use of released memory need not show',
  ['libcs/client/peer.go:init', 'libcs/client/peer.go:Close', 'libcs/client/peer.go:CloseWithLock', 'libcs/client/peer.go:process', 'libcs/client/peer.go:processOffer', 'libcs/client/peer.go:getOffer', 'libcs/client/peer.go:processAnswer', 'libcs/client/peer.go:OnNegotiationNeeded', 'libcs/client/webrtc/peerconnection.go:NewPeerConnection', 'libcs/client/webrtc/peerconnection.go:Close', 'libcs/client/webrtc/peerconnection.cpp:Delete'])
p('A P2P session runs at most one child process, and it ends with the session',
  'A P2P session (without webrtcThreadMode) runs at most one child process at a time, so that the limit on P2P connections bounds the number of processes; however and however often a session is closed, it kills only children of its own, at most once, and afterwards none of its children runs on.',
  'every sequence of requests on a session, every interleaving of their steps with timers, closes and the ends of children',
  'a leaked process shows only in particular interleavings, and only after the test is over',
  ['libcs/client/peerproc.go:init', 'libcs/client/peerproc.go:Close', 'libcs/client/peerproc.go:CloseWithLock', 'libcs/client/peerproc.go:closeWithLock', 'libcs/client/peerproc.go:process', 'libcs/client/peerproc.go:processOffer', 'libcs/client/peerproc.go:getOffer', 'libcs/client/peerproc.go:processAnswer'])
p('ReadRune reads exactly the runes of the stream, UnreadRune takes back only the last one',
  'Reading rune by rune from a buffered reader until the error gives exactly the runes (with their sizes) that ranging over all the bytes before the first error of the underlying reader gives, and then that error, however the bytes are cut into reads; if the underlying reader goes on after its error, so does reading rune by rune, and the error is reported once; UnreadRune after ReadRune puts exactly that rune back (UnreadByte its last byte), and it succeeds only if the last call that did anything was a ReadRune.',
  'every underlying reader that does not deliver nothing 100 times in a row, every segmentation, every buffer of at least 4 bytes, every history of calls',
  'a rune may be cut by any read boundary and any history of calls may precede UnreadRune',
  ['libcs/bufio/bufio.go:ReadRune', 'libcs/bufio/bufio.go:UnreadRune', 'libcs/bufio/bufio.go:Discard', 'libcs/bufio/bufio.go:fill'])
p("WriteTo copies the rest of the stream and reports the reader's error",
  "Reader.WriteTo hands the destination exactly the bytes that are left before the underlying reader's first error, in order, and returns that error (none at the end of the stream); whatever the reader and the destination do, what was handed over and what is left afterwards are together what was left before.",
  'every reader state, every segmentation and error of the underlying reader, every pattern of short writes',
  'errors may come alone or with data at any read boundary, and writes may be cut anywhere',
  ['libcs/bufio/bufio.go:WriteTo', 'libcs/bufio/bufio.go:writeBuf', 'libcs/bufio/bufio.go:fill', 'libcs/bufio/reader.go:WriteTo'])
p('The links of the web console lead to it',
  'Whenever the web console runs, the link that is opened in the browser at its start and the link to the profiles in its menu name the protocol it speaks, a host it listens on and its port; with configured certificates it is served with TLS.',
  'every address the user can write, every certificate configuration, with and without arguments, every outcome of the attempts to listen',
  'the link is computed apart from the listening socket, from text; the combinations of address forms, certificates, arguments and busy ports are unbounded',
  ['libcs/web/server/util/browser.go:SwitchToValidWebURL', 'libcs/server/web/web.go:NewWebServer', 'libcs/server/web/web.go:checkConfig', 'libcs/server/web/web.go:getServer', 'libcs/server/web/web.go:start', 'libcs/client/web/web.go:start', 'libcs/server/web/service/service.go:GetMenu'])
p('Frames of a tunnel stay whole, and a stalled tunnel is noticed',
  'Whatever number of visitors write to a tunnel at the same time and however slowly its other side reads, the other side is sent whole frames only, exactly those whose writes succeeded, and behind them at most the beginning of one more; and a write to a tunnel whose other side does not read ends with an error after the timeout.',
  "every number of writers, every interleaving of their writes with time, deadlines, the other side's reading, failures and the closing of the tunnel",
  'deadlines are shared by all writers of a connection; a torn frame needs a write that fails half done and another writer between that and the closing of the tunnel',
  ['libcs/conn/conn.go:Write', 'libcs/server/conn.go:process', 'libcs/server/conn.go:newConn', 'libcs/client/conn.go:newConn', 'libcs/client/task.go:process'])
p('Shutdown of the server ends in time and tells every client',
  'When the server is asked to shut down, every connected client is told once to connect again before the process ends, then every tunnel is closed once, and the shutdown ends within the three minutes the process has, whatever the clients do.',
  'every number of clients and tunnels in every order, every lock delay, every timeout, every time that a tunnel takes to accept a signal including never, and every number of waiting rounds',
  'the clients are told one after the other under their locks; what counts is the sum over all stalled clients and tunnels, and a client that never reads',
  ['libcs/server/server.go:Shutdown', 'libcs/server/server.go:Close', 'libcs/server/client.go:close', 'libcs/server/client.go:reconnect', 'libcs/conn/conn.go:Write', 'libcs/lib/export/lib.go:RunServer'])
p('ReadFrom of the buffered writer copies the source exactly',
  "ReadFrom of the buffered writer returns and takes the bytes of its source once and in order, up to the source's end or error: what was written or is buffered grows by exactly the number of bytes it reports. End of file is no error; an error of the source is reported after all its bytes were taken and later writes work; an error of the underlying writer is reported, and bytes that were not counted are still in the source; giving up without progress is reported only after a hundred empty reads in a row.",
  'every buffer size and content, every source with every division of its bytes over reads, empty reads and errors with or without bytes, and every sequence of partial writes and errors of the underlying writer',
  'the buffer fills up in the middle of any read, and write errors, read errors and the end of file can meet at every boundary',
  ['libcs/bufio/bufio.go:Writer.ReadFrom', 'libcs/bufio/bufio.go:Writer.Flush'])
p('A tunnel that is closed is closed',
  'After a side closes a tunnel, for whatever reason, nothing that the other side sends on it is handled any more and its connection is released, on every transport; and before that only what the other side sent is handled, once and in order.',
  'every transport, every history of frames, pings, ends of direction, closes by any goroutine, passes of the reader, passed deadlines and losses of the connection, before and after the close',
  'close comes from other goroutines than the reader, and what the peer does afterwards is up to the peer',
  ['libcs/conn/conn.go:CloseWithValue', 'libcs/conn/quicConn.go:QuicConnection', 'libcs/conn/msquic/msquicConn.go:Close', 'libcs/server/conn.go:readLoop', 'libcs/server/client.go:close'])
with open("/verif/properties.jsonl","w") as f:
    for x in P: f.write(json.dumps(x)+"\n")
print(len(P))
