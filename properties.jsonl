{"id": "C01", "title": "Handshake round trip: the server registers exactly the services the client declared", "statement": "When a client connects with an id, a secret and a list of services (HTTP host prefixes, HTTPS host prefixes, TCP ports fixed or random), the server's handshake parser recovers that id, that secret and, for every service in order, exactly the declared routing entry (prefix, TLS or not, or port and random flag) under the service's own index, consumes exactly the bytes the client wrote, and leaves any bytes that follow untouched.", "quantifier": "every id/secret of length 1..200, every nonempty service list within the server's limits, every byte string following the handshake", "why_tests_cant": "the set of service lists, names and ports is unbounded and the encoding nests 'option-and-next-option' markers whose counter arithmetic only shows errors at particular depths", "anchors": ["libcs/client/conn.go:gen", "libcs/client/conn.go:init", "libcs/server/conn.go:handleTunnel", "libcs/server/conn.go:parseOptions", "libcs/predef/const.go"]}
{"id": "C02", "title": "Handshake limits are enforced for every byte stream", "statement": "Whatever bytes a peer sends, option parsing terminates, and if it succeeds the registration never has more host prefixes than the configured host number (when nonzero), never has more TCP ports than the configured TCP number, never took more than the configured maximum of handshake options, and every explicitly requested host prefix matches the configured regular expressions (when any are configured).", "quantifier": "every byte stream, every limit configuration, every regex predicate", "why_tests_cant": "adversarial streams are unbounded; off-by-one in limit checks appears only at particular counts", "anchors": ["libcs/server/conn.go:parseOptions", "libcs/server/conn.go:handleTunnel"]}
{"id": "C03", "title": "Handshake id and secret length limits", "statement": "The server rejects a tunnel handshake whose id or secret length is outside [1,200] (MinIDSize..MaxIDSize, MinSecretSize..MaxSecretSize).", "quantifier": "every handshake byte stream", "why_tests_cant": "requires every length byte 0..255; the check in the code combines the two bounds with && and so is unreachable", "anchors": ["libcs/server/conn.go:handleTunnel", "libcs/predef/const.go"]}
{"id": "C04", "title": "Service-set checksum is a function of the registered services only, and separates different sets", "statement": "The digest input the server computes for a registration does not depend on map iteration order, is equal for two tunnels that registered the same services in the same order, and differs for tunnels that registered different services (so a reload with different services is never mistaken for 'unchanged').", "quantifier": "every registration, every iteration order of the two maps, every pair of registrations", "why_tests_cant": "Go map iteration order is random and the pair space is infinite; collisions of the digest preimage are found only by reasoning", "anchors": ["libcs/server/conn.go:calChecksum", "libcs/server/conn.go:processHostPrefixes"]}
{"id": "C05", "title": "HTTP routing: the host header found is the first one, for any TCP segmentation", "statement": "For an incoming HTTP request, however it is split into TCP segments, the server picks as target host the trimmed value of the first header line with the configured name, never consumes any byte of the request while looking, never looks further than 2048 bytes, and rejects requests whose header block ends without such a line.", "quantifier": "every request byte string, every segmentation into reads", "why_tests_cant": "segmentation is a schedule: all 2^(n-1) ways of splitting each request", "anchors": ["libcs/server/http.go:peekHeader", "libcs/server/http.go:peekHost"]}
{"id": "C06", "title": "Host to client-id mapping", "statement": "The id extracted from a host 'id.domain.tld' is exactly the text before the first dot; hosts without two separated dots are rejected; an accepted id contains no dot; and no accepted host yields an id different from its first label.", "quantifier": "every byte string used as host", "why_tests_cant": "unbounded input space with boundary conditions at dots and ends", "anchors": ["libcs/server/http.go:parseIDFromHost", "libcs/server/conn.go:handleHTTP"]}
{"id": "C07", "title": "TLS SNI peek is in bounds on every input and correct on every well-formed ClientHello", "statement": "Parsing the first bytes of a TLS connection never indexes outside the received bytes whatever the peer sent, always terminates, and for a well-formed ClientHello carrying a server_name extension returns exactly that name, whatever session id, cipher suites, compression methods and other extensions surround it.", "quantifier": "every byte string; every well-formed ClientHello", "why_tests_cant": "arbitrary attacker-controlled lengths; out-of-range index is a remote crash", "anchors": ["libcs/server/tls.go:peekTLSHost", "libcs/server/conn.go:handleSNI"]}
{"id": "C08", "title": "Buffered reader is a faithful byte stream", "statement": "Any sequence of Peek, Discard, Read, ReadByte, UnreadByte, ReadSlice and Buffered calls on the buffered reader over any underlying reader behaves like the same operations on one contiguous byte sequence: no byte lost, duplicated or reordered, whatever sizes the underlying reader returns.", "quantifier": "every byte stream, every chunking by the underlying reader (including zero-byte reads and late errors), every operation sequence, every buffer size >= 16", "why_tests_cant": "operation sequences times chunkings is infinite", "anchors": ["libcs/bufio/bufio.go:Reader", "libcs/bufio/bufio.go:fill", "libcs/bufio/bufio.go:Peek", "libcs/bufio/bufio.go:Discard", "libcs/bufio/bufio.go:Read"]}
{"id": "C09", "title": "A limited reader transfers exactly the frame body", "statement": "Copying a frame of N bytes out of a connection delivers exactly the next N bytes of the stream in order, leaves byte N+1 as the next byte of the connection, and reports how many remain if the connection ends early.", "quantifier": "every N, every stream and chunking, every buffered prefix", "why_tests_cant": "chunk boundaries relative to N are unbounded", "anchors": ["libcs/bufio/reader.go:LimitedReader", "libcs/bufio/reader.go:WriteTo"]}
{"id": "C10", "title": "Tunnel multiplexing, server to client: no cross-talk, no reordering", "statement": "For any number of concurrent public connections multiplexed over one tunnel, with frames interleaved in any order, the client delivers to each local service connection exactly the bytes the corresponding public connection sent, in order, to the service selected by its service index, and nothing from another connection.", "quantifier": "every number of tasks, every split into reads, every interleaving of frames", "why_tests_cant": "interleavings are schedules", "anchors": ["libcs/server/conn.go:process", "libcs/client/conn.go:readLoop", "libcs/client/conn.go:processServiceData", "libcs/client/conn.go:processData"]}
{"id": "C11", "title": "Tunnel multiplexing, client to server: no cross-talk, and unknown tasks keep the stream in sync", "statement": "Response frames interleaved in any order are delivered to the public connection that owns the task id, in order; frames for tasks that no longer exist are skipped entirely so that later frames are still decoded at the right boundary.", "quantifier": "every set of live tasks, every interleaving, every frame size", "why_tests_cant": "interleavings and closing races are schedules", "anchors": ["libcs/client/task.go:process", "libcs/server/conn.go:readLoop"]}
{"id": "C12", "title": "A data frame for an already-closed task never crashes the server", "statement": "Whatever frames a client sends, including an empty data frame for a task id that does not exist, the server's tunnel reader either handles it, skips it or ends that tunnel; it never dereferences a missing task.", "quantifier": "every frame sequence, every set of live tasks", "why_tests_cant": "the failing combination (zero length, unknown task, timeout configured) is one point of an infinite space", "anchors": ["libcs/server/conn.go:readLoop"]}
{"id": "C13", "title": "Task ids are never confused with control signals", "statement": "The task id assigned to a public connection is never one of the reserved signal values and never 0, for any number of connections served before, so a task frame can never be decoded as ping/close/ready/error/info/services/reconnect.", "quantifier": "every number of previous tasks (including 2^32 wrap-around), every interleaving of concurrent assignments", "why_tests_cant": "wrap-around occurs after 4 billion connections", "anchors": ["libcs/server/client.go:process", "libcs/conn/conn.go"]}
{"id": "C14", "title": "Concurrent tasks of one tunnel have distinct ids", "statement": "Two public connections served through the same tunnel at the same time have different task ids.", "quantifier": "every history of assignments including counter wrap and concurrent wrap", "why_tests_cant": "needs 2^32 assignments or a particular interleaving of atomic operations", "anchors": ["libcs/server/client.go:process"]}
{"id": "C15", "title": "The id-to-client map behaves as a map", "statement": "Any sequence of Load, Store, LoadOrStore, LoadOrCreate, LoadAndDelete, Delete and Range on the server's concurrent map returns the same results as on a plain map.", "quantifier": "every operation sequence over every key and value type", "why_tests_cant": "promotion of the dirty map and expunged markers depend on long op sequences", "anchors": ["libcs/server/sync/map.go", "libcs/server/sync/create.go"]}
{"id": "C16", "title": "Creating a client entry is atomic under concurrency", "statement": "When several connections concurrently LoadOrCreate, Load and Delete the same key, every LoadOrCreate that reports 'created' installed the value that concurrent callers observe; two callers never both believe they created the live entry without a delete in between.", "quantifier": "every number of threads, every interleaving of the atomic steps", "why_tests_cant": "interleavings of atomic operations", "anchors": ["libcs/server/sync/create.go:LoadOrCreate", "libcs/server/sync/create.go:tryLoadOrCreate", "libcs/server/sync/map.go:delete"]}
{"id": "C17", "title": "Idle pool: parking never drops below the configured minimum", "statement": "A client connection is told to park (change to wait) only when more than the minimum number of idle connections remain, so parking alone never takes the number of idle connections below the configured minimum; a connecting tunnel is parked on initialisation only if the minimum is already met.", "quantifier": "every sequence of idle-manager operations over every number of connections", "why_tests_cant": "unbounded op sequences", "anchors": ["libcs/client/idle.go:ChangeToWait", "libcs/client/idle.go:Init"]}
{"id": "C18", "title": "Idle pool: a parked connection wakes when no idle connection is left", "statement": "A connection waiting in WaitIdle is released once no connection is idle or the manager is closed; no such state is left with the waiter asleep and no pending wake-up.", "quantifier": "every interleaving of waiters and state changes", "why_tests_cant": "lost wake-ups are schedule-dependent", "anchors": ["libcs/client/idle.go:WaitIdle", "libcs/client/idle.go:SetRunningWithTaskCount", "libcs/client/idle.go:Close"]}
{"id": "C19", "title": "Web login tokens: limited uses, expiry, no forging", "statement": "A temporary login key is accepted at most MaxUse times, never after its expiry, and a key that was never generated (or was exhausted) is never accepted; using one key does not affect another.", "quantifier": "every sequence of generate/verify calls at every time", "why_tests_cant": "unbounded histories and clock values", "anchors": ["libcs/web/server/tokenManager.go"]}
{"id": "C20", "title": "Speed limiting conserves bytes", "statement": "For any sequence of transfers under a per-client speed limit, the total time slept in seconds times the limit accounts for all bytes transferred up to less than one second's worth; i.e. bytes transferred < limit*(sleep seconds+1).", "quantifier": "every sequence of transfer sizes and every limit, including counter wrap-around at 2^32", "why_tests_cant": "needs long sequences; wrap-around needs totals above 2^32", "anchors": ["libcs/server/client.go:speedLimit"]}
{"id": "C21", "title": "Reconnect limiting blocks an IP after the allowed number of failures", "statement": "With reconnect limiting on, an IP whose handshakes keep failing authentication is refused before authentication after the configured number of failures, stays refused until the configured duration has passed, and failures from one IP never block another.", "quantifier": "every interleaved sequence of connection attempts from every set of IPs at every time", "why_tests_cant": "unbounded histories, clock values", "anchors": ["libcs/server/conn.go:handle", "libcs/server/conn.go:handleTunnel"]}
{"id": "C22", "title": "Authentication decision: a tunnel is accepted only with the right secret", "statement": "With configured users a tunnel is accepted only if the id is configured and its secret equals the configured secret; with the user-creation mode the first secret presented for a free id is the only one accepted while any tunnel of it is live.", "quantifier": "every user table, every id/secret pair, every history of joins and leaves", "why_tests_cant": "secrets and histories are unbounded", "anchors": ["libcs/server/server.go:authUserWithConfig", "libcs/server/server.go:authUserOrCreateUser", "libcs/server/config.go:auth", "libcs/server/client.go:removeTunnel"]}
{"id": "C23", "title": "Internal API credentials cannot be used by outsiders", "statement": "The credentials used by the server's own health-check client are accepted only while a check is in progress and never as the empty id/secret.", "quantifier": "every history of checks and authentication attempts", "why_tests_cant": "needs an attempt at particular points of a history", "anchors": ["libcs/server/api/server.go:Auth", "libcs/server/server.go:authUserOrCreateUser"]}
{"id": "C24", "title": "Host prefix exclusivity", "statement": "A host prefix routes to at most one client at any time, a client can never take over a prefix that another live client registered, a failed registration leaves the registry as it was before, and prefixes of a client are released when its last tunnel leaves.", "quantifier": "every history of tunnel joins, reloads and leaves by any number of clients", "why_tests_cant": "unbounded histories; rollback paths on conflict", "anchors": ["libcs/server/conn.go:processHostPrefixes", "libcs/server/client.go:addTunnel", "libcs/server/client.go:removeTunnel"]}
{"id": "C25", "title": "A client never has more tunnels than its connection limit", "statement": "At any time the number of live tunnels of a client is at most its configured connections.", "quantifier": "every history of joins, reloads and leaves", "why_tests_cant": "unbounded histories", "anchors": ["libcs/server/client.go:addTunnel", "libcs/server/client.go:removeTunnel"]}
{"id": "C26", "title": "Least-loaded tunnel selection", "statement": "A new public connection is assigned to a live tunnel of the client with the fewest tasks; if the client has any tunnel one is selected.", "quantifier": "every map of tunnels to task counts, every map iteration order", "why_tests_cant": "Go map iteration order is random", "anchors": ["libcs/server/client.go:getTunnel"]}
{"id": "C27", "title": "TCP port accounting", "statement": "A public TCP port is never open for two services at once, every port opened for a client comes from its allowed pools, and closing returns it so that pool and open ports always partition the configured set.", "quantifier": "every history of opens, closes, bind failures and reloads by any number of clients", "why_tests_cant": "unbounded histories", "anchors": ["libcs/server/client.go:openTCPPort", "libcs/server/client.go:deleteTCPListener", "libcs/server/client.go:closeTCPListeners", "libcs/server/conn.go:processTCPOptions"]}
{"id": "C28", "title": "TCP reload opens the newly requested port", "statement": "When a client reloads its services and changes the fixed public port of the TCP service at some index, the server opens the newly requested port for that service.", "quantifier": "every reload from every previous registration", "why_tests_cant": "needs reload sequences with changed ports at the same index", "anchors": ["libcs/server/conn.go:processTCPOptions", "libcs/server/client.go:openTCPPort"]}
{"id": "C29", "title": "Port range parsing and pool separation", "statement": "A configured range string denotes exactly the ports it spells (\"a\" -> {a}, \"a-b\" -> a..b, \"0\" -> 1..65535); every accepted range is nonempty and within 1..65535; the pools of different users and the global pool are pairwise disjoint.", "quantifier": "every range string; every list of users' ranges", "why_tests_cant": "string space is infinite", "anchors": ["libcs/util/portrange.go", "libcs/server/server.go:parseTCPs"]}
{"id": "C30", "title": "HTTP Host rewriting is independent of segmentation", "statement": "When the client rewrites the Host header of proxied requests, the bytes written to the local service are the request with exactly its first Host line replaced, whatever way the request arrives in pieces, and each write reports the full length of its piece.", "quantifier": "every request, every split into writes", "why_tests_cant": "2^(n-1) segmentations per request", "anchors": ["libcs/client/task.go:Write"]}
{"id": "C31", "title": "Chunked coding round trip", "statement": "Any sequence of writes through the chunked writer followed by close is decoded by the chunked reader to exactly the concatenation of the writes, with end of stream exactly there; hexadecimal chunk lengths are parsed exactly and over-long ones rejected.", "quantifier": "every sequence of writes", "why_tests_cant": "unbounded sequences and sizes", "anchors": ["libcs/client/std/chunked.go"]}
{"id": "C32", "title": "In-memory pipe is a FIFO with blocking hand-off", "statement": "Bytes written to the in-memory pipe are read in order with none lost or duplicated whatever the sizes of reads and writes, each write returns only after all its bytes were read or an end was closed, and reports exactly the bytes read.", "quantifier": "every sequence of reads, writes and closes, every interleaving of the hand-off", "why_tests_cant": "sizes and schedules are unbounded", "anchors": ["libcs/client/std/pipe.go"]}
{"id": "C33", "title": "API connection writes obey the io.Writer contract", "statement": "A write of n bytes on the client's API connection sends exactly those bytes in frames no larger than the peer's buffer and returns n.", "quantifier": "every payload", "why_tests_cant": "sizes unbounded; contract violated for every nonempty payload", "anchors": ["libcs/client/api/conn.go:Write"]}
{"id": "C34", "title": "Service options on the command line attach to the right local", "statement": "Each per-service option given after the k-th -local (and before the next) configures the k-th service and no other; an accepted configuration has no duplicate host prefix, all prefixes are 1..200 bytes, every TCP service has a local port and a remote port or random flag; defaults are applied only to unset options.", "quantifier": "every command line (any number and order of options)", "why_tests_cant": "permutations of options are unbounded", "anchors": ["libcs/client/client.go:parseServices", "libcs/config/positionslice.go"]}
{"id": "C35", "title": "Client connection counts are clamped", "statement": "For every configured value the number of remote connections used is in 1..10, idle connections in 1..remote connections, WebRTC connections in 1..50, and values already in range are kept.", "quantifier": "every combination of unsigned configuration values", "why_tests_cant": "boundary conditions over three interacting values", "anchors": ["libcs/client/client.go:Start"]}
{"id": "C36", "title": "Configuration written by the web UI reads back the same", "statement": "Saving a merged configuration and loading it yields the same effective configuration.", "quantifier": "every configuration", "why_tests_cant": "unbounded configuration space; zero values interact with defaults", "anchors": ["libcs/client/web/service/service.go", "libcs/client/client.go"]}
{"id": "C37", "title": "Block-until-set value", "statement": "A reader of a block-value never gets a value before one was set, gets a value that was set, and every reader is released after the first set; setting repeatedly never panics.", "quantifier": "every interleaving of setters and getters", "why_tests_cant": "schedules", "anchors": ["libcs/util/blockvalue.go"]}
{"id": "C38", "title": "Parent-child stdio framing round trip", "statement": "A message written by one process with the length-prefixed stdio framing is read by the other exactly, messages stay separated, and over-long frames are rejected, for any pipe segmentation.", "quantifier": "every message sequence, every segmentation", "why_tests_cant": "segmentation schedules", "anchors": ["libcs/util/stdio.go"]}
{"id": "C39", "title": "Dead remote detection is bounded", "statement": "A client tunnel whose server stops answering is closed after a bounded number of read timeouts, while a server that answers every ping is never declared dead.", "quantifier": "every sequence of timeouts, pings and frames", "why_tests_cant": "unbounded event sequences", "anchors": ["libcs/client/conn.go:readLoop"]}
{"id": "C40", "title": "Log rotation never overwrites or deletes live logs", "statement": "Rotation never reopens an existing generation name, and purging keeps at most the configured count while never unlinking the file being written.", "quantifier": "every history of rotations and existing files", "why_tests_cant": "needs particular numbers of generations", "anchors": ["libcs/logger/file-rotatelogs/rotatelogs.go", "libcs/logger/logger.go"]}
{"id": "C41", "title": "Connection filters of the web UI partition the connections", "statement": "Filtering connections by a predicate returns exactly the connections that match, in order, and the complementary filter exactly the rest.", "quantifier": "every list of connections and ports", "why_tests_cant": "unbounded lists", "anchors": ["libcs/web/server/util/net.go"]}
{"id": "C42", "title": "Peer signalling messages are reassembled exactly", "statement": "Length-prefixed signalling messages for the peer-to-peer mode are reassembled exactly, whatever segmentation they arrive in, over-long ones are rejected, and responses the client sends can be parsed back.", "quantifier": "every message sequence and segmentation", "why_tests_cant": "segmentation schedules", "anchors": ["libcs/client/peer.go:process", "libcs/client/peerproc.go", "libcs/client/peer.go:response"]}
{"id": "C43", "title": "Server connection accounting balances", "statement": "At all times accepted connections = served + failed + in progress and tunnelling equals the number of live tunnels; after every connection ended the counters balance and shutdown's wait terminates.", "quantifier": "every interleaving of connections starting, becoming tunnels and ending", "why_tests_cant": "schedules", "anchors": ["libcs/server/server.go:Shutdown", "libcs/server/conn.go:handle"]}
{"id": "C44", "title": "Accept loop back-off", "statement": "After consecutive temporary accept errors the delay doubles from 5ms, never exceeds 1s, is reset after a success, and a non-temporary error ends the loop.", "quantifier": "every sequence of accept results", "why_tests_cant": "unbounded sequences", "anchors": ["libcs/server/server.go:acceptLoop"]}
{"id": "C45", "title": "Close runs once", "statement": "Closing a connection from any number of goroutines closes the underlying transport exactly once, and the recorded origin (local or remote) is that of the first close.", "quantifier": "every interleaving of closers", "why_tests_cant": "schedules", "anchors": ["libcs/conn/conn.go:CloseWithValue", "libcs/conn/conn.go:CloseByRemote"]}
{"id": "C46", "title": "User configuration merge", "statement": "Merging users from file and command line yields, for every id, the command-line secret if given there and the file's otherwise; mismatching id/secret counts and ids or secrets outside 1..200 bytes are rejected.", "quantifier": "every pair of user lists", "why_tests_cant": "unbounded lists", "anchors": ["libcs/server/config.go:mergeUsers", "libcs/server/config.go:verify"]}
{"id": "C47", "title": "Oversized service lists are refused, not cut", "statement": "If the client's service list does not fit the fixed buffer in which the handshake (or a reload request) is assembled, the client reports an error; it never sends a truncated list.", "quantifier": "every service list", "why_tests_cant": "unbounded lists of arbitrary sizes", "anchors": ["libcs/client/conn.go:gen", "libcs/client/conn.go:init"]}
{"id": "C48", "title": "Control signals never disturb the proxied data", "statement": "Control signals (ping, close, ready, services, info, reconnect) that the server sends on a tunnel between data frames never change what the proxied connections receive.", "quantifier": "every position of every signal in every frame sequence", "why_tests_cant": "unbounded interleavings", "anchors": ["libcs/client/conn.go:readLoop", "libcs/server/client.go:close", "libcs/conn/conn.go:SendReconnectSignal"]}
{"id": "C49", "title": "Option precedence", "statement": "An option given on the command line takes effect over the file, the file over the default, and an option given nowhere has its default; a configuration file that cannot be read stops the program.", "quantifier": "every combination of command line, file and defaults", "why_tests_cant": "the cross product of options, sources and values is unbounded", "anchors": ["libcs/config/config.go:ParseFlags", "libcs/server/server.go:New", "libcs/client/client.go:New", "libcs/server/server.go:MergeConfig"]}
{"id": "C50", "title": "Saving a configuration survives a crash", "statement": "If the process stops at any point while the web UI saves the configuration, the file holds the old or the new configuration.", "quantifier": "every crash point", "why_tests_cant": "needs a crash between two system calls", "anchors": ["libcs/util/path.go:WriteYamlToFile"]}
{"id": "C51", "title": "When a tunnel ends", "statement": "The client ends a tunnel only at an error signal, a frame naming a service it does not have, a close signal when one was received before or no connection is open on the tunnel, or a ping after a close signal when no connection is open; the server only at a second close signal or a ping it cannot answer. A single close signal never cuts open connections.", "quantifier": "every byte stream either side may send and every behaviour of the local side", "why_tests_cant": "unbounded interleavings of signals and connections", "anchors": ["libcs/client/conn.go:readLoop", "libcs/server/conn.go:readLoop"]}
{"id": "C52", "title": "Batch start covers exactly the configuration files", "statement": "Started on a directory, gt starts exactly one process for every YAML file (.yaml or .yml) of at most 10 MiB found there within the depth limit, in the role the file describes, and no other; it refuses to start anything if a directory or file within the limit cannot be read or no file is found.", "quantifier": "every directory tree, every working directory and every depth limit below 255", "why_tests_cant": "unbounded trees and names", "anchors": ["bin/src/manager.rs:collect_files", "bin/src/manager.rs:collect_configs", "bin/src/manager.rs:run_configs"]}
{"id": "C53", "title": "Hitless reload", "statement": "While gt reloads, an old process is asked to shut down only after the process that replaces it (or, for a removed configuration, all new processes) reported that it is ready; afterwards every old process was asked.", "quantifier": "every set of configurations, every order in which processes become ready, crash or reconnect", "why_tests_cant": "needs all interleavings of two managers and their processes", "anchors": ["bin/src/manager.rs:process_signal", "bin/src/manager.rs:handle_stdout", "bin/src/manager.rs:run"]}
{"id": "C54", "title": "Process supervision", "statement": "A process that ends without having been asked to is started again, within a bounded time and at most once a minute, for ever; a process that announced its shutdown, or that was killed, released or replaced, is never started again; there is never more than one process per supervisor.", "quantifier": "every sequence of crashes, operations, failing starts and times", "why_tests_cant": "unbounded executions and times", "anchors": ["bin/src/manager.rs:run", "bin/src/manager.rs:handle_stdout"]}
{"id": "C55", "title": "Hosts come from accepted requests", "statement": "Every host prefix that routes to a client was asked for by a tunnel of that client's id that the server accepted; when an authentication API is used, it is the client's id or a prefix the API named for that client.", "quantifier": "every history of tunnels, reloads and answers of the authentication API", "why_tests_cant": "unbounded histories", "anchors": ["libcs/server/conn.go:processHostPrefixes", "libcs/server/conn.go:handleTunnel", "libcs/server/server.go:authWithAPI", "libcs/server/server.go:authUserWithAPI"]}
{"id": "C56", "title": "Refused only at the limit", "statement": "A tunnel is told that the maximum number of connections is reached only if its client has that many tunnels; the limit is never exceeded, also while several first tunnels of the client arrive at once.", "quantifier": "every interleaving of any number of tunnels of one id that connect and end", "why_tests_cant": "a race between the creation and the initialisation of the client", "anchors": ["libcs/server/conn.go:handleTunnel", "libcs/server/client.go:init", "libcs/server/client.go:addTunnel"]}
{"id": "C57", "title": "P2P requests do not disturb other traffic", "statement": "Handling P2P requests never stops the client or server from handling the other frames of its tunnels, and a request of one visitor never reaches or ends the session of another.", "quantifier": "every sequence of frames of any number of visitors on any number of tunnels, and every number of sessions up to and beyond the limit", "why_tests_cant": "needs the interleaving of frames with the end of sessions", "anchors": ["libcs/client/conn.go:processP2P", "libcs/client/conn.go:newPeerTask", "libcs/client/conn.go:newPeerProcTask", "libcs/client/peer.go:respAndClose"]}
{"id": "C58", "title": "P2P answers come from the visitor's peer", "statement": "A visitor that sends an offer through the client receives the answer its own peer process produced, followed by that process's candidates in order, and nothing else; a visitor that asks for an offer receives the offer the process produced.", "quantifier": "every offer, every answer and every list of candidates", "why_tests_cant": "two processes exchange any number of messages", "anchors": ["libcs/client/peerproc.go:processOffer", "libcs/client/peerproc.go:getOffer", "bin/src/peer/conn.rs:new", "bin/src/peer/conn.rs:handle"]}
{"id": "C59", "title": "P2P channels reach the service they name", "statement": "A P2P data channel reaches nothing or the local URL of a service the client runs; labelled with a host prefix or TCP port of a service it reaches that service, as a visitor of the server would.", "quantifier": "every accepted configuration, every history of announced ports and reloads, every label", "why_tests_cant": "unbounded labels, configurations and histories", "anchors": ["libcs/client/peerproc.go:init", "bin/src/peer/conn.rs:new_data_channel_process_handler", "libcs/client/signal.go:handleInfo"]}
{"id": "C60", "title": "P2P processes end when idle, and only then", "statement": "A P2P process gives up for idleness only when no channel is open and none was for the whole idle period, which is never less than five seconds, and it does so within two idle periods if it stays without channels and messages.", "quantifier": "every timing of messages and channels and every configured timeout", "why_tests_cant": "unbounded timings", "anchors": ["bin/src/peer/conn.rs:handle", "bin/src/peer/conn.rs:setup_data_channel"]}
{"id": "C61", "title": "P2P processes handle every message", "statement": "A P2P process handles exactly the messages the client sends it, in order, however they are cut into reads and whenever its timers fire.", "quantifier": "every list of messages, every segmentation and every timing", "why_tests_cant": "the loss needs a timer that fires in the middle of a message", "anchors": ["bin/src/peer/conn.rs:handle", "bin/src/peer/mod.rs:read_json"]}
{"id": "C62", "title": "An open P2P channel is never cut by the idle timer", "statement": "In thread mode a P2P session is ended by its idle timer only when none of its channels is open.", "quantifier": "every interleaving of channels that open and close", "why_tests_cant": "needs one channel to open while another closes", "anchors": ["libcs/client/peer.go:OnOpen", "libcs/client/conn.go:newPeerTask"]}
{"id": "C63", "title": "Visitors reach the right service during reloads", "statement": "A visitor is connected to the local service that its host or port names in the configuration the server routed it by, also while tunnels are being opened and while the client reloads its services.", "quantifier": "every interleaving of the messages of any number of tunnels, reloads, lost connections and visitors", "why_tests_cant": "both ends change their configuration at different times; the fault needs a visitor in between", "anchors": ["libcs/client/client.go:ReloadServices", "libcs/client/client.go:addTunnel", "libcs/client/conn.go:readLoop", "libcs/server/client.go:addTunnel", "libcs/server/conn.go:handleTunnel"]}
{"id": "C64", "title": "A successful reload has updated every tunnel", "statement": "ReloadServices returns without an error only when every tunnel of the client uses the new services or is gone; it returns once every tunnel has answered, and neither a lost tunnel nor a failed earlier reload keeps it from returning.", "quantifier": "every interleaving of writes, answers, losses, refusals and earlier reloads", "why_tests_cant": "a counter shared by the reload and the readers of all tunnels", "anchors": ["libcs/client/client.go:ReloadServices", "libcs/client/conn.go:readLoop"]}
{"id": "C65", "title": "The client keeps trying to connect", "statement": "While a client is open each of its connection loops can always begin another attempt: neither failed attempts, lost tunnels, parked loops nor another remote that cannot be reached lock it out, and no loop ends.", "quantifier": "every interleaving of the loops of any number of remotes, every sequence of failures", "why_tests_cant": "loops share a mutex held across a dial; the fault needs a dial that panics in another loop", "anchors": ["libcs/client/client.go:connect", "libcs/client/client.go:connectLoop", "libcs/client/client.go:dial", "libcs/conn/quicConn.go:QuicDial"]}
{"id": "C66", "title": "Shutting a client down ends every tunnel", "statement": "After Shutdown of a client has begun no new connection attempt begins, every open tunnel has been told to close, and every loop ends once its tunnel does.", "quantifier": "every interleaving of Shutdown with the connection loops", "why_tests_cant": "the fault needs a tunnel that becomes ready after the signals were sent", "anchors": ["libcs/client/client.go:ShutdownWithoutClosingLogger", "libcs/client/client.go:connect", "libcs/client/client.go:connectLoop"]}
{"id": "C67", "title": "Host prefixes are never taken over", "statement": "Whatever tunnels come, leave, are refused or reload, no event hands a host prefix that is registered for one client to another client.", "quantifier": "every history of the server, every request, every authentication mode", "why_tests_cant": "unbounded histories of overlapping registrations", "anchors": ["libcs/server/client.go:addTunnel", "libcs/server/client.go:removeTunnel", "libcs/server/server.go:getOrCreateClient"]}
{"id": "C68", "title": "Public TCP ports come from the client's own pool", "statement": "Every port the server ever has open for a client belongs to the pool configured for that client, whatever the client requests and whatever the operating system refuses.", "quantifier": "every history of requests, reloads, losses and bind results", "why_tests_cant": "unbounded histories", "anchors": ["libcs/server/client.go:processTCPOptions", "libcs/server/server.go:parseTCPs"]}
{"id": "C69", "title": "Configured secrets decide", "statement": "With configured users a tunnel is let in exactly if it presents a configured id with its secret, or the credentials of a health check in progress; every live tunnel did so. Where clients may create users as well, this still holds for every configured id.", "quantifier": "every history, every id and secret", "why_tests_cant": "unbounded histories of logins, creations and checks", "anchors": ["libcs/server/server.go:authUserWithConfig", "libcs/server/server.go:authUserOrCreateUser", "libcs/server/api/server.go:Auth"]}
{"id": "C70", "title": "The TLS peek is safe", "statement": "Looking for the server name of a TLS connection always returns, never indexes outside the received bytes and consumes nothing, whatever the peer sends and however the connection fails.", "quantifier": "every byte stream, segmentation and failure", "why_tests_cant": "unbounded inputs", "anchors": ["libcs/server/tls.go:peekTLSHost"]}
{"id": "C71", "title": "HTTP requests with early headers are routed alike however they are cut", "statement": "If the first line named by the configured header, or the end of the header block, lies within the first 2049 bytes, the server finds that line's value (or rejects the request) whatever the segmentation; whatever it finds is true of the request, and nothing is consumed.", "quantifier": "every request, segmentation and failure schedule", "why_tests_cant": "unbounded requests and segmentations", "anchors": ["libcs/server/http.go:peekHeader", "libcs/server/conn.go:handleHTTP"]}
{"id": "C72", "title": "The server's shutdown wait ends", "statement": "Shutdown of a server waits at most 40 rounds whatever its connections do, and is never blocked; the counters it looks at are the numbers they stand for at all times.", "quantifier": "every interleaving of any number of connections with the shutdown", "why_tests_cant": "unbounded interleavings", "anchors": ["libcs/server/server.go:Shutdown", "libcs/server/server.go:handle"]}
{"id": "C73", "title": "API responses reach the visitor whole", "statement": "Whatever is written on a client's API connection reaches exactly the public connection it answers, whole and in order, followed by its end, whatever other visitors do at the same time; on a failed write a beginning of it was sent.", "quantifier": "every list of nonempty writes, every network behaviour, every interleaving with other tasks", "why_tests_cant": "unbounded writes and interleavings", "anchors": ["libcs/client/api/conn.go:Write", "libcs/server/conn.go:readLoop"]}
{"id": "C74", "title": "Signalling messages are handled as sent", "statement": "A P2P request body that carries whole messages of at most 4096 bytes leads to exactly these messages being handled, in order, however it is cut into pieces; a longer message is refused and nothing after it is handled.", "quantifier": "every list of messages, every segmentation", "why_tests_cant": "unbounded segmentations", "anchors": ["libcs/client/peer.go:process", "libcs/client/peerproc.go:process"]}
{"id": "C75", "title": "A crash while saving never mixes configurations", "statement": "If the process stops at any point while the web UI saves the configuration, the file holds the old contents or a beginning of the new ones.", "quantifier": "every crash point, every old and new configuration", "why_tests_cant": "crash points", "anchors": ["libcs/client/web/service", "libcs/server/web/service"]}
{"id": "C76", "title": "Without reloads no visitor reaches a wrong service", "statement": "As long as a client does not reload, every visitor reaches the service its host or port names, or none, in every execution.", "quantifier": "every interleaving of any number of tunnels, losses and visitors", "why_tests_cant": "unbounded interleavings of two programs", "anchors": ["libcs/client/client.go:addTunnel", "libcs/server/client.go:addTunnel", "libcs/server/conn.go:handleTunnel"]}
{"id": "C77", "title": "P2P channels reach nothing but services", "statement": "Whatever label a visitor gives a P2P data channel, it is connected to nothing or to the local URL of a service that the client runs.", "quantifier": "every accepted configuration, every history of announced ports and reloads, every label", "why_tests_cant": "unbounded labels, configurations and histories", "anchors": ["libcs/client/peerproc.go:init", "bin/src/peer/conn.rs:new_data_channel_process_handler"]}
{"id": "C78", "title": "Reconnect limiting is fair", "statement": "An IP with at most the configured number of failed authentications is never refused; one with more is refused until a release timer of it fires; what other IPs do changes nothing.", "quantifier": "every interleaving of connections of any number of IPs", "why_tests_cant": "unbounded interleavings", "anchors": ["libcs/server/conn.go:handleTunnel", "libcs/server/server.go:reconnect"]}
{"id": "C79", "title": "Port ranges mean what they spell", "statement": "A configured range is accepted exactly if it is a number or two numbers in order within 0..65535, and stands for exactly the ports it spells; the pools of different users and the global pool are disjoint.", "quantifier": "every range string and every list of users", "why_tests_cant": "unbounded strings and lists", "anchors": ["libcs/util/portrange.go", "libcs/server/server.go:parseTCPs"]}
{"id": "C80", "title": "Accepted services are usable", "statement": "A client accepts a list of services exactly under the documented conditions, and then every service has a local URL with a port, a timeout and a remote port or the random flag if it is TCP, and no two services share a prefix.", "quantifier": "every command line and file", "why_tests_cant": "unbounded lists of options", "anchors": ["libcs/client/client.go:parseServices"]}
{"id": "C81", "title": "The manager reads its children exactly", "statement": "The messages a child process writes to its parent are read exactly and in order, however the pipe cuts them.", "quantifier": "every list of messages and every segmentation", "why_tests_cant": "unbounded segmentations", "anchors": ["bin/src/peer/mod.rs:read_json", "bin/src/manager.rs:read_hex_len_json"]}
{"id": "C82", "title": "A blocking value releases its readers", "statement": "A reader of a block-value gets the value of the latest set before it returns, never returns before one, and is released once a set completed, whatever other readers and setters do.", "quantifier": "every interleaving of readers and setters", "why_tests_cant": "interleavings", "anchors": ["libcs/util/blockvalue.go"]}
{"id": "C83", "title": "The accept loop survives temporary errors", "statement": "Every accepted connection is handled, in order, until shutdown or a permanent error; after a temporary error the loop sleeps between 5 ms and 1 s.", "quantifier": "every sequence of accept results", "why_tests_cant": "unbounded sequences", "anchors": ["libcs/server/server.go:acceptLoop"]}
{"id": "C84", "title": "Buffered reading always returns and reports errors", "statement": "No call on the buffered reader panics or hangs, whatever the connection does; the errors its calls report are the connection's errors in order, none invented and none reported twice.", "quantifier": "every sequence of calls and every behaviour of the connection", "why_tests_cant": "unbounded sequences", "anchors": ["libcs/bufio/bufio.go"]}
{"id": "C85", "title": "Clients with TLS, TCP or BBR remotes keep trying", "statement": "A client whose remotes are reached by TLS, TCP or QUIC with BBR can begin another attempt in each of its loops at any time before Shutdown, and no loop ends before.", "quantifier": "every interleaving of the loops of any number of remotes, every sequence of failures", "why_tests_cant": "unbounded interleavings", "anchors": ["libcs/client/client.go:connect", "libcs/client/client.go:connectLoop", "libcs/client/client.go:dial"]}
{"id": "C86", "title": "Waiting until a client is ready", "statement": "WaitUntilReady returns without an error only if the client has a tunnel, returns as soon as it has one, and at the latest when its timeout has passed, then with an error.", "quantifier": "every interleaving of any number of callers, timers, tunnels being added and removed", "why_tests_cant": "interleavings between look, registration, timer and broadcast", "anchors": ["libcs/client/client.go:WaitUntilReady", "libcs/client/client.go:addTunnel"]}
{"id": "C87", "title": "A child process reports truthfully and stops in time", "statement": "A server or client process tells its parent at most once that it is ready, and only after Start succeeded; it answers at most one shutdown request, with the answer that belongs to it, and only after Shutdown returned; and it is gone at most 180 s (server) or 30 s (client) after it took the request, whatever happens.", "quantifier": "every sequence of signals, messages, timers and outcomes of Start, Shutdown and reload", "why_tests_cant": "unbounded sequences of events", "anchors": ["libcs/lib/export/lib.go:RunServer", "libcs/lib/export/lib.go:RunClient", "libcs/lib/export/lib.go:handleStdIO"]}
{"id": "C88", "title": "A child process handles every shutdown request", "statement": "A shutdown request that reaches a process, by signal or by its standard input, is taken at the next step of the process and answered.", "quantifier": "every sequence of signals, messages, timers and outcomes of Start, Shutdown and reload", "why_tests_cant": "unbounded sequences of events", "anchors": ["libcs/lib/export/lib.go:RunServer", "libcs/lib/export/lib.go:RunClient", "libcs/lib/export/lib.go:handleStdIO"]}
{"id": "C89", "title": "The status page tells the truth", "statement": "Whenever /status answers with success, a complete round trip through the public address, a fresh client and its tunnel was made at most 15 s before or during the request; a failure is reported only if the round trip of this request failed; the temporary credentials are in force only during a request and are never those of a connected client; and round trips are at least 15 s apart, however many requests come.", "quantifier": "every history of requests, every outcome and duration of the round trips", "why_tests_cant": "unbounded histories", "anchors": ["libcs/server/api/server.go:check", "libcs/server/api/server.go:status", "libcs/server/api/server.go:randomIDSecret"]}
{"id": "C90", "title": "The web interface is closed to strangers", "statement": "Apart from login, health check, the link of a first start, static files and (if enabled) the profiling pages, the web interface answers only requests that carry a token which was issued less than 30 minutes before, with the signing key in use, and which goes back to a login with the user name and password then in force or to the first start of a process without configured credentials; other requests change nothing.", "quantifier": "every history of requests, starts, reloads and edits of the configuration file", "why_tests_cant": "unbounded histories; chains of tokens", "anchors": ["libcs/server/web/web.go:setRoutes", "libcs/web/server/middleware/jwt.go:JWTAuthMiddleware", "libcs/server/web/api/api.go:Login", "libcs/server/web/api/api.go:ChangeUserInfo", "libcs/client/web/web.go:setRoutes"]}
{"id": "C91", "title": "Credentials of the web interface take effect", "statement": "A login with the credentials in force yields a token that is accepted for 30 minutes; when the credentials are changed, the new ones are in force from then on and the old password and the tokens obtained with it are not.", "quantifier": "every history of requests, starts, reloads and edits of the configuration file", "why_tests_cant": "unbounded histories", "anchors": ["libcs/server/web/api/api.go:ChangeUserInfo", "libcs/server/web/service/service.go:VerifyUser", "libcs/client/client.go:ReloadServices"]}
{"id": "C92", "title": "The web interface is served as configured", "statement": "The web interface is served on the configured host only, speaks TLS if and only if a certificate is configured, a bad certificate is refused, and the link that is shown leads to it.", "quantifier": "every configuration and every sequence of answers of the operating system", "why_tests_cant": "unbounded sequences of failures", "anchors": ["libcs/server/web/web.go:getServer", "libcs/server/web/web.go:start", "libcs/client/web/web.go:start"]}
{"id": "C93", "title": "One QUIC client cannot keep the others out", "statement": "A client that connects to the QUIC address and is slow, silent, or gone again before it has opened its stream neither prevents nor delays the service of the clients that come after it; and after the shutdown of the server has begun no further QUIC connection is served.", "quantifier": "every sequence of QUIC connections, each opening its stream after any time, ending, or staying silent; both QUIC implementations; every time of the shutdown", "why_tests_cant": "unbounded sequences of connections and delays", "anchors": ["libcs/conn/quicConn.go:Accept", "libcs/conn/msquic/listener.go:Accept", "libcs/server/server.go:acceptLoop"]}
{"id": "C94", "title": "Streams of the BBR QUIC transport deliver all bytes before end of file", "statement": "What Read returns is a prefix of what the peer sent, for every size of buffers; end of file is reported only after the peer ended its side, after all bytes have been returned, and for good.", "quantifier": "every interleaving of arriving data, reads with any buffer size, shutdown by the peer and close", "why_tests_cant": "interleavings of callbacks and reads", "anchors": ["libcs/conn/msquic/stream.go:Read", "libcs/conn/msquic/stream.go:OnStreamReceive", "libcs/conn/msquic/stream.go:OnStreamShutdownComplete"]}
{"id": "C95", "title": "Concurrent use of a stream of the BBR QUIC transport is safe", "statement": "As net.Conn demands, a stream may be written to by several goroutines and closed by another: every write that reports success has been sent, unmixed; every write ends; and the native stream object is never used after it was deleted.", "quantifier": "every interleaving of writes by any number of goroutines, sends and completions of the library, reads and close", "why_tests_cant": "interleavings", "anchors": ["libcs/conn/msquic/stream.go:Write", "libcs/conn/msquic/stream.cpp:Send", "libcs/conn/msquic/stream.go:Close", "libcs/conn/conn.go:Write"]}
{"id": "C96", "title": "Time limits hold on every transport", "statement": "A read deadline set on a connection makes reads of a silent connection fail when it has passed, on TCP, TLS and both QUIC transports.", "quantifier": "every time of the call and every deadline", "why_tests_cant": "all pairs of times, including wrap-around of integers", "anchors": ["libcs/conn/msquic/conneciton.go:SetDeadline", "libcs/server/conn.go:handle"]}
{"id": "C97", "title": "Deadlines on connections of the internal API", "statement": "SetReadDeadline on a virtual connection of the internal API behaves as net.Conn demands: reads fail after the deadline in force has passed and not before, a later call replaces an earlier one, and the call returns.", "quantifier": "every sequence of calls, reads, arriving data, passing time and close", "why_tests_cant": "unbounded histories and races between timers and data", "anchors": ["libcs/client/api/conn.go:SetReadDeadline", "libcs/client/api/conn.go:Read", "libcs/client/std/pipe.go:StopPending"]}
{"id": "C98", "title": "Values of repeated options are taken whole or refused", "statement": "The value of a command line option that may be repeated (ids, secrets, port ranges and host patterns of the server; remotes, locals, host prefixes, ports and switches of the client) is either taken exactly as the user wrote it, or the program refuses to start.", "quantifier": "every text", "why_tests_cant": "all texts", "anchors": ["libcs/config/position.go:Set", "libcs/config/slice.go:Set", "libcs/client/config.go", "libcs/server/config.go"]}
{"id": "C99", "title": "Ordinary option values are taken as written", "statement": "A text without white space, a port number 0..65535 in decimal, and a switch written true, false, 1 or 0 have exactly that value, and no text yields a port outside 0..65535.", "quantifier": "every text without white space, every port number, every spelling of the switch", "why_tests_cant": "all texts and numbers", "anchors": ["libcs/config/position.go:Set", "libcs/config/slice.go:Set"]}
{"id": "C100", "title": "A P2P transfer goes on whenever there is room, and ends when the channel is closed", "statement": "Data read from a service for a P2P visitor is handed to the data channel in order and never beyond the room of its buffer; when the buffer is full the transfer waits and goes on as soon as there is room again; when the channel is closed the transfer ends and its resources are released.", "quantifier": "every sequence of messages of any size, and every interleaving of the sender with the callbacks of the library and the closing of the channel", "why_tests_cant": "races between a condition variable and callbacks", "anchors": ["libcs/client/webrtc/datachannel.go:SendOnce", "libcs/client/webrtc/datachannel.go:onBufferedAmountChange", "libcs/client/peer.go:OnOpen"]}
{"id": "C101", "title": "One P2P channel does not stop the others", "statement": "Messages of a P2P data channel reach its service in order, none twice and none skipped, and whatever happens to one channel - a service that refuses connections, a visitor that leaves - the other channels go on.", "quantifier": "any number of channels sharing a thread, every interleaving of their callbacks with the goroutines, every outcome of the connections to the services", "why_tests_cant": "interleavings of unboundedly many channels", "anchors": ["libcs/client/peer.go:OnOpen", "libcs/client/peer.go:OnStateChange", "libcs/client/peer.go:OnMessage", "libcs/util/blockvalue.go:Get"]}
{"id": "C102", "title": "A TCP connection forwarded over P2P ends on both sides", "statement": "Of a TCP connection forwarded over P2P each side receives what the other wrote, in order and completely; when one side ends the connection, the other receives what was written before and is then told of the end.", "quantifier": "every interleaving of writes and ends of application and service with the two goroutines and the deliveries of the channel", "why_tests_cant": "interleavings and unbounded traffic", "anchors": ["libcs/client/tcpforward.go:tcpForwardStart", "libcs/client/peer.go:OnOpen", "libcs/client/peer.go:OnStateChange"]}
{"id": "C103", "title": "Signalling responses are read completely or the attempt fails", "statement": "The forwarder reads from the response exactly the answer and the candidates the other client wrote; a response that breaks off is an error.", "quantifier": "every answer, every list of candidates, every point at which the response breaks off", "why_tests_cant": "all byte strings and truncation points", "anchors": ["libcs/client/tcpforward.go:createPeerConnection", "libcs/client/peer.go:response"]}
{"id": "C104", "title": "The forwarder serves connections on its address", "statement": "When P2P forwarding is configured, a connection to its address is accepted and gets one of the configured peer connections, in turn; temporary failures at the start are overcome.", "quantifier": "every configured number of connections, every number of simultaneous applications, every interleaving, every outcome of the attempts at start", "why_tests_cant": "unbounded numbers of goroutines and attempts", "anchors": ["libcs/client/tcpforward.go:createPeerConnections", "libcs/client/tcpforward.go:tcpForwardStart", "libcs/client/client.go:Start"]}
{"id": "C105", "title": "Encryption that is configured is used", "statement": "If a tls:// remote is configured for a host, every connection of the client to that host uses TLS; a host with a tls:// or quic:// remote is never contacted without encryption, whatever fails; certificates are checked as configured, and a certificate file that cannot be used keeps the client from starting.", "quantifier": "every list of remotes and every combination of the certificate options", "why_tests_cant": "all lists of remotes", "anchors": ["libcs/client/client.go:init", "libcs/client/client.go:dial", "libcs/client/client.go:processRemotes"]}
{"id": "C106", "title": "Every configured server is contacted as configured", "statement": "Every -remote given is either refused at start or used: its host, its port (443 or 80 by default) and its transport, with the congestion control selected by -bbr; an address obtained from the remote API is treated like one given as -remote; a server that cannot be reached does not end the client.", "quantifier": "every list of remotes (names, IPv4 and IPv6 addresses, with and without ports, known and unknown schemes), every sequence of answers of the remote API", "why_tests_cant": "all lists and texts", "anchors": ["libcs/client/client.go:processRemotes", "libcs/client/client.go:init", "libcs/client/client.go:initWithRemoteAPI", "libcs/conn/quicConn.go:QuicDial"]}
{"id": "C107", "title": "A server listens where it is told to, or does not start", "statement": "When the server has started, every service whose address is configured is open and no other; when it reports that it could not start, it listens nowhere; after it was closed nothing is open.", "quantifier": "every configuration of addresses and certificates, every failure of binding or loading", "why_tests_cant": "combinations of settings and failures", "anchors": ["libcs/server/server.go:Start", "libcs/server/server.go:Close", "libcs/conn/quicConn.go:QuicListen", "libcs/lib/export/lib.go:RunServer"]}
{"id": "C108", "title": "What a started server has opened", "statement": "Of a server that has started, each service has exactly one socket, on the address given ('80', ':80' or host:port); TLS uses the configured certificate and at least the configured version; QUIC is always encrypted; the API is encrypted if certificate and key are given; an address that cannot be bound or a certificate that cannot be loaded keeps the server from starting, and nothing else does; after closing at most the QUIC socket is left.", "quantifier": "every configuration of addresses and certificates, every failure of binding or loading", "why_tests_cant": "combinations of settings and failures", "anchors": ["libcs/server/server.go:Start", "libcs/server/server.go:tlsListen", "libcs/server/server.go:quicListen", "libcs/server/server.go:newTLSConfig", "libcs/server/server.go:startAPIServer", "libcs/server/server.go:Close"]}
{"id": "C109", "title": "The server goes on accepting connections", "statement": "While the server runs, every connection to its TCP, TLS and SNI addresses and forwarded ports is handled once; a failure that passes (no free file descriptors) only delays this, by at most a second; after the shutdown has begun no connection is handled.", "quantifier": "every sequence of connections, failures of accept, and shutdown", "why_tests_cant": "unbounded histories", "anchors": ["libcs/server/server.go:acceptLoop", "libcs/client/tcpforward.go:tcpForwardStart"]}
{"id": "C110", "title": "gt connect forwards what it is given", "statement": "Every line on standard input is sent to the configured server in one request of its own, in order and unchanged; success is reported exactly for the lines the server took; the manager can stop the connector with its shutdown message.", "quantifier": "every input, every configuration, every sequence of answers of the server", "why_tests_cant": "unbounded inputs and all answers", "anchors": ["bin/src/cs.rs:run_connect", "bin/src/peer/mod.rs:process_connect", "bin/src/peer/connect.rs:forward_data_with_server", "bin/src/manager.rs:handle_stdout"]}
{"id": "C111", "title": "gt -s reaches the running manager", "statement": "A signal sent with 'gt -s' is carried out exactly once; after a reported 'stop' no manager is left; without a signal nothing is done.", "quantifier": "every history of signals, restarts and other accesses to the signal files", "why_tests_cant": "all interleavings of signals and restarts", "anchors": ["bin/src/manager.rs:watcher", "bin/src/manager.rs:run_manager", "bin/src/manager.rs:send_signal"]}
{"id": "C112", "title": "-s of the Go programs reaches exactly the running instances", "statement": "'-s reload|restart|stop|kill' signals every other process of the same program, no other process and not itself; the exit status tells whether all were reached.", "quantifier": "every list of processes, every failure of reading a path or of signalling", "why_tests_cant": "all process tables and failures", "anchors": ["libcs/client/client.go:sig", "libcs/client/client.go:processSignal", "libcs/server/server.go:sig", "libcs/server/server.go:processSignal"]}
{"id": "C113", "title": "The platform decides who may connect, and under which hosts", "statement": "With -authAPI a tunnel is accepted only if the platform knows its id and secret (or it is the server's own test of itself), and is registered exactly for those of its declared host prefixes that are its id or were granted by the platform, which is asked once about each tunnel.", "quantifier": "every tunnel, every answer of the platform, every history", "why_tests_cant": "all answers and histories", "anchors": ["libcs/server/server.go:authWithAPI", "libcs/server/server.go:authUserWithAPI", "libcs/server/conn.go:handleTunnel"]}
{"id": "C114", "title": "Only refused clients are locked out", "statement": "With -authAPI a client known to the platform is not refused, and an address is blocked only after the platform has refused it more often than allowed.", "quantifier": "every history of tunnels and answers of the platform, outages included", "why_tests_cant": "histories with failures of another system", "anchors": ["libcs/server/server.go:authWithAPI", "libcs/server/server.go:authUserWithAPI", "libcs/server/conn.go:handleTunnel", "libcs/server/conn.go:handle"]}
{"id": "C115", "title": "Clients and visitors share an address without confusion", "statement": "However a connection's bytes are cut into pieces, it is taken for a client's exactly if it begins with F0 01, for a probe if it begins with F0 02; every other connection is a visitor's, HTTP requests and TLS handshakes always, and its handler sees every byte from the first on.", "quantifier": "every byte stream, segmentation and error", "why_tests_cant": "all segmentations", "anchors": ["libcs/server/conn.go:handle"]}
{"id": "C116", "title": "A visitor waits for a host that is just coming back", "statement": "A visitor is served at once if the host is there, by a tunnel of its client and with its service; if the host is back within two seconds he is served; otherwise he is turned away after three seconds.", "quantifier": "every history of registrations and tunnels, every moment of arrival", "why_tests_cant": "all timings", "anchors": ["libcs/server/conn.go:handleHTTP", "libcs/server/conn.go:handleSNI", "libcs/server/conn.go:handleTCP", "libcs/server/client.go:process"]}
{"id": "C117", "title": "Probes measure delay and loss", "statement": "The server sends every probe datagram back unchanged; the client reports the share of lost probes.", "quantifier": "every sequence of answers and losses", "why_tests_cant": "all patterns of loss", "anchors": ["libcs/server/conn.go:handleProbe", "libcs/conn/quicConn.go:GetQuicProbesResults"]}
{"id": "C118", "title": "Setting up a direct connection ends", "statement": "In thread mode a visitor who asks for a direct connection is told, in order, the addresses the library finds, then the end of the list; closing the connection at any moment ends, too. No schedule of the library's callbacks makes either hang.", "quantifier": "every number of addresses, every schedule, every moment of closing", "why_tests_cant": "all schedules", "anchors": ["libcs/client/peer.go:OnICECandidate", "libcs/client/peer.go:response", "libcs/client/peer.go:Close", "libcs/client/webrtc/peerconnection.go:Close"]}
{"id": "C119", "title": "The limits that hold for a client are the configured ones", "statement": "Whichever way a client is let in, the number of its hosts and TCP ports, its speed, its connections and the form of its hosts are limited by its own settings where it has some, and by the settings for all otherwise; of these the command line counts before the file. Whatever bytes a client sends, its accepted tunnels stay within these limits, and no login makes the server read a setting that is not there.", "quantifier": "every configuration, every way of being let in, every byte stream", "why_tests_cant": "all combinations of set and unset values", "anchors": ["libcs/server/server.go:parseHost", "libcs/server/server.go:parseTCPs", "libcs/server/server.go:authUserOrCreateUser", "libcs/server/server.go:authUserWithAPI", "libcs/server/conn.go:parseOptions"]}
{"id": "C120", "title": "With hostWithID clients have hosts of their own", "statement": "If the id is put in front of declared hosts, two clients with different ids never declare the same host.", "quantifier": "every pair of ids and every declaration", "why_tests_cant": "all ids and prefixes", "anchors": ["libcs/server/conn.go:parseOptions"]}
{"id": "C121", "title": "A receiver that does not read does not stop the others", "statement": "Several visitors (or local services) share a tunnel. Whatever one of them does, each of the others gets its own bytes, complete and in order, without waiting for the one that does not read; and a visitor that stays connected never gets its stream with a part missing in the middle.", "quantifier": "every mix of frames, every order in which receivers read, stall and close, every passage of time", "why_tests_cant": "unbounded stalls and interleavings", "anchors": ["libcs/server/conn.go:readLoop", "libcs/conn/conn.go:Write", "libcs/client/conn.go:processData", "libcs/client/task.go:Write", "libcs/bufio/reader.go:WriteTo"]}
{"id": "C122", "title": "Bytes of one connection never appear in another through a shared buffer", "statement": "All connections of a process take their buffers from one common pool. Whatever is in a buffer when it is taken, and however the connections are interleaved, the bytes a connection writes are its own: none of another connection's request, answer or header.", "quantifier": "every number of connections of every kind, every interleaving, every segmentation of the requests, every contents of the pool", "why_tests_cant": "unbounded interleavings; a wrong byte appears only under a rare schedule and depends on the pool's hidden choice", "anchors": ["libcs/pool/pool.go:BytesPool", "libcs/client/task.go:Write", "libcs/client/task.go:process", "libcs/server/conn.go:process", "libcs/client/api/conn.go:Write", "libcs/client/api/conn.go:Close", "libcs/client/peer.go:CloseWithLock"]}
{"id": "C123", "title": "A visitor's request reaches the service configured for its host, whole", "statement": "A client is configured with services; the server accepted it. A visitor connects and sends, in whatever pieces, a request whose Host names one of the host prefixes under some domain (or a TLS ClientHello with that server name). Then, whatever other traffic there is, exactly that service of exactly that client receives exactly the bytes the visitor sent, in order, then the end of the connection; the connection goes through one of the client's least loaded tunnels.", "quantifier": "every configuration within the limits, every history of the server, every request and segmentation, every interleaving with other connections", "why_tests_cant": "composition of parser, registry, router and multiplexer over unbounded histories, byte streams and interleavings", "anchors": ["libcs/client/conn.go:gen", "libcs/server/conn.go:parseOptions", "libcs/server/conn.go:handle", "libcs/server/conn.go:handleHTTP", "libcs/server/conn.go:handleSNI", "libcs/server/client.go:addTunnel", "libcs/server/client.go:getTunnel", "libcs/server/client.go:process", "libcs/server/conn.go:process", "libcs/client/conn.go:readLoop"]}
{"id": "C124", "title": "Starting a client is all or nothing", "statement": "When Client.Start returns nil, exactly the connection loops the options ask for run, the internal API server serves and the TCP forward listener is open iff it was configured; when Start returns an error, nothing that it began keeps running.", "quantifier": "all option sets (number of remote hosts, remote API or not, remoteConnections, forwarding or not), all outcomes of validation, queries and listening, and all interleavings of Start with the loops it has launched", "why_tests_cant": "The loops run concurrently with the rest of Start; a test sees one schedule and rarely has the forward port taken.", "anchors": ["libcs/client/client.go:Start", "libcs/client/client.go:connectLoop"]}
{"id": "C125", "title": "Stopping a client after it was started", "statement": "If Shutdown/Close are only called after Start has returned, then in every interleaving with the loops and other calls: the process never dies of a negative wait group, one call at most does the work, when that Shutdown has returned no loop runs, and when that Shutdown or Close has returned the API server is closed and the forward listener is not open.", "quantifier": "all option sets, all interleavings of any number of Shutdown/Close calls with Start's loops", "why_tests_cant": "Races between Start, the loops' end and Shutdown depend on schedules no test forces.", "anchors": ["libcs/client/client.go:Shutdown", "libcs/client/client.go:Close", "libcs/client/client.go:ShutdownWithoutClosingLogger", "libcs/client/client.go:connectLoop"]}
{"id": "C126", "title": "The client understands what the server says about its registration", "statement": "Every sequence of signals the server writes about registrations (ping, close, ready, services, each error, a port that could not be opened with its service, an opened port with its service) is read by the client as exactly that sequence, leaving exactly the following bytes; a proper prefix of a message is never acted upon; and the service named is the one with that index.", "quantifier": "all sequences of messages, all 16-bit service indexes and ports, all following bytes, all cut points", "why_tests_cant": "The encodings are hand-written byte strings on one side and code numbers on the other; tests exercise a few of them.", "anchors": ["libcs/conn/conn.go:SendErrorSignalFailedToOpenTCPPort", "libcs/conn/conn.go:SendInfoTCPPortOpened", "libcs/client/signal.go:handleError", "libcs/client/signal.go:handleInfo", "libcs/client/conn.go:readLoop"]}
{"id": "C127", "title": "A connected client knows the public ports of its TCP services", "statement": "Whenever a client program has a tunnel at the server, it has been told, for each service of the configuration the server serves for it, the public TCP port at which that service is reached.", "quantifier": "all histories of joins, reloads and ends of tunnels, all port pools, all outcomes of bind and orders of map iteration", "why_tests_cant": "A random port can only be learnt from the announcement; whether it comes depends on what other tunnels with the id did before.", "anchors": ["libcs/server/client.go:addTunnel", "libcs/server/conn.go:processTCPOptions", "libcs/client/signal.go:handleInfo"]}
{"id": "C128", "title": "A conversation arrives whole, in order, and is taken down everywhere", "statement": "Under every interleaving of the four goroutines that carry a visitor's connection, what either side has received is a beginning of what the other has sent. If the visitor keeps its connection open and nobody times out, it receives everything the service sends, and its connection is closed after the service has ended and not before; likewise the service receives the whole request. Left alone, gt comes to rest after boundedly many steps, and when the visitor or the service has ended nothing of the conversation remains on the server or the client: no table entry, no goroutine, no open connection.", "quantifier": "all interleavings, all data, all sizes of reads, all moments of closing, half-closing and timeouts on either side", "why_tests_cant": "The two directions and the two close handshakes race; a test sees a handful of the orders.", "anchors": ["libcs/server/conn.go:process", "libcs/server/conn.go:readLoop", "libcs/client/task.go:process", "libcs/client/conn.go:readLoop", "libcs/client/conn.go:processData"]}
{"id": "C129", "title": "Closing one direction of a connection leaves the other intact", "statement": "A visitor that has sent its request and closes its sending side (TCP half-close) still receives the whole answer; a service that closes its sending side still receives the rest of the request.", "quantifier": "all requests, answers, interleavings", "why_tests_cant": "The tunnel has one close frame for both directions; whether the answer survives depends on the order in which it and the close frame travel.", "anchors": ["libcs/server/conn.go:process", "libcs/client/task.go:CloseByRemote", "libcs/client/task.go:process", "libcs/server/conn.go:readLoop"]}
{"id": "C130", "title": "A visitor of a service that cannot be reached is told", "statement": "When the client cannot connect to the local service, the visitor's connection is closed (or answered) without waiting for a timeout.", "quantifier": "all interleavings, all data", "why_tests_cant": "The error path of the dial produces no observable effect at the client; its effect is an absence at the server, for as long as the read deadline lasts.", "anchors": ["libcs/client/conn.go:processServiceData", "libcs/client/conn.go:dial", "libcs/server/conn.go:process"]}
{"id": "C131", "title": "A visitor of a public TCP port reaches the service the port was announced for", "statement": "After a client has registered, it understands the announcement of exactly one public port per TCP service; the port is one its user may have, and the requested one if that is fixed; and a connection to that port, whatever it sends and whatever other clients do meanwhile, is carried to that service of that client, byte for byte, until the client registers again or leaves.", "quantifier": "all configurations, histories of the server's ports, visitors' bytes and their segmentation, task numbers", "why_tests_cant": "Joins the client's configuration, the server's port bookkeeping under arbitrary histories of other clients, and the tunnel; each has unbounded state.", "anchors": ["libcs/server/client.go:openTCPPort", "libcs/server/client.go:openSpecifiedTCPPort", "libcs/server/conn.go:processTCPOptions", "libcs/server/conn.go:handleTCP", "libcs/client/signal.go"]}
{"id": "C132", "title": "Without a count limit, a week of logs is kept", "statement": "With logFileMaxCount 0 every line logged during the last seven days can be read in a log file of the directory, through rotations by date and size, restarts, slow removals and leftover lock files; and once a new file has been opened and the removals are done, no log file remains that was not written for seven days.", "quantifier": "all histories of writes, restarts, removals and foreign files; all calendars", "why_tests_cant": "Removal runs in its own goroutine and depends on names, dates and modification times over weeks of history.", "anchors": ["libcs/logger/file-rotatelogs/rotatelogs.go:getWriter_nolock", "libcs/logger/file-rotatelogs/rotatelogs.go:rotate_nolock", "libcs/logger/file-rotatelogs/rotatelogs.go:New", "libcs/logger/logger.go:Init"]}
{"id": "C133", "title": "Log rotation touches only the logs of this program", "statement": "Rotating and purging logs changes and removes no file but log files this program wrote.", "quantifier": "all histories and directory contents", "why_tests_cant": "The set of files in the directory is unbounded and not the program's own.", "anchors": ["libcs/logger/file-rotatelogs/rotatelogs.go:rotate_nolock", "libcs/logger/file-rotatelogs/rotatelogs.go:New"]}
{"id": "C134", "title": "Open P2P sessions never exceed the configured number", "statement": "A client never has more open P2P sessions at a time than -webrtcRemoteConnections allows; below the limit a request for a P2P session that comes through a tunnel whose server announced STUN addresses is taken up, at the limit it is refused without any effect on the others.", "quantifier": "all interleavings of requests, data frames and closings on any number of tunnels, any limit; numbers of P2P visitors used once (C57)", "why_tests_cant": "the count is shared by all tunnels and changed by timers, children and readers at once; a test sees a few interleavings", "anchors": ["libcs/client/conn.go newPeerProcTask newPeerTask", "libcs/client/peerproc.go CloseWithLock closeWithLock"]}
{"id": "C135", "title": "Clients of the BBR transport do not hold each other up", "statement": "On the QUIC transport with BBR, whatever is sent on an established tunnel reaches the server's end of it, whatever other clients do, and clients that connect at the same time all get their tunnels.", "quantifier": "all assignments of connections to MsQuic's worker threads, all interleavings of their callbacks, the accept loop, the network and closings", "why_tests_cant": "a wait for ever needs several clients at particular points of their set-up and on the same worker thread", "anchors": ["libcs/conn/msquic/listener.go Accept OnNewConnection", "libcs/conn/msquic/conneciton.go PeerStreamStarted OnPeerStreamStarted OnConnectionShutdownComplete", "libcs/conn/msquic/connection.cpp callback"]}
{"id": "C136", "title": "A client that is refused is told why, and what it is told is so", "statement": "Whoever asks the server for a tunnel is answered: with the ports opened for it and the word that it is ready, exactly if it has become a tunnel, or with an error whose reason holds (wrong credentials, too many options, hosts or ports, a host that no pattern of the user allows, a host taken by another client, too many tunnels, a different configuration connected). Whoever keeps to the limits is not refused for them.", "quantifier": "all requests (ids, secrets, option lists), all users, limits, states of the registry and decisions of the platform", "why_tests_cant": "tests refuse a handful of requests; here the message is compared with the reason for every list of options and every state of the server", "anchors": ["libcs/server/conn.go handle handleTunnel parseOptions", "libcs/server/client.go addTunnel", "libcs/conn/conn.go SendErrorSignal*", "libcs/client/conn.go readLoop"]}
{"id": "C137", "title": "When a tunnel ends its visitors are disconnected", "statement": "When a tunnel is gone, every visitor that was connected through it is disconnected; with a timeout set none is left waiting for longer than the timeout.", "quantifier": "all interleavings of the end of the tunnel (or of its refusal) with visitors that are being connected, connected or sending", "why_tests_cant": "the visitor must be between two steps of its connection exactly when the tunnel ends", "anchors": ["libcs/server/conn.go readLoop process addTask handleTunnelLoop handle", "libcs/server/client.go addTunnel getTunnel removeTunnel"]}
{"id": "C138", "title": "Reloading the services leaves open connections alone", "statement": "A visitor that is connected stays connected while the tunnel works, until it goes itself, its service closes, it is silent for longer than the timeout or the tunnel can no longer be written to; in particular a reload of the client's services does not disconnect it.", "quantifier": "all interleavings of visitors, answers, close signals and reloads on a tunnel", "why_tests_cant": "must hold for any number of connections in any state at the moment of the reload", "anchors": ["libcs/server/conn.go readLoop handleTunnelLoop", "libcs/client/client.go ReloadServices"]}
{"id": "C139", "title": "A P2P answer reaches the session it names, and can be repeated", "statement": "A visitor that was given an offer and a number posts its answer and candidates under that number; exactly these messages are handed to the peer of that session, in order, the first as the answer, whatever else is posted to other sessions; posts for unknown numbers are refused; a post reported as successful was handed over whole; a post that failed can be repeated; only the visitor that was given the number can use it.", "quantifier": "every sequence of posts, every header, every message and every way it is cut; every place where a connection breaks", "why_tests_cant": "depends on the state earlier requests leave in a session, at any byte position, and on overlapping requests", "anchors": ["libcs/client/peerproc.go processAnswer process", "libcs/client/peer.go processAnswer process getOffer"]}
{"id": "C140", "title": "The connections to local services end with their tunnel", "statement": "When a tunnel of the client ends - because the client closes it, a write fails or its reader returns - every connection to a local service that was opened for a visitor of this tunnel is closed, at once or at the latest when LocalTimeout is over; the end of one connection closes no other; no connection is left behind.", "quantifier": "every interleaving of the reader of the tunnel with the goroutines of any number of connections, every number the server gives, every behaviour of the services", "why_tests_cant": "the connections left behind appear only when the tunnel is closed between connecting to a service and entering it in the table", "anchors": ["libcs/client/conn.go Close readLoop dial processServiceData processData", "libcs/client/task.go process CloseWithValue setHost"]}
{"id": "C141", "title": "When a reload of the services is carried out", "statement": "A reload of a running client whose services have changed and whose other options have not is carried out, whatever the options are; services that have not changed are reported as such; a reload in which another option differs is refused; a refused reload leaves the running client as it is; a reload never ends the process.", "quantifier": "every configuration given at the start and at the reload (options, services, web address, with or without file), every stage the start reached, every sequence of reloads", "why_tests_cant": "the decision depends on what the start has made of the options in between: defaults put back, numbers brought into range, a secret made up", "anchors": ["libcs/client/client.go New MergeConfig Start ReloadServices", "libcs/client/config.go service.String services.String Options", "libcs/client/web/web.go checkConfig", "libcs/lib/export/lib.go RunClient"]}
{"id": "C142", "title": "Logging when the disk fails and when the program crashes", "statement": "A log line whose write reports success is in the log, whole and once, at the end of a file of its day; a write that fails or is cut by a crash leaves at most a beginning of its line; nothing already logged is lost; when the disk works again, logging resumes; the link named by the log path leads to the file being written.", "quantifier": "every history of writes, crashes at any point, restarts and closes, every combination of failing disk operations, every disk with whatever left-over files", "why_tests_cant": "the claim ranges over crash points between any two disk operations and over failures of each of them, followed by any later history", "anchors": ["libcs/logger/file-rotatelogs/rotatelogs.go RotateLogs.Write getWriter_nolock rotate_nolock Close"]}
{"id": "C143", "title": "Durations are read and written exactly", "statement": "A duration option (reconnectDelay, remoteTimeout, timeout, reconnectDuration, webrtcConnectionIdleTimeout) that is saved and read again, from a YAML file, from a form of the web UI or from the command line, is the same duration, for each of the 2^64 durations. A text made of numbers with units (h, m, s, ms, us/\u00b5s, ns; fractions down to whole nanoseconds) is read as exactly the duration it denotes if that fits in 64 bits. Nothing else is accepted except a single zero: in particular a number without a unit is refused, and a refused text in a file or form leaves the option as it was.", "quantifier": "every int64 duration; every text; every sequence of components with any number of digits; every previous value", "why_tests_cant": "2^64 durations and infinitely many texts; the interesting ones are at carries, trailing zeros and limits", "anchors": ["libcs/config/duration.go:Duration", "libcs/config/duration.go:UnmarshalYAML", "libcs/config/duration.go:UnmarshalJSON", "libcs/config/duration.go:MarshalYAML", "libcs/config/duration.go:MarshalJSON"]}
{"id": "C144", "title": "The buffered writer is a faithful byte stream", "statement": "Whatever the underlying writer does (short writes, with or without an error), over any history of Write, WriteByte, WriteString, WriteRune and Flush: the bytes reported as taken are, in order and once, what the underlying writer has received followed by at most one buffer full that is still held; a Flush that reports success leaves nothing held back; a call that takes less than it was given reports an error; after an error no byte is taken any more and every call reports the same error; every call returns if the underlying writer takes nothing without an error only finitely often; over a writer that never fails every call takes everything.", "quantifier": "every buffer size, every sequence of calls with any arguments, every finite script of what the underlying Write does", "why_tests_cant": "the sequences of calls, sizes and partial writes are unbounded; tests pick a few buffer sizes", "anchors": ["libcs/bufio/bufio.go:Flush", "libcs/bufio/bufio.go:Write", "libcs/bufio/bufio.go:WriteByte", "libcs/bufio/bufio.go:WriteString", "libcs/bufio/bufio.go:WriteRune"]}
{"id": "C145", "title": "The scanner delivers every line, word, byte or rune once, however the input is cut", "statement": "Whatever way the reader cuts the input into reads (also inside a line end or inside a UTF-8 sequence, with empty reads in between, and with its final error together with the last bytes or after them): the loop `for s.Scan() { use(s.Bytes()) }` gets exactly the lines of the input (with ScanLines), or its bytes (ScanBytes), or the encodings of what a range loop over the whole input gives (ScanRunes), or its words, the longest stretches without Unicode white space (ScanWords), in order and once each, and then ends, with Err reporting the reader's error, or nothing at end of file; this holds with every buffer given, for lines shorter than the largest buffer and words shorter than it by a rune's width. A line that does not fit is reported as ErrTooLong, and after Scan has returned false it returns false again.", "quantifier": "every input, every segmentation into reads with at most 100 empty reads in a row, every final error, every initial buffer and maximum size", "why_tests_cant": "inputs, cuts and sizes are unbounded; tests use a few readers", "anchors": ["libcs/bufio/scan.go:Scan", "libcs/bufio/scan.go:advance", "libcs/bufio/scan.go:ScanLines", "libcs/bufio/scan.go:ScanBytes", "libcs/bufio/scan.go:ScanRunes", "libcs/bufio/scan.go:ScanWords", "libcs/bufio/scan.go:Buffer"]}
{"id": "C146", "title": "Made-up secrets are well formed and cannot be guessed", "statement": "Every secret, name, password and key that the programs make up (the client's secret, the web administrator's name and password, the signing key, the temporary key, the id and secret of the server's API) has the stated number of letters and digits, each of the 62 as likely as the others if the generator's numbers are, and within one process no number of the generator is used for two letters; two programs do not make up the same secret, and nobody who knows no more than when a program was started can find its secrets out.", "quantifier": "every generator, every sequence of requests in every order in which concurrent callers get the lock, every start time", "why_tests_cant": "a property of all sequences and of what others can compute; a test sees strings that look random", "anchors": ["libcs/util/rand.go:RandomString", "libcs/util/rand.go:RandomPort", "libcs/util/rand.go:init", "libcs/client/client.go:Start", "libcs/server/web/web.go:isFirstStart", "libcs/server/web/web.go:checkConfig"]}
{"id": "C147", "title": "A P2P session uses its WebRTC connection only while it exists and releases it", "statement": "When P2P connections run inside the client (webrtcThreadMode), nothing that visitors, timers, lost connections or the end of a tunnel do to a session makes the client use a connection object that the WebRTC library refused or that was already released, or close a channel twice; a session that is only sent offers, answers and candidates makes at most one connection object; every connection object the session made is released exactly once when the session is closed, however many of them decide to close it at the same time.", "quantifier": "every sequence of requests on a session, every interleaving of their steps with timers and callbacks of the library, every answer of the library to the configuration", "why_tests_cant": "memory safety across a language border under all interleavings; a test run sees one of them, and a use of released memory need not show", "anchors": ["libcs/client/peer.go:init", "libcs/client/peer.go:Close", "libcs/client/peer.go:CloseWithLock", "libcs/client/peer.go:process", "libcs/client/peer.go:processOffer", "libcs/client/peer.go:getOffer", "libcs/client/peer.go:processAnswer", "libcs/client/peer.go:OnNegotiationNeeded", "libcs/client/webrtc/peerconnection.go:NewPeerConnection", "libcs/client/webrtc/peerconnection.go:Close", "libcs/client/webrtc/peerconnection.cpp:Delete"]}
{"id": "C148", "title": "A P2P session runs at most one child process, and it ends with the session", "statement": "A P2P session (without webrtcThreadMode) runs at most one child process at a time, so that the limit on P2P connections bounds the number of processes; however and however often a session is closed, it kills only children of its own, at most once, and afterwards none of its children runs on.", "quantifier": "every sequence of requests on a session, every interleaving of their steps with timers, closes and the ends of children", "why_tests_cant": "a leaked process shows only in particular interleavings, and only after the test is over", "anchors": ["libcs/client/peerproc.go:init", "libcs/client/peerproc.go:Close", "libcs/client/peerproc.go:CloseWithLock", "libcs/client/peerproc.go:closeWithLock", "libcs/client/peerproc.go:process", "libcs/client/peerproc.go:processOffer", "libcs/client/peerproc.go:getOffer", "libcs/client/peerproc.go:processAnswer"]}
{"id": "C149", "title": "ReadRune reads exactly the runes of the stream, UnreadRune takes back only the last one", "statement": "Reading rune by rune from a buffered reader until the error gives exactly the runes (with their sizes) that ranging over all the bytes before the first error of the underlying reader gives, and then that error, however the bytes are cut into reads; if the underlying reader goes on after its error, so does reading rune by rune, and the error is reported once; UnreadRune after ReadRune puts exactly that rune back (UnreadByte its last byte), and it succeeds only if the last call that did anything was a ReadRune.", "quantifier": "every underlying reader that does not deliver nothing 100 times in a row, every segmentation, every buffer of at least 4 bytes, every history of calls", "why_tests_cant": "a rune may be cut by any read boundary and any history of calls may precede UnreadRune", "anchors": ["libcs/bufio/bufio.go:ReadRune", "libcs/bufio/bufio.go:UnreadRune", "libcs/bufio/bufio.go:Discard", "libcs/bufio/bufio.go:fill"]}
{"id": "C150", "title": "WriteTo copies the rest of the stream and reports the reader's error", "statement": "Reader.WriteTo hands the destination exactly the bytes that are left before the underlying reader's first error, in order, and returns that error (none at the end of the stream); whatever the reader and the destination do, what was handed over and what is left afterwards are together what was left before.", "quantifier": "every reader state, every segmentation and error of the underlying reader, every pattern of short writes", "why_tests_cant": "errors may come alone or with data at any read boundary, and writes may be cut anywhere", "anchors": ["libcs/bufio/bufio.go:WriteTo", "libcs/bufio/bufio.go:writeBuf", "libcs/bufio/bufio.go:fill", "libcs/bufio/reader.go:WriteTo"]}
{"id": "C151", "title": "The links of the web console lead to it", "statement": "Whenever the web console runs, the link that is opened in the browser at its start and the link to the profiles in its menu name the protocol it speaks, a host it listens on and its port; with configured certificates it is served with TLS.", "quantifier": "every address the user can write, every certificate configuration, with and without arguments, every outcome of the attempts to listen", "why_tests_cant": "the link is computed apart from the listening socket, from text; the combinations of address forms, certificates, arguments and busy ports are unbounded", "anchors": ["libcs/web/server/util/browser.go:SwitchToValidWebURL", "libcs/server/web/web.go:NewWebServer", "libcs/server/web/web.go:checkConfig", "libcs/server/web/web.go:getServer", "libcs/server/web/web.go:start", "libcs/client/web/web.go:start", "libcs/server/web/service/service.go:GetMenu"]}
{"id": "C152", "title": "Frames of a tunnel stay whole, and a stalled tunnel is noticed", "statement": "Whatever number of visitors write to a tunnel at the same time and however slowly its other side reads, the other side is sent whole frames only, exactly those whose writes succeeded, and behind them at most the beginning of one more; and a write to a tunnel whose other side does not read ends with an error after the timeout.", "quantifier": "every number of writers, every interleaving of their writes with time, deadlines, the other side's reading, failures and the closing of the tunnel", "why_tests_cant": "deadlines are shared by all writers of a connection; a torn frame needs a write that fails half done and another writer between that and the closing of the tunnel", "anchors": ["libcs/conn/conn.go:Write", "libcs/server/conn.go:process", "libcs/server/conn.go:newConn", "libcs/client/conn.go:newConn", "libcs/client/task.go:process"]}
{"id": "C153", "title": "Shutdown of the server ends in time and tells every client", "statement": "When the server is asked to shut down, every connected client is told once to connect again before the process ends, then every tunnel is closed once, and the shutdown ends within the three minutes the process has, whatever the clients do.", "quantifier": "every number of clients and tunnels in every order, every lock delay, every timeout, every time that a tunnel takes to accept a signal including never, and every number of waiting rounds", "why_tests_cant": "the clients are told one after the other under their locks; what counts is the sum over all stalled clients and tunnels, and a client that never reads", "anchors": ["libcs/server/server.go:Shutdown", "libcs/server/server.go:Close", "libcs/server/client.go:close", "libcs/server/client.go:reconnect", "libcs/conn/conn.go:Write", "libcs/lib/export/lib.go:RunServer"]}
{"id": "C154", "title": "ReadFrom of the buffered writer copies the source exactly", "statement": "ReadFrom of the buffered writer returns and takes the bytes of its source once and in order, up to the source's end or error: what was written or is buffered grows by exactly the number of bytes it reports. End of file is no error; an error of the source is reported after all its bytes were taken and later writes work; an error of the underlying writer is reported, and bytes that were not counted are still in the source; giving up without progress is reported only after a hundred empty reads in a row.", "quantifier": "every buffer size and content, every source with every division of its bytes over reads, empty reads and errors with or without bytes, and every sequence of partial writes and errors of the underlying writer", "why_tests_cant": "the buffer fills up in the middle of any read, and write errors, read errors and the end of file can meet at every boundary", "anchors": ["libcs/bufio/bufio.go:Writer.ReadFrom", "libcs/bufio/bufio.go:Writer.Flush"]}
{"id": "C155", "title": "A tunnel that is closed is closed", "statement": "After a side closes a tunnel, for whatever reason, nothing that the other side sends on it is handled any more and its connection is released, on every transport; and before that only what the other side sent is handled, once and in order.", "quantifier": "every transport, every history of frames, pings, ends of direction, closes by any goroutine, passes of the reader, passed deadlines and losses of the connection, before and after the close", "why_tests_cant": "close comes from other goroutines than the reader, and what the peer does afterwards is up to the peer", "anchors": ["libcs/conn/conn.go:CloseWithValue", "libcs/conn/quicConn.go:QuicConnection", "libcs/conn/msquic/msquicConn.go:Close", "libcs/server/conn.go:readLoop", "libcs/server/client.go:close"]}
