# Formal model of ao-space/gt — design

The code (Go, `/repo/libcs`; a small Rust supervisor in `/repo/bin/src`) is a reverse tunnel: public
HTTP/TLS/TCP connections reach a *server*, are multiplexed over *tunnels* and forwarded by *clients*
to local services.  We model its pure and state-machine cores in Lean 4 and prove the properties in
`properties.jsonl` about the models.

## Layout

Large areas are split into `Model.lean` (executable model or step relation, every definition cites the lines it models),
`Spec.lean` (small independent specification), `Lemmas.lean`/`Inv.lean` (helper lemmas, invariants) and `Props.lean` (the
theorems named in `MANIFEST.json`). Smaller areas are one file with the sections *model*, *Specification*, *Proofs*,
*Witnesses*. Each property theorem has an `example` beside it that meets its hypotheses in a concrete case; where the code violates
a property, the full property is stated as a definition, the part that holds is a theorem ending in `_partial`, and the
violation is itself a theorem (`not_…` or a descriptive name) exhibiting a reachable counterexample.

`properties.jsonl`, `MANIFEST.json` and `AXIOMS.md` are generated by `tools/genprops.py`, `tools/genmanifest.py` (from
`tools/claims.py`) and `tools/genaxioms.py`. `seeded/LOG.jsonl` records the wrong programs tried against the theorems. `seeded/MECHANICAL.jsonl` records a
campaign of small mechanical edits of every definition (literals, comparisons, negated conditions, dropped updates): about 88 % made a theorem
fail at once; every survivor was read, and either a theorem was added (the "theorems_tightened" of LOG.jsonl) or the edit does not change
what the claims speak of (ghost fields, fuel, logging, defensive branches).

## Plan per property (what is modelled, how it is proved)

| id | model | proof |
|----|-------|-------|
| C01 | `gen`/`init` as a list of bytes, `handleTunnel`/`parseOptions` as a total parser on a byte list with the Go counters (uint16 option count, leftOptions) | induction on the service list, generalising the parser state |
| C02 | same parser, arbitrary input bytes | invariant of the loop by induction on fuel; fuel shown sufficient (termination) |
| C03 | same parser | negation by witness + partial (what is guaranteed) |
| C04 | `calChecksum` preimage over a list representing the map in any iteration order | permutation invariance of the ordered tree; negation of injectivity by witness; injectivity under side conditions as partial |
| C05 | `peekHeader` as the Go index loop over a growing buffered prefix | loop invariant relating the scan to "first line with the prefix" on the whole stream |
| C06 | `parseIDFromHost` | direct |
| C07 | `peekTLSHost` with checked indexing (an out-of-range index is a distinct `panic` outcome) | `panic` unreachable; symbolic execution on the encoded ClientHello |
| C08 | `bufio.Reader` with buffer, r, w, err, lastByte and an adversarial underlying reader (a list of chunks) | refinement to a byte list |
| C09 | `LimitedReader.WriteTo` on the C08 reader | refinement |
| C10,C11 | frames produced by `process` on both sides, `readLoop` dispatch as a fold | interleaving induction |
| C12 | same, with an explicit `panic` outcome | negation + partial |
| C13,C14 | task id assignment with `BitVec`/`UInt32` arithmetic as atomic steps | invariant; negation for concurrent wrap |
| C15 | `sync.Map` copy: read/dirty/expunged/misses | refinement to `Key → Option Val` |
| C16 | interleaving machine of the atomic steps of `LoadOrCreate`/`Load`/`Delete` | invariant over all schedules |
| C17,C18 | idle manager status map, monitor machine for `WaitIdle` | invariant; wake-up analysis |
| C19 | token manager | invariant over histories |
| C20 | `speedLimit` over `UInt32` | conservation invariant; wrap-around negation |
| C21 | reconnect table with clock | invariant over histories |
| C22,C23 | the auth functions and user registry | decision theorems, invariant over join/leave histories |
| C24–C26 | server registry: clients, tunnels, host prefixes | invariant; witnesses for violations |
| C27–C29 | ports manager, listeners, range parser | conservation invariant; witnesses |
| C30 | `httpTask.Write` machine | chunking independence by refinement to a byte-at-a-time spec |
| C31 | chunked writer and reader | round trip |
| C32 | pipe as a hand-off machine | refinement to FIFO |
| C33 | `api.Conn.Write` | exact characterisation, negation |
| C34,C35 | `parseServices`, clamps | direct |
| C36 | merge functions; the tables of all 48+53 options (`Config.OptionTable`) | round trip partial, negation; by name for every option |
| C37 | block value as interleaving machine | invariant |
| C38 | stdio framing | round trip |
| C39 | client ping counter machine | invariant |
| C40 | rotatelogs naming and purge | invariant, negation |
| C41 | filters | direct |
| C42 | peer task reassembly | chunking independence |
| C43–C46 | counters, back-off, close-once, user merge | invariants / direct |
| C47 | `gen` for more services than the uint16 counter holds | negation by a family of witnesses |
| C48 | client reader loop with the reconnect signal inside data | step analysis; negation for reconnect |
| C49 | option merge (file, flags, defaults) field by field, then by name for all options of both programs | case analysis; negations for explicit zeros |
| C50 | save = truncate, write in pieces, crash at any point | all crash points; negation (truncated file) |
| C51 | both reader loops on arbitrary byte streams | fold induction: when and why the loop ends |
| C52 | directory walk of the Rust manager over a finite file tree | induction on the tree; u8 depth wrap-around |
| C53 | old and new child processes during a reload | invariant over event sequences; negations by witness |
| C54 | supervisor event loop of one child (restart delay, SIGTERM, SIGKILL) | invariant over all event sequences with clock |
| C55 | registry of C24 with the origin of each host | invariant over histories |
| C56 | `getOrCreate` and `init` as separate steps | invariant over interleavings |
| C57 | peer table shared by several tunnels | invariant; negation with two servers |
| C58 | session of one P2P process | fold over its messages |
| C59 | label → route → service | decision theorems |
| C60, C61 | event loop of the P2P process | invariant over event sequences with clock |
| C62 | idle timer versus opening channels | interleaving machine |
| C63, C76 | reload of service indexes on both sides | invariant over interleavings |
| C64 | `ReloadServices` with WaitGroup | invariant over interleavings |
| C65, C85, C66 | connection loops, status word, Shutdown | invariant over interleavings |
| C67–C85 | exception-free parts of earlier properties | the same models |
| C86 | `WaitUntilReady` with its condition variable and timers | interleaving machine |
| C87, C88 | child process: start-up report, signals, time limits | event machine with clock |
| C89 | status page: cached round trip under a mutex | history induction |
| C90, C91 | web server: sessions, tokens, reload | invariant over request histories |
| C92 | start of the web server | direct |
| C93 | QUIC accept loop, one at a time | queue machine, exact characterisation |
| C94, C95 | BBR stream: callbacks versus Read/Write/Close | interleaving machine |
| C96 | deadlines per transport | direct |
| C97 | deadlines of `api.Conn` (timers, pending channel) | interleaving machine with clock |
| C98, C99 | option lexer (`fmt.Fscan`-like) and number parsers | list induction |
| C100 | buffered-amount wait of a P2P sender | interleaving machine; exact stuck states |
| C101 | callbacks on one signalling thread | interleaving machine |
| C102 | forwarded TCP connection over a channel | interleaving machine |
| C103, C104 | signalling client: response reader, choice of channel, start | list induction; atomic counter machine |
| C105, C106 | dialer: scheme, host, port, TLS decision | string functions, direct |
| C107, C108 | start of the server: listeners in order, failure at any of them | induction over the start sequence |
| C109 | accept loop with error classes | fold over accept results |
| C110 | `gt connect`: request text, answers, manager messages | list functions, fold |
| C111 | `gt -s`: signal files, watcher, start of a manager | event machine with clock |
| C112 | Go `-s`: walk over the process table | list induction |
| C113, C114 | platform authentication (HTTP answer, JSON fields), failure counters | decision theorems, history induction |
| C115 | first two bytes on the C08 reader | refinement of the reader |
| C116 | waiting loop of a visitor against any world | induction on the attempts |
| C117 | probe echo and measurement | list induction |
| C118 | candidate channel of 16 places against the signalling thread | interleaving machine, measure |
| C119, C120 | completing user records at start, composed with the handshake parser | induction over the tables; refinement to C02 and C46 |
| C121 | the tunnel's one reader, the receivers' sockets and the write deadline as a machine with time | invariant over runs (which bytes are where), potential argument for the delay bound, composition with C39; runs for every n and every time for the findings |
| C122 | `Util/Pool.lean`: byte memory, pool that hands out any free buffer (stale contents), users as programs of get/fill/use/put/send, any interleaving; `Util/PoolUsers.lean`: every user of `pool.BytesPool` with the code's offsets | invariant (own buffer, own view) for rule-obeying users; each kind of user proved to obey (or the exact condition); converse: any use or fill after put leaks for some rule-obeying neighbour; `host_own`, `server_own`, `client_own` tie the programs to the models of C10–C12 and C30 |
| C123 | `EndToEnd.lean`: the composition `serve`/`serveTLS` of the existing models: `Dispatch.sort` → `Route.httpID`/`peekTLSHost` → registry lookup → `getTunnel` → `serverProcess`; `Registry/FirstJoin.lean` | composition of C01, C24, C115, C05–C07, C26, C10 (and C30 for the replaced `Host`); an invariant of the reader (nothing consumed, no error hidden) carried through every peek; for a client that has just joined: any history, by freshness of client numbers (C55) |
| C124 | `Client.Start` statement by statement (validation, remote API loop, idle manager, launch/count of each loop, API server, forward listener) interleaved with the loops it launches (`Client/StartStop.lean`) | invariant on the number of launched loops, their states and the wait group while nobody stops the client; the failing forward listener is a proved counterexample |
| C125 | the same with any number of concurrent `Shutdown` and `Close` calls | invariant: after `Start` the wait group equals the number of loops alive; per-call invariant of what it has closed; four counterexamples for stops that begin before `Start` has returned |
| C126 | the byte strings of every signal the server sends about a registration and the client's `handleError`/`handleInfo`/signal switch (`Server/Announce.lean`) | round trip by cases on the message, list version by induction; all proper prefixes wait |
| C127 | on top of the port accounting model (C27/C28): tunnels of several client programs with one id, `lastProcessedChecksum`, who is sent `InfoTCPPortOpened` | invariant over histories (single program); counterexample for a restart that overlaps |
| C128 | one visitor's connection through both tunnels ends: `process` and `readLoop` on server and client as six interleaved actors with their own closing flags and table entries (`Tunnel/Conversation.lean`) | shape, flow and close-handshake invariants over all interleavings; measure for termination; characterisation of the states at rest |
| C129 | the same | universal theorem that nothing is delivered after the server read the end of the request, and instances for every request and answer; the safe case is the partial theorem |
| C130 | the same, dial refused | universal theorem that the visitor hears nothing without a timeout; after the timeout everything is taken down |
| C131 | `serveTCP` (accept callback of `openSpecifiedTCPPort`, `handleTCP`, `process`) on top of the ports of C27, the handshake of C01, the announcements of C126 and the frames of C10 | composition; that other clients never close a port by an invariant over all histories (`Ports/Keep.lean`) |
| C132 | rotatelogs with `rotationCount` 0: `New`, `getWriter_nolock`, `rotate_nolock` with modification times, dates, removal goroutines, restarts and foreign files as events | invariant over histories (`Util/LogAge.lean`) |
| C133 | the same directory | frame theorem for other names; witnesses for the glob and the link |
| C134 | the table of C57, its limit, sessions that are closing | invariant: every open session is in the table under its own number; pigeonhole |
| C135 | MsQuic's workers as queues of callbacks, the two channels with room for one, the accept loop | invariant, progress of a worker by pigeonhole on the connections being set up, induction on the queue and on the connections without tunnel; stuck states as invariants of all continuations for the findings |
| C136 | everything the server writes on a connection until it is a tunnel, as a function of the bytes received (parser of C01–C03), and `addTunnel`'s reasons over the registry | induction on the option list with counters of what was applied; case analysis of `addTunnel` |
| C137 | one tunnel of the server with any number of visitors as interleaved goroutines; lock-protected sections are steps; clock and read deadlines | invariants over all runs; the stranded visitor as an invariant of all continuations |
| C138 | the same model | induction on the run for one visitor; the reload's sweep for every state |
| C139 | `processAnswer` of both modes: the header, the table of sessions, the loop of C42 run again and again on the same session (`P2P/Answers.lean`); what the peer accepts is a parameter | uniqueness of the division into messages; induction on the posts; the failures for every message and every place of the break |
| C140 | one tunnel of the client with any number of connections to services: `Close`, `dial`, the entry in `c.tasks`, `process`, the read deadlines (`Client/LocalConns.lean`); writes to services do not block | invariants over all interleavings; the connections left behind as runs of any length |
| C141 | what `New`, `MergeConfig`, `checkConfig` and `Start` make of the options, `service.String`, and `ReloadServices` up to the store of the new configuration (`Reload/Decide.lean`); SHA-256 is any function, JSON texts of different values are trusted to differ | the texts of two lists of services are compared by parsing them back; the decision by cases over all options; the refusals as theorems about every such client |
| C142 | the writer of the log over a disk of which every operation may fail: `Write`, `getWriter_nolock`, `rotate_nolock` (the states of the disk it goes through), `Close`, crashes between any two operations and restarts (`Util/LogCrash.lean`); a file is named by day and generation (C40), the purging is C40/C132 | invariant (the open file is the current one, of the current day) by induction over the history; contents followed through the stages of a rotation; the stuck link by induction over all later histories of the day |
| C143 | `config.Duration`: `Set`, `UnmarshalYAML`, `UnmarshalJSON`, `MarshalYAML`, `MarshalJSON`, with Go's `time.ParseDuration` and `Duration.String` on byte strings (`Config/Duration.lean`; these two are standard library, modelled from its published source; the floating-point product of a fraction is a parameter assumed exact when the result is whole) | a small grammar of components with exact values is the specification; the digit loops are shown equal to the numbers they denote, one round of the loop to one component (both ways), then induction over the components; printing shown to denote the value, so that the round trip follows |
| C144 | `bufio.Writer`: `Flush`, `Write`, `WriteByte`, `WriteString`, `WriteRune` over an underlying writer that follows an arbitrary finite script of partial writes and errors (`Bufio/Writer.lean`; `ReadFrom`: C154; a writer that takes nothing without error for ever would make the Go `Write` loop for ever, so the script is finite) | one relation between the states before and after a call, proved for each call through an invariant of the copying loops; a measure for termination; induction over histories |
| C145 | `bufio.Scanner`: `Scan`, `advance`, `setErr`, `Buffer`, `Err` with `ScanLines`, `ScanBytes`, `ScanRunes`, `ScanWords` over the scripted reader of C08 (`Bufio/Scanner.lean`, `Bufio/Runes.lean`, `Bufio/Words.lean`; `utf8.DecodeRune`/`FullRune` modelled from the standard library and proved to invert the definition of UTF-8) | a split function is *good* if its answer on a prefix stays the same when more data arrive; for every good split function the loop is proved to deliver what the split function delivers on the whole input at once; the split functions are proved good (`ScanWords`, which goes on without a token over spaces, in a wider sense, with its own loop induction), and their tokens on the whole input equal an independent specification (lines; bytes; the relations `Ranged` and `Words`, proved functional; `Words` proved total). `ErrTooLong` for every long line, and the violation after it |
| C146 | `util.RandomString`, `RandomPort`, `Intn` (with its rejection), the seeding with the start second; the generator itself is an arbitrary function of seed and index (`Util/Rand.lean`); composed with the model of the web interface (C90) | induction over the requests: the strings are the usable numbers in order; counting of residues for uniformity; that each string is a function of the start second and of the lengths asked for before, hence one of as many guesses as seconds, and that one of these logins opens the web interface of a first start |
| C147 | `P2P/Native.lean`: handlers, timers and callbacks of a session as threads; everything asked of the library is logged, the specification judges the log | invariants over all interleavings: at most one release, soundness under three stated conditions, each of which is shown to be needed |
| C148 | `P2P/Children.lean`: the same kind of threads; the log says which children are started, remembered, killed and end | invariants over all interleavings; a closed session never kills again (induction over the continuation), the number of children by induction over the requests |
| C149 | `Bufio/ReadRune.lean`: the reader of C08 with `lastRuneSize` and the bytes before the window; `DecodeRune`/`FullRune` of `Bufio/Runes.lean` | the loop stops with a whole rune or with all there is (`decode_full`), induction over the rest of the stream; `UnreadRune` by induction over the history of calls |
| C150 | `Bufio/WriteTo.lean`: `Reader.WriteTo` over the reader of C08 and a destination that may take less | conservation by induction over the loop; exactness by induction with the weight of what is left to read |
| C151 | `Web/Link.lean`: checks of the address and certificates, `SwitchToValidWebURL`, `net/url`'s check of host and port for the characters of names and addresses, the two ways of listening; `net.Listen`, certificate files and the service table are inputs | by cases over the three forms of a written address; the link is compared with the running console through a separate specification `Leads` |
| C152 | `Tunnel/Torn.lean`: any number of calls of `Connection.Write` on one connection, its shared deadline, one writer at a time, partial writes, the peer's window; `sticky`: whether the connection remembers a failed write (TLS) | invariant over all interleavings against the specification `Clean`; counterexample families with `parseC` of C10 for the torn frame, and by induction on the number of visitors for the deadline |
| C153 | `Server/Halt.lean`: `reconnect` and `close` of every client in map order, with lock delays and writes that take a time or for ever; induction over the clients and tunnels. Partial: ending is proved with a timeout; being in time is proved false (each stalled client costs one timeout), and ending without a timeout is proved false |
| C154 | `Bufio/ReadFrom.lean`: `ReadFrom` onto the writer of C144, over a source given by an arbitrary finite list of reads (bytes, report), with reads cut by the room in the buffer; an invariant of the loop in terms of what the call began with, and a measure. Partial: for an underlying `io.ReaderFrom` proved false that the writer works on after an error of the source |
| C155 | `Quic/Close.lean`: one tunnel of the server with its reader over the three kinds of transports: closing, frames, pings, deadlines, loss; invariant that a closed tunnel of a whole-connection transport is released, and inductions over all histories. Partial: proved false over QUIC |

## Trusted base

* Lean 4.33.0's kernel. No axiom is added; the theorems depend on at most `propext`, `Quot.sound`, `Classical.choice`.
  `AXIOMS.md` lists for every theorem of the manifest exactly which.
* Our reading of the Go, Rust and C++ sources, cited by file and lines in each definition. Nothing links the model to the
  code mechanically.
* The behaviour of the language and libraries, where the code relies on it (each stated in the file that uses it): Go slices, maps, channels, mutexes,
  `sync/atomic` (sequentially consistent), `sync.Cond`, `WaitGroup`, timers, `fmt.Fscan`, `strconv`, `net/url`, `net` host
  functions, `net.Conn` deadlines, SHA-256 (uninterpreted), YAML/JSON codecs, jsonparser (raw strings), JWT signatures (ideal),
  msquic, quic-go and libwebrtc (callback contracts), tokio `select!`/timeouts (cancellation), POSIX signals and processes.

## What is modelled, area by area

* **Handshake** (`client/client.go`, `server/conn.go`, C01–C03, C47): byte-exact encoder and parser, uint16 counters included. Not: TLS.
* **Checksum** (C04): the digest's input. SHA-256 is only assumed to be a function.
* **Route** (`server/conn.go`, `tls.go`, C05–C07, C70, C71): header peek and SNI peek on the buffered reader, out-of-range indexing is an outcome of the
  model; `bytes.TrimSpace` modelled on UTF-8 bytes.
* **Bufio** (C08, C09, C84): every method of the reader used by gt, and `ReadBytes`, `ReadString`, `ReadLine`, `Discard`, over an adversarial
  underlying reader.
* **Tunnel** (C10–C12, C48, C51): frames, reader loops of both sides, `process` loops. Writes are atomic per frame (the code holds a mutex). Partial writes followed by an error are in C152.
* **TaskId** (C13, C14): 32-bit arithmetic, atomic steps.
* **SyncMap** (C15, C16): sequential model and an interleaving model at the granularity of single atomic accesses;
  lock-protected accesses are joined to neighbouring steps, a CAS may fail spuriously, `createFn` does not re-enter.
* **Idle, Limits, Util** (C17–C21, C37, C40, C44, C45): monitors and counters with clocks. RotateLogs: naming, generation numbers, count-based purge;
  not symlink, lock files, OS failures.
* **Registry, Ports** (C22–C29, C55, C56, C67–C69): `addTunnel`/`removeTunnel` are atomic (they hold the client's lock), `getOrCreate`+`init` are split in `InitRace`;
  the OS may refuse any bind. Not: the server's own shutdown.
* **Client** (C30–C35, C39, C42, C57, C65, C66, C73, C74, C85, C86, C97, C105, C106): host rewriting, chunked coding, pipe, API connection, peer messages, loops, readiness, dialer.
  Not: URL user info.
* **Config, Web** (C34, C36, C41, C46, C49, C50, C90–C92, C98, C99): merge, parser of repeated options, users, sessions, tokens. HTML and gin are not modelled.
* **Manager, Process** (Rust `bin/src/*.rs`, `libcs/client/client.go` start-up; C38, C52–C54, C60, C61, C81, C87, C88, C110–C112).
* **P2P** (`libcs/client/peer*.go`, `webrtc/`, `bin/src/peer`, C57–C62, C100–C104, C118): the logic around the WebRTC library, which is represented by its contract
  (callbacks one at a time on a signalling thread, reliable ordered channels).
* **Quic** (C93–C96): gt's side of the msquic binding. Flow control and congestion control are not modelled.
* **Server** (C43, C72, C89, C107–C109, C113–C117): accounting, status, start, accept loop, platform authentication, dispatch.
* **Reload** (C63, C64, C76): the reload protocol on both sides.

Not modelled at all: the WebRTC and MsQuic libraries themselves, TLS/QUIC handshakes, the gin handlers' HTML/JSON plumbing, the QUIC/TCP decision model in
`conn/quicXgboost.go` (floating point), the algorithm of `math/rand` (what follows from its seeding is C146), data races on plain fields (a Go data race is undefined; we only model
sequentially consistent interleavings).

## Findings (properties the code violates; each is a theorem)

The `note` of each partial claim in `MANIFEST.json` names the violation. The gravest: a client's empty data frame for an unknown task crashes
the server process if a timeout is set (C12); a split ClientHello is rejected (C07); lost wake-ups of the idle pool (C18) and of P2P senders (C100);
creation mode lets two secrets live (C22); reload leaks (C24, C27, C28); ten rotations in one second delete the live log (C40); a crash while saving loses the configuration
(C50); a reload during which a tunnel is lost ends the process (C64); one failed QUIC dial stops all loops (C65); one silent QUIC client stops the server's accepting
(C93); deadlines have no effect on the BBR transport (C96); secrets with white space are cut (C98); lack of file descriptors ends the accept loop for ever (C109); an
outage of the platform locks out every client (C114); sixteen P2P candidates can hang the client (C118);
a visitor that does not read holds up all others on its tunnel, and gets a stream with a hole if it reads again after a late write (C121);
the service can receive bytes of another connection: the buffer is given back before the rest of the request is written from it, when the request was cut one to four bytes into its Host line (C122);
an API connection written to after Close, and a P2P session closed by its timer, write into a buffer that is another connection's by then (C122);
a client whose forward port is taken reports that it failed to start and stays connected (C124);
`Shutdown` called while `Start` still runs can kill the process (`Done` before `Add`), return while a tunnel is up, or leave the forward listener open (C125);
a client restarted while its old tunnels are still registered is never told the ports of its TCP services, so a random port cannot be learnt (C127);
a visitor that half-closes its connection after the request loses the answer, and a service that half-closes loses the rest of the request (C129);
a visitor of a service that is down hears nothing until the server's read deadline (C130); log purging removes any file `<log path>.*`, and the first line replaces an ordinary file at the log path (C133).
Three clients that connect over the BBR transport at the same time can stop it for ever, tunnels that already work included; a client that opens no stream, or three, stops all tunnels of its worker (C135);
with two servers the limit on P2P sessions can be exceeded (C134).
a client that is locked out, that uses an option unknown to the server or that loses five races is dropped without a word (C136);
the server's `-id`, `-secret`, `-tcpRange`, `-hostNumber`, `-hostRegex` and `-hostWithID` options are never saved by the web pages.
Every reload of the services disconnects all visitors of the client, those of unchanged services included (C138); a visitor that is being connected while its tunnel ends or is refused waits until the server's timeout, or for ever if there is none (C137).

A P2P session is not reset between requests (C139): an answer whose connection broke and that is sent again is appended to the part that had arrived; a message that was refused or too long makes the session useless; a refused candidate is answered with 200; numbers of sessions can be guessed, and whoever posts under a number is taken for its visitor.

A tunnel of the client that is closed while a service is being connected to leaves this connection open (until LocalTimeout, or for ever without one); a service whose address is too long for a `Host` line costs three connections per visitor, which the code never closes (C140).

Reloading the services (C141): a change of LocalTimeout or UseLocalAsHTTPHost alone is refused as "config did not change"; a client that makes up its secret, brings a number into range, puts a default back for an explicit zero, or completes a web address without a colon, has changed the options it compares with and refuses every later reload; a client with a web address whose services were refused at the start, or that found no file, is killed by the first valid reload (nil checksum); a client that could make out no remote is told that the reload went well.

Logging (C142): a crash while the day's file is being opened (between making `<file>_lock` and removing it) leaves a file that keeps the link `<path>` from being moved for the rest of the day, for every later process, while every write reports success; while a new file cannot be opened all lines of the new day are lost although the old file is still open; a restarted program writes to the day's first file again even if later generations exist.

Durations (C143): a negative duration is accepted for every option and means "no timeout"; two components of 2^63 ns each are accepted as zero (Go's library).

Secrets (C146): all made-up secrets (client secret, web password, signing key, temporary key, the API's id and secret) come from `math/rand` seeded with the second of the start: two clients started in the same second have the same secret, and whoever knows the day of a first start has the web password among 86400 guesses, which are not limited in number.

Scanner (C145): after `ErrTooLong` the next `Scan` delivers the full buffer as a token.

* (C147) In thread mode two `get-offer` requests on one P2P session crash the client (`close` of a closed channel in a library callback, libcs/client/peer.go:85-87); a STUN address that the library refuses crashes it when the session is closed (null connection in `Delete`, peerconnection.cpp:112-116); closing a session under a request that is being served uses released memory; all objects of a session but one are leaked.

* (C148) Without thread mode every `get-offer` request on one P2P session starts a further process (libcs/client/peerproc.go:406); only the last is killed when the session closes, and a session closed between `cmd.Start()` and `pt.cmd = cmd` (97-151) kills none. `webrtcRemoteConnections` does not bound the processes.

* (C149) `Discard` clears neither `lastByte` (C08) nor `lastRuneSize`: `UnreadRune` after `ReadRune` and `Discard` succeeds and can leave the reader inside a rune (libcs/bufio/bufio.go:164-193, 308-316).

* (C150) `WriteTo` of both readers calls `fill` without looking at `b.err` (bufio.go:517-530, reader.go:64-76): an error that the underlying reader returned together with data is overwritten, the copy goes on with what is read after it and no error is reported.

* (C151) Without command line arguments the web console is served with `Serve` even if the configuration file names certificates (libcs/server/web/web.go:229-264, libcs/client/web/web.go:229-264): plain text behind an `https` link, including login. A busy port is then replaced by a free one, but the opened link still names the busy port; a bracketed IPv6 address loses its brackets and never starts.

* (C152) `Connection.Write` (libcs/conn/conn.go:42-57) sets the deadline of the whole connection: while visitors keep coming, a tunnel whose client does not read is never noticed by its writers, and their writes wait for ever. On a TCP tunnel a write that fails half done leaves a torn frame; another visitor's frame that is written before the tunnel is closed (libcs/server/conn.go:1002-1006 runs later, and the writers of signals that drop the error never close it) is delivered to the first visitor's service as its data.

* (C153) `Shutdown` (libcs/server/server.go:683-729) writes to the clients one after the other, each under the client's lock: every client that does not read costs one `timeout` (90 s by default), so two of them use up the three minutes after which the process ends itself (libcs/lib/export/lib.go:112-116) and all later clients are never told to connect again. With `timeout: 0` neither `Shutdown` nor `Close` ends, and on `SIGINT` no timer ends the process.

* (C154) `Writer.ReadFrom` hands over to an underlying `io.ReaderFrom` and keeps its error as the writer's (libcs/bufio/bufio.go:728-734): an error of the source then makes every later write fail, while on the buffered path (735-767) the same error leaves the writer usable.

* (C155) `QuicConnection` (libcs/conn/quicConn.go:21-24) gets its `Close` from `quic.Stream`: it ends the sending direction only. A tunnel that the server closed (`client.close`, C113/C153) goes on handling the client's data until the next ping or the read deadline, and the QUIC connection of every closed tunnel, refused clients included, stays open for as long as the client keeps it alive.
