# Formal model of anivanovic/gotit in Lean 4 — design

## 1. Approach

`/repo` is modelled function by function as total, computable Lean definitions under
`lean/Verif/Model/`. Properties are stated in `lean/Verif/Props/` against small, separately written
specifications in `lean/Verif/Spec/`; helper lemmas live in `lean/Verif/Lemmas/`. Every model definition
cites the Go file and lines it models and says where it simplifies.

Conventions of the model

* Go byte slices and strings are `List UInt8` (`Bytes`). Go `int` is `Int` with an explicit 64-bit wrap
  (`wrap64`) wherever the code can overflow and the property depends on it.
* A Go function that can return an error or panic returns `Res α = ok a | err msg | panic why`.
* Loops are structural or well-founded recursion; mutually recursive parsing uses a fuel argument whose
  exhaustion is a separate, visible outcome that is *proved* unreachable (that proof is the termination claim).
* Map iteration order: a Go map is a list of entries with distinct keys in *some* order; theorems quantify over
  every such list, hence over every iteration order.
* Goroutines are state machines over explicit atomic steps; theorems quantify over every interleaving
  (`Reachable`/trace induction).
* External calls (sockets, clock, file system, SHA-1, random numbers) are parameters or oracle inputs that
  theorems quantify over universally.

When the property is false of the code (the code is what is modelled), the theorem file contains the negation with a
witness (`…_violated`) *and* the strongest correct statement we can prove (`…_partial`, or an exact characterisation),
and the manifest status is `partial`.

## 2. Trusted base

* Lean 4.33 kernel; axioms `propext`, `Classical.choice`, `Quot.sound` only (checked with `#print axioms`).
* The reading of the Go source and of the Go standard library/third-party semantics
  (encoding/binary, encoding/base64, strconv, fmt, bitset v1.2.2, io.ReadFull/ReadAll, retry-go v3, bytefmt, filepath.Join,
  url.Values), stated in the comment of each definition that relies on it. Neither the sources nor the documentation of these
  libraries are in /repo, and they were not available while this was written: what is said about them ("documented behaviour" in
  some comments) is general knowledge of them and was not compared with their code. Reviewers should check these definitions first.
* SHA-1 is an arbitrary function parameter.

## 3. Plan per property

| Id | Model | Proof plan |
|----|-------|-----------|
| C01 | `Bencode` values, `encode`, index-based `Scanner` parser | refinement of the index scanner to a suffix parser, induction over values |
| C02 | `encodeInt`, `number` with 64-bit wrap | exact boundary `iff`; negation witness; partial |
| C03 | same + inductive grammar `Denotes` in Spec | soundness by fuel induction, completeness by mutual induction |
| C04 | same | negation by a concrete 18-digit length; partial: no panic when every digit run denotes ≤ 922337203685477580; exact shape of the panic |
| C05 | fuel outcome | fuel `3*len+4` always suffices |
| C06 | `raw` fields | sub-element relation; reparse theorem from C03+C08 |
| C07, C08 | parser | prefix stability, determinism |
| C09 | `readDict` upsert | induction over the entry list |
| C10 | span parser (strings as offset/length views into the buffer, as `b2s` does) | refinement to the parser, then a witness buffer; exactness: all windows lie in the consumed text and the window of a container is all of it (`view_in`) |
| C11 | `prettyPrint` with the pointer/value distinction | witness; exact: the texts agree exactly if no non-empty container built by the program (value, not pointer) lies inside another container |
| C12–C16 | reflect-style schema `Ty`, `GoVal`, `processTarget`, `setField`; `Metainfo` schema | induction over field lists |
| C17–C22 | `readPeers`, `parseBencodePeers`, `parseCompactPeers`, `buildQuery`, `url.Values.Encode` | per-response theorems for all bodies |
| C23–C26 | `createAnnounce`, `parseTrackerResponse`, datagram socket model | byte-level equalities, case analysis |
| C27–C31 | `PeerMessage`, `NewPeerMessage`, `Send`, `createBitset` | big-endian round trips, bit arithmetic |
| C32, C33 | stream model: list of segments/timeouts, `readFull` | induction over segmentations; witness |
| C34 | handshake | list algebra |
| C35 | `NewPieces` | induction |
| C36, C37 | fine-grained multi-threaded `Next` with the mutex | inductive invariant over all interleavings; witness for C37 |
| C38, C39 | bitset model, `New` bitset sizing | induction over histories |
| C40 | rounding function with the IEEE-754 error bound | rational arithmetic |
| C41, C42 | `writePieceData` over a list of files | refinement to one flat byte array |
| C43–C45 | `CheckPiece`, `WritePiece`, abstract SHA-1 | invariants over message histories; witnesses |
| C46, C47 | `filepath.Join/Clean` on components, `initDownloadDir` | induction over path components; witnesses |
| C48 | `StringSet`, tracker collection | list induction |
| C49 | `PiecesQueue` | refinement to a stack over histories |
| C50, C51 | `nextRequestMessage` | induction over request sequences |
| C52–C57 | `Run`/`unchoke`/`handlePeerMessage` as a state machine with an environment oracle | invariants over traces |
| C58–C60 | atomic counters, `PercentCompleted`, `progressBar` | interleaving induction; float32 rounding modelled by rationals |
| C61–C66 | manager state machine, retry loop | invariants over schedules; witness schedules |
| C68 | float model with rounding | monotonicity of rounding |
| C69 | `retryStart`: start times of attempts | arithmetic; witness |
| C70 | manager state machine | witness schedule; the only panic before cancellation |
| C67 | logger decision logic, construction order | case analysis |
| C71 | same | same |
| C72 | `openTorrent` (download.go:49-79): Unmarshal then New | exact panic condition by composition of C12 and New; witnesses |
| C73 | same; `Spec.IsMetainfo` relates a document to the data it carries | induction on the encoding, then field by field |
| C74 | `Run` state machine (C52–C57), `Spec.Poison` frames | invariant over traces; exact crash condition |
| C75 | `readPeerMessageAlloc` (sizes of the buffers `readExactly` makes), bitset length | closed form; witnesses for every size |
| C76 | `World`: any number of `Run` machines sharing bit sets, retry queues and channel, with the writer | invariant: everything in the channel was received and verified; byte-wise effect of one write, induction over writes; over connections (`Wired`, C128): `C76_stream` |
| C77 | `World` | invariant: `requested` = set of pieces handed out |
| C78 | `World` | violated: no request is ever sent (C52), so a peer that only answers sends nothing; partial: constructed execution with unasked pieces; from any reachable state one more pushing peer completes the download iff the content fills its last piece (`Spec.Leads`) |
| C79 | `World` | violated: constructed execution (short last piece sent with an offset); partial: whole pieces only, no second preimage |
| C80 | `Bencode.encode` on entries in any order; `Spec.Reorder` | prefix property of encoded keys; induction over reorderings |
| C81 | `Builder`: heap of maps | violated for every builder and new key; induction over `StandsFor` |
| C82 | `Builder`: `HVal.encode` with fuel | fuel suffices iff the nesting is accessible (`Acc`) |
| C83 | `Shared`: which goroutine accesses which variable in which order, mutexes, channel, queues; `Spec.Race` | invariant of all reachable states: every conflicting access already done is known to the goroutine, the mutex or the channel through which the variable is reached next; a concrete execution for the race |
| C84 | `Shared` | invariant: the actions up to the next unlock contain nothing that waits; induction over them |
| C85 | `PeerAnnounce` over `Net`, `Handshake`, `Retry` | exact result of one attempt (both directions of ReadFull on segments), induction over the retry loop |
| C86 | `PeerAnnounce` | count of connections through the retry loop; concrete silent peer |
| C87 | `Figures`: one writer, one reader, single atomic operations | invariant relating each counter to a prefix of the blocks; schedules constructed for every pair |
| C88 | `TrackerNew`: scheme parsing of net/url, dispatch | induction over the scheme; independent RFC 3986 definition of a scheme |
| C89 | `unmarshal` (Model/Unmarshal), iteration orders as permutations at every level (`Reorder`) | level-by-level correspondence of reordered documents, induction over the target type, with an arbitrary function on strings; for types with maps, values up to the order of map entries (`SameVal`) and success only |
| C90 | `Run.Step` (Model/PeerRun) | case analysis of every step; induction over executions |
| C91 | `World.Step`, `Run.Step`, `nextRequestMessage` | invariants over all downloads: origin of every request, content of the retry queues, peer state from the frames; two constructed downloads |
| C92 | Parse and Encode (Model/Bencode.lean). | Spec/Plain.lean is a grammar of plain texts, independent of the encoder. One direction by induction on the grammar, with natDigits (decimal ds) = ds for numbers without leading zeros; the other by induction on the reordered element: an element with a negative number has no readable text, and the text of any other element is plain. |
| C93 | `setField`, strconv.ParseInt/ParseUint with base 0 (Model/Strconv.lean) | Spec/Literal.lean is a grammar of Go's integer literals; the digit loop and underscoreOK are shown to accept exactly its words, by induction over the text and cases on the prefix |
| C94 | `unmarshal` (Model/Unmarshal.lean) | mutual recursion over types and field lists: setField t old v = (x, ok) iff Stored t old v x; uses C93 for numbers, the grammar for raw bytes, one entry per key for look-ups |
| C95 | `prettyPrint`, `newLine`; the layout is specified as a list of lines with their depth | induction over values; comparison with the same value without pointers, by length for the converse |
| C96 | the whole-download machine `World`; what a peer hears is the specification's decoding of the bytes written | invariant of Run about the messages it writes, projected from the world; a concrete execution built step by step for the witness |
| C97 | `newTorrent`, `initDownloadDir`, `createFiles` on a disk given as a function from paths to contents | induction over the files; the result of New does not depend on the disk |
| C98 | `Mgr` | one-step preservation from the pool invariant of C61, then induction over continuations; two explicit executions |
| C99 | `Mgr` | the four groups of addresses are a permutation of the addresses added (counting) |
| C100 | `HttpTracker` with its event; `announceUrls`, `runHttpUrls`: the URLs requested in all rounds; `createAnnounce` | the event is invariant over attempts and rounds; decoding of the query by C22 |
| C101 | `byteSize` with float64 conversion, division and decimal formatting | bound on accumulated rounding errors (`Within`), exactness of dyadic numbers, monotonicity of rounding |
| C102 | `speed`, `durationSeconds`, `speedText` | composition of relative errors (`Within`) |
| C103 | `statusLine`; `StatSys.InProgram`: the counters under the calls the program makes | invariant: no pending addition concerns the tracker counter; the last number of a line is unique |
| C104 | `describe`, `base64Url`, `byteSize` | the text as a list of lines; search for a key skips the lines of the others; base64 decoding undoes encoding |
| C105 | `inspectCommand` | case analysis; the description is never empty |
| C106 | `downloadCommand`, `openTorrent` | case analysis |
| C107 | `World`, `writeOne`, `writePieceData` | everything in the writer's hand was sent by a peer and verified (`world_carried`); findFile leaves a position inside the file; two downloads that end in a panic |
| C108 | `TRun.Step`, `keepAliveDue` (Model/RunTime) | for every point of the program an upper bound of the time since the last message (`lag`), kept by every step (`fresh_step`); monotone rounding for the comparison |
| C109 | `TRun.Step` (Model/RunTime) | the bound of C108 with the time of the last message replaced by the time the connection died; an execution of any length for the negation |
| C110 | `TRun.Step`, `backoffRange` (Model/RunTime) | after a failure only a put-back request and a wait can follow (`resting_step`) |
| C111 | `writeAtF`, `writeLoopF`, `writePieceDataF`, `writeOneF`, `World.Step.write` (Model/Faults, Model/World) | a failed write of a block leaves on the disk what a successful write of a beginning of the block would (`writePieceDataF_prefix`); invariant `Keeps` |
| C112 | `writeOneF` (Model/Faults), `World.Step.write` (Model/World) | an explicit download of every piece of any content on a full disk; induction over the messages written |
| C113 | `newTorrent`, `World` (Model/Torrent, Model/World) | New looks at the hashes only through their number; a piece without a hash is never checked, so Done stays false (invariant of World) |
| C114 | `writePieceData`, `writeOneF`, `World` (Model/Files, Model/Faults, Model/World) | invariant `Fits` over all writes, failed or not; an explicit message for the violation |
| C115 | `udpAttempts` (Model/UdpSocket) over `readUdpHandshake` and the handshake of Model/Tracker | induction over the attempts; the socket is one answer behind after the first late one |
| C116 | `timedReadPeerMessage`, `timedReadPeerHandshake`, `timedReadUdpHandshake`, `timedReadAll` (Model/TimedNet) | induction over the arrivals |
| C117 | `timedReadPeerMessage` (Model/TimedNet) | exact description of a timed read of a stream by the bytes that arrive before the deadline |
| C118 | `contactLoop`, `initPeersTimes` (Model/Contact) | induction over the attempts and the list; explicit unreachable peers |
| C119 | `TrackerClock` (Model/TrackerClock) over `httpAnnounce` | exact times of all requests in a series of failing announces; C17_compact_violated; C17_success_iff_partial for the rest |
| C120 | `readPeers` (Model/HttpTracker) | C17_success_iff_partial for both responses |
| C121 | `runHttpUrls` (Model/HttpTracker) | the id is constant along announces; C22_params_partial reads the parameter out of each URL |
| C122 | `TrackerClock` (Model/TrackerClock) | C17_success_iff_partial gives the interval; times of TrackerClock.next |
| C123 | `Proc` (Model/Process) around `Mgr` and `openTorrent` | a rank that every step of Download, Stop and of a peer's end lowers; invariants of Mgr; case analysis of the process |
| C124 | `Proc` (Model/Process) | explicit execution; invariant: the context is cancelled only after a signal |
| C125 | `nextK` … `parseStack k` (Model/ParseStack): the parser with room for k nested calls of Next | suffix version of the limited parser; simultaneous inductions on fuel; induction on the nesting |
| C126 | `announcedTo` (Model/Announced) on `newTorrent` and `trackerNew` | C48 and C88 combined |
| C127 | `Mgr` (Model/Manager), `newTorrent` | explicit executions, C48 |
| C128 | `Session`, `Wired` (Model/Session): every read of `Run` is `readPeerMessage` on the peer's connection | what one call takes from an event list; induction over executions; a connection built from the log |
| C129 | `Piece.string`, `Piece.getIndex` (Model/Rest) | decimal digits and base64 can be read back (lemmas of C101, C104); C35 for the pieces of a torrent |
| C130 | `StringSet.calls` (Model/Rest) on `StringSet.add`, `addAll`, `has` | induction on the sequence of calls |
| C131 | `Torrent.close` (Model/Rest) | induction on the list of files |
| C132 | `World` (Model/World), `Continues` (Spec/Orphan) | invariant of `Run`: what is put back was made or taken before; then induction on the position in the trace with C91's account of the retry queues and C77; execution with two peers for the violation |
| C133 | `parseTrackerResponse`, `udpHandshake`, `udpAnnounce` (Model/UdpTracker) | case analysis on the action code and the length; the 16 bytes of the handshake exclude announce answers |
| C134 | `timedUdpAnnounce`, `timedUdpAttempt`, `timedHttpAnnounce` (Model/AnnounceTime) on `timedReadUdpHandshake`, `timedReadAll`, `announceToTracker` | bounds of C116 for each read; sum over the attempts of `retryLoop`; induction over the body |
| C135 | `Run.Step` (Model/PeerRun); `takenInterested`, `Offers` (Spec/Interest) | invariant of `Run` up to the first interested message; C52 and C96 for what is sent; explicit execution |
| C136 | `Prog.Step` (Model/Program): Model/Manager, Model/World, Model/Session, Model/PeerAnnounce, Model/HttpTracker, Model/UdpTracker joined | invariant of the joint model: its projections are executions of the parts; traces back every started `Run` to a handshake and a reply; C76 for the bytes; C73 for the torrent file |
| C137 | `Prog.Step` (Model/Program), `Watched.Step` (Model/Display) | projections of the whole program to Model/Manager and Model/World (C136_parts) with C63, C70, C74, C107; explicit executions, those of the peers by C136_any |
| C138 | `netipParse` (Model/Netip), `httpAnnounce`, `Prog.Step` | the parser accepts exactly the specified texts with their meanings (netipParse_iff, both directions by induction); C17, C18; invariant of the program for host names; what net.Dial understands (Spec/HostPort) |
| C139 | `addrText`, `addrPortText` (Model/Netip), `Prog.Step` | parsing undoes writing, so writing is injective; C61 for the pool; the addresses of running peers come from replies (invariant) |
| C140 | `WordSet` with `insert`, `test`, `nextClear`, `all`, `extendMaybe` (Model/BitWords) | an invariant between words and members, kept by every call; trailing zeros of the complement, population count |
| C141 | the manager as one state machine [Manager] | every step of the manager moves at most one tracker's goroutine, to the next call of its loop; the number of calls left until the next announce decreases |
| C142 | the download as interleaved state machines of peers and the writer [World] | whether a write succeeds does not depend on what the disk holds; the writer empties the channel and a joining peer pushes the pieces; the bit of a short last piece needs a block that ends beyond the last file |
| C143 | opening and closing calls of each function in their order (Model/Handles), beside openTorrent, newTorrent, trackerNew, httpAnnounce | case analysis; induction on the list of files; counts of openings and closings |
| C144 | Share, its torrent file and OnDisk (Spec/Publish) over openTorrent, newTorrent and Prog | torrent file is an encodable metainfo (C73_open); hashes by C35_table; every piece pushed by one peer (push_all), lifted to the program (lifted_any), then a signal (lifted_end); exact lengths by comparing with a run on bytes that are all 1; violation from OnlyTouches (C136) and where paths lead |
| C145 | Prog; Dialled counts the changes of the address's Peer along a run (Spec/Dials) | invariant over all steps (tried_step); induction over attempts left and addresses left, with the invariant that an address outside the pool has no connection |
| C146 | outgoing (Model/Outgoing) beside Run: the bytes of every write, cut anywhere if it failed; Hears (Spec/Outgoing) takes frames out of a stream | invariant of Run: after a failed write the next message is interested; induction over the log; what follows a cut begins with three zeros |
| C147 | Watched.Step (Model/Display): the whole program (Model/Program) with the printing goroutine and the two additions of AddDownload | invariant Watching: the counters are the bytes of the first nd (nl) blocks taken by the writer; explicit execution for the violation |
| C148 | steps announceCrash of Mgr and Prog (Model/Manager, Model/Program) with httpAnnounce and udpAnnounce | C12 and C03 for the body; invariant FatalOk of the program; explicit execution |
| C149 | Model/Ending: the manager with clock times; Spec/Ending: EndsWithin over what follows an interrupt | invariants over the timed executions: at most one late Run per tracker, each at most one delay; then a fixed number of steps of the main goroutine |
| C150 | portFlag, Announces (Model/Port) with FigSys, announceUrl, createAnnounce | invariant of the reader of the figures; C22_params_partial; parse of printed integers |
| C151 | initConfig, startProgram (Model/Config), refining startCommand (Model/Cli) | case distinction on what the search finds; everything else is independent of the machine |
| C152 | Proc.Step (Model/Process) | case distinction on the states in which signals arrive; induction over the sequence of signals |
| C153 | Proc.Step (Model/Process), openTorrent, newTorrent, createFiles | invariant of the process about its disk; takeWhile of the files that can be created (C97_any_partial) |

## 4. What is modelled and what is not

Modelled, function by function (Lean file in `lean/Verif/Model/` in brackets):

* `pkg/bencode`: all of parse.go [Parse, ParseView], with a limited stack [ParseStack]; Encode, Raw, String, Value and the pretty printer of elements.go
  [Bencode]; the dictionary builder with shared maps [Builder]; Unmarshal, processTarget, setField, Metainfo.Hash of tag_parser.go [Unmarshal, Metainfo];
  the String methods of Metainfo and TorrentFile [Describe].
* `pkg/util`: peer_message.go [PeerMessage]; set.go [Files, Rest].
* `pkg/torrent`: piece.go NewPieces, CheckHash [Torrent], String, Index [Rest]; pieces_queue.go [PiecesQueue]; the bit sets of pieces [BitSet], on words [BitWords]; torrent.go New, initDownloadDir,
  Next, SetDownloaded, Done, CheckPiece, WritePiece, writePieceData, EmptyBitset [Torrent, Files, Faults, Path], Close [Rest].
* `pkg/peer`: handshake functions [Handshake]; NewPeer, createPieceMessage, nextRequestMessage, handlePeerMessage,
  handlePieceMessage [Peer]; Run, unchoke, wait, checkKeepAlive as control flow [PeerRun], with time [RunTime]; connect, Announce, Close [PeerAnnounce].
* `pkg/gotitnet`: the reading functions [Net], with clock times [TimedNet]; `Run` and whole downloads on connections [Session].
* `pkg/tracker`: http_tracker.go [HttpTracker]; udp_tracker.go [UdpTracker]; several handshakes on one UDP socket [UdpSocket]; WaitInterval [HttpTracker]; the loop of runTracker for either kind [HttpTracker, UdpTracker]; New [TrackerNew]; how long announces take [AnnounceTime]; netip.ParseAddr, Addr.String and AddrPort.String of the standard library, which decide what the ip field of a response means and what the key of a peer is [Netip] (written from the library's documented behaviour; its source is not in the repository).
* `pkg/download`: manager.go [Manager, Retry, PeerAnnounce, Announced], with times [Contact, TrackerClock]; peers, queues, channel and writer together [World]; manager, trackers, connections, peers and writer as one program [Program]; accesses of shared variables [Shared].
* `pkg/stats`: counters, PercentCompleted, progressBar, Speed, Print [Stats, Float, StatusLine]; concurrent reading of counters [Figures].
* `pkg/logger`, `pkg/cmd`: decisions only: level names, encoders, order of construction, runDownload up to New [Cli, Open];
  exit codes and texts of the commands bencode and download [Describe]; the process from start to end with signals [Process].
* Opening and closing of files, tracker sockets and response bodies in all of these [Handles].
* The bytes a call of Run leaves on its connection, including parts of messages [Outgoing].
* The goroutine that prints the statistics, beside the whole program, with the single reads and additions of the counters [Display].
* The manager with clock times after an interrupt: the goroutine of `runDownload` and those of the peers have times by which they move; trackers, dialling and the writer take any time [Ending].
* The flag `port` on its way to the announces [Port].
* `initConfig` and what viper holds afterwards, viper by its documented behaviour [Config].

Simplified (each stated at the definition):

* `[]byte` and `string` are values, except where sharing is the subject (C10, `ParseView`; C81, C82, `Builder`).
* The operating system is an oracle: which calls of Mkdir/Create succeed, and in whole downloads (`World`, C76–C79, C111, C112) how
  much of each WriteAt succeeds [Faults]; the theorems about a single block (C41, C42) or a list of messages (C43, C44) are about writes that succeed.
  File systems have no links; paths are compared after `filepath.Clean`.
* A TCP connection is the list of bytes that arrive before a deadline, then a timeout or end of file.
* Time appears only in C21, C69, C56, C108, C109, C110, C116–C119 and C134. Elsewhere deadlines, back-off and keep-alive intervals are
  nondeterministic choices in `Run` and in the manager. `RunTime` assumes that every read and write returns by its deadline and that the
  scheduler lets a goroutine go on within a bounded delay; both are parameters of the theorems.
* A method under a mutex is modelled operation by operation in C36–C38, C49 and C61 (with a proof that the outcome is that of
  some sequential order) and as one step in `World`.
* Go's memory model: C83 shows that all accesses but those of `Peer.conn` by `connect` and Stop are ordered, so the other models are
  sequentially consistent. The uses of the wait group and of the closed channel that are wrong are the subject of C63 and C70.
  Which variable each function accesses, in which order and under which mutex, is what [Shared] says; fields that are set before
  the goroutines reading them are started are left out there.
* Memory and stack are unlimited except in C75 and C125.
* `amd64`: conversion of out-of-range floats to integers, 64-bit `int`.

Not modelled:

* cobra and viper beyond the order in which they call back; zap's output; colours and terminal control.
* DNS resolution, dialling, TLS, HTTP redirects: `http.Client.Get` is an oracle returning a status and a body.
* The contents of error messages, except where a property is about them (C20, C26).
* Url and Close of trackers; BlockNum; pkg/printer beyond Fatal (plain calls of fmt) and pkg/cmd/version.go (prints three constants).
* Freeing of resources by the end of the process (C86 and C143 are about what the program itself closes).

Check of the model against the code: `Verif/Props/RepoTests.lean` carries the repository's own unit tests over to the model (every
test of parse, Encode, String, Unmarshal, tracker.New, handshakes, handlePeerMessage, nextRequestMessage, the reading functions, Next,
CheckPiece and WritePiece). They are tests, not proofs, and no claim rests on them.

## 5. Disagreements between the code and the properties

Each is proved as a theorem `…_violated` about the model of the existing code.

| Property | What the code does |
|---|---|
| C02 | False of the code as stated; exact range of integers that survive is proved. |
| C04 | False of the code: a 18-digit length panics. Exact set of panicking inputs proved. |
| C10 | False of the code (unsafe b2s). Which later contents of the buffer change a value is proved exactly. |
| C11 | False for nested containers built by the program (their indentation is lost on re-parsing); exact condition proved. |
| C12 | False of the code; exact panic condition proved for every target (`C12_all_partial`); for maps with other keys it panics at the first value that can be stored (`C12_key_violated`). |
| C14 | False for document numbers above 922337203685477580 (mangled by Parse); exact otherwise. |
| C16 | False of the code: the fields before the failing one, and parts of it, have been set. What a failing call leaves is given exactly (C16_exact_partial). |
| C17 | False of the code: every compact response fails. Exactly which responses succeed is proved. |
| C18 | Order and count proved; validity false (zero addresses for unparsable entries), exact condition proved. |
| C21 | False without interval or above 9223372036 s; proved otherwise. |
| C22 | Proved for URLs without query; false for every URL with a query, exact form proved. |
| C23 | False of the code: 80 bytes, no info-hash, the other fields 20 bytes early, port in 4 bytes. |
| C25 | False of the code: ReadAll on a UDP socket always fails. Parsing of answers proved. |
| C26 | False of the code: error action is 2 instead of 3. |
| C27 | False for bitfield messages (unless 13 pieces) and for re-sent type-99 messages; proved for every other message the client builds or received. |
| C28 | False of the code: request and cancel carry the length as index and zeros; have, keep-alive and signals proved. |
| C29 | False of the code; exact condition for the panic proved. |
| C31 | False of the code: the order is reversed in each group of 64; exact relation proved. |
| C33 | False of the code: bytes read before a timeout are lost; exact effect proved; holds when the deadline passes between messages. |
| C37 | False of the code: a piece handed out is never handed out again in any execution. |
| C39 | False for non-positive piece lengths; exact condition proved (amd64 float conversion). |
| C42 | False: a block overlapping the end is partly written (multi-file) or extends the file (single-file). Exact effect proved for multi-file torrents; blocks starting beyond the end are rejected untouched there. |
| C43 | False: the offset of an accepted piece is never checked. Proved for offset 0 and messages that are not second preimages; for any offsets it is proved which byte ends up where. |
| C44 | False when the length is not a multiple of the piece length; exact condition proved. |
| C45 | False for pieces longer than one block: the block's hash is compared with the piece's. Proved when the answer carries the whole piece. |
| C46 | False: names and paths with .. reach any file. Proved for plain names. |
| C47 | False: only the first path element is used. Proved when first elements are distinct plain names. |
| C50 | Violated when the piece length is not a multiple of 128 KiB or for the last piece: the blocks requested cover blockNum*128 KiB only. Partial: the blocks requested between two Next calls are consecutive from 0 without gap or overlap. |
| C51 | Violated: a new peer has blockIdx 0 < blockNum, so it requests piece 0 without calling Next. Partial: after the first Next call every created request is for the piece last returned (index below 2^32). |
| C52 | Violated: nothing ever sets the client's interest flag, so Run on a new peer never sends a request in any execution. Partial: with the flag set, an iteration with the peer unchoked and nothing outstanding attempts a request within six steps. |
| C54 | At most one request outstanding: proved. Requeueing: violated when the read error happens in the unchoke loop (peer choked meanwhile); proved exactly for all other failures. |
| C55 | Violated: after a request is sent, no other is sent until a read fails. Partial: after a failed read the next iteration asks again. |
| C56 | Violated: one more request can be sent after cancellation or completion, and the unchoke loop ignores completion. Partial: at most one more request; at most 12 more steps after cancellation; after completion 14 steps plus four per failed read or write. |
| C59 | Violated when bytes are received twice: Left wraps to almost 2^64. Partial: at every moment of every interleaving, while the bytes reported do not exceed the size; in particular when every piece is received at most once. |
| C60 | Violated from 105% on (bytes received twice): negative Repeat count. Partial: exactly the percentages 0-104 are drawn with 20 cells; in bytes: always up to 104% received, never from 105% on. |
| C62 | Violated for every limit: peerNum is stored and never read. Holds: no more peers than different addresses received, no more running than pooled. |
| C63 | Violated in three ways, each with a schedule. Holds: the exact cause of every possible panic, and no panic if at the return of Download the trackers and peers have ended and no handshake failed. |
| C64 | Violated: whatever has been written, Download does not return unless the context is cancelled from outside. Holds: after cancellation, from every state, Download and Stop get to their end as the peers end, in a bounded number of steps. |
| C65 | Violated: nothing waits for the writer. Holds: no loss or reordering, at most 1025 messages outstanding, everything written once the writer returned, which it can always reach. |
| C67 | Violated for every documented level but info: the logger is built when the commands are constructed, from the defaults. Two documented names are unknown besides. Holds: what NewCommandLine does with every value. |
| C69 | Trackers: proved. Peers: violated, Delay(500) is 500 nanoseconds. |
| C70 | Violated: WaitGroup reused before previous Wait has returned. Holds: it is the only panic of the manager before cancellation besides that at the reply of a tracker (C148). |
| C71 | Violated for every path: the configuration is read before the flags are parsed. Holds: the default configuration is what is read; if it is unusable no command runs. |
| C72 | Violated: a file containing a list, or a torrent with an empty file path, crashes. Proved: the exact condition for a crash. |
| C74 | False of the code. Proved: any too short have/request/cancel/piece message, or a piece message with an index out of range, crashes the program whenever Run reads; and, while the write channel is open, no other message crashes the goroutine that handles it (exact condition over all traces). A peer can also crash the display by sending a right piece several times: C137_print_violated. |
| C75 | False of the code. Proved: four bytes make the client reserve any amount below 4 GiB; a have message makes the set of pieces as long as its index; upper bound and exact amount for messages that arrive. |
| C78 | False of the code: as long as peers send blocks only on request nothing is ever written and Done stays false (the client never becomes interested, so it sends no request). Proved as partial: if a peer pushes all pieces unasked and the content fills its last piece, the download completes with the right content; exact from any reachable state that is not crashed or cancelled: one more pushing peer can complete it iff the content fills its last piece. |
| C79 | False of the code: for every single-file torrent with a short last piece beginning with a non-zero byte there is a download of verified blocks at whose end Done holds and a byte is wrong. Proved as partial: holds if blocks are sent with offset 0, no second preimages are found and there are no surplus hashes. |
| C80 | False of the code: dictionaries are written in the order of map iteration. Every element with a dictionary of two keys in it has two texts, and one with keys out of order; exact condition proved. |
| C81 | False of the code: Generate hands out the builder's own map, so every Add of a new key changes the text of all elements generated before. |
| C82 | False of the code: a builder to which its own element is added makes Encode call itself for ever; it returns exactly if the nesting is well-founded. |
| C83 | False of the code: Stop reads Peer.conn of peers that a tracker goroutine is still dialling (connect writes it), unordered under every rule of the memory model. This is the only pair of accesses that can race. |
| C86 | `connect` overwrites `p.conn` at every attempt without closing the connection of the attempt before; a peer that accepts connections but does not answer leaves four of five connections open for good (`C86_leak_violated`). |
| C87 | the counters announced to a tracker are read one after the other while AddDownload changes them one after the other; the tracker may be told that downloaded + left is a block more, or any number of blocks less, than the size (`C87_violated`, `C87_every_partial`). |
| C89 | a torrent whose `name` is a dictionary with two keys is accepted, under a name that changes from run to run; with a target of type `map[string]map[int]int` the same document gives an error or a panic, as the order has it |
| C91 | C91: a peer that announced nothing is asked for piece 0 if pieces have 128 KiB or more (pieceIdx and blockIdx start at 0), and any peer is asked for whatever request another peer of the same announce failed to send or to get answered. |
| C92 | C92: Parse followed by Encode does not give the text back when a number has leading zeros, a key is repeated or a dictionary has two keys. (This is why the info-hash is computed from Raw, C15.) |
| C93 | C93: setField parses value.String() with strconv base 0, so strings such as "0x10" or "1_000" fill integer fields. |
| C95 | C95: the text of a parsed document is not indented by depth: nested lists and dictionaries are pointers, fall into the default case of prettyPrint and start again at the margin. |
| C96 | C96: the client never uploads: no unchoke, no have, no bitfield and no piece message is ever sent, requests are ignored (SendUnchoke has no caller). |
| C97 | C97: opening a torrent truncates all its files, so a finished or interrupted download that is started again is lost, also when New fails half-way. |
| C98 | C98: addresses are never removed from the peer pool, so a peer that failed once or was disconnected is never contacted again for the rest of the download. |
| C99 | C99: PeerNum also counts peers that are only being tried and all peers that have disconnected. |
| C100 | C100: every HTTP announce carries event=started, UDP announces never do; completed and stopped are never sent. |
| C103 | C103: the number of trackers shown is always 0, because nothing calls AddTracker. |
| C104 | C104: Metainfo.String does not escape line breaks, shows 0B for torrents of several files, and shows a date that is not there. |
| C105 | C105: the command bencode prints nothing, as both printing lines are comments. |
| C106 | C106: NewCmdRun drops the error and prints `error with the app` for all of them. |
| C107 | C107: writePieceData slices data[:toWrite] with a negative toWrite if a file has a negative length or the position overflows. |
| C108 | C108: a piece waiting for the writer blocks Run, and with it the keep-alives. |
| C109 | C109: unchoke retries for ever on a dead connection. |
| C112 | C112: bytes are counted as downloaded before they are written, and stay counted if the write fails. |
| C113 | C113: New does not compare the number of hashes with the number of pieces; with too few the download never ends. |
| C114 | C114: the write of a single file takes the offset a peer sent without comparing it with the length of the file. |
| C115 | C115: a stale answer on the UDP socket is never skipped, so one late answer makes all later handshakes fail. |
| C117 | C117: the read deadline is set once per message, so a peer slower than one block per second can deliver nothing. |
| C118 | C118: peers of a response are contacted one after the other; each unreachable one delays the rest by ten seconds. |
| C119 | C119: a compact reply makes the announce fail, so a tracker is asked five times a minute whatever interval it sends. |
| C120 | C120: IPv6 peers named under peers6 are ignored; a response with such peers only is an error. |
| C121 | C121: the id a tracker sets is ignored; a made-up one is sent always. |
| C122 | C122: the key min interval of a reply is ignored. |
| C123 | C123: signals are swallowed while the torrent file is being opened or read. |
| C124 | C124: an interrupted download ends with status 0 whatever is missing. |
| C125 | C125: the parser recurses as deep as the input is nested; a torrent file or tracker response of nested lists kills the program. |
| C126 | C126: web seeds (url-list) are announced to like trackers and not used for their content. |
| C127 | C127: all trackers of all tiers and announce are announced to at once, in any order. |
| C128 | C128: after a read that timed out in the middle of a message, the rest of that message is read as messages. |
| C132 | C132: a request that failed is kept for the peers of the same tracker response only (manager.go:110); when they have all returned (for example after failed keep-alives), the piece is never asked for again, whoever else has it. |
| C133 | C133: an announce to a UDP tracker that is answered with a connect answer with its transaction id counts as successful, with the peers of the announce before (udp_tracker.go:88-89, 116-132); its connection id is stored. (By C25 no announce answer can be read from a real UDP socket.) |
| C134 | C134: an HTTP tracker that accepts the connection and does not answer, or never ends its answer, occupies its goroutine until the download is cancelled: http.DefaultClient has no timeout (tracker.go:38). |
| C135 | C135: interested is sent to every peer before anything is read from it (peer.go:172) and again whenever it chokes, also if it has nothing; not interested is never sent. |
| C137 | C137: seven ways to crash a download, each reachable in the whole program (see C63, C70, C74, C60, C148 for the lines). |
| C138 | C138: host names in the ip field (allowed by BEP 3) give the invalid address; such peers are never contacted (http_tracker.go, parseBencodePeers). An IPv6 address whose zone has a bracket is accepted but its text cannot be dialled. |
| C139 | C139: the pool's key distinguishes an IPv4 address from its IPv4-mapped form (manager.go, AddPeer); such a peer is connected to twice. |
| C142 | C142: SetDownloaded is called only for blocks that end at the piece length (torrent.go:189), so the bit of a shorter last piece is out of reach: a torrent of several files with a short last piece never counts as done, whatever the peers send (see C44). |
| C143 | C143: the torrent file, the files of the download and the sockets of UDP trackers are never closed (download.go:61, torrent.go:157-163, manager.go:80-107); New leaves the files open that it made before a failure. |
| C144 | C144: files in directories inside a published directory are stored under the first name of their path (torrent.go:151), so they are not where the torrent file says. |
| C146 | C146: after a write that failed inside a message, unchoke (peer.go:172) goes on writing to the same connection; the other side hears choke, or a keep-alive, and then nothing. |
| C147 | C147: the getters of stats are read one after the other while the writer counts (stats.go:34-57); a line may show 0 bytes downloaded and a piece less left. |
| C148 | C148: bencode.Unmarshal panics on a document that is no dictionary (tag_parser.go:70-73) and nothing recovers: a tracker that replies `le` ends the program. |
| C149 | C149: after an interrupt the program can go on for ever: a peer's goroutine that is sending a piece to the writer (peer.go:400) is not released by the context, and Download waits for that goroutine (manager.go:213). |
| C150 | C150: --port takes any integer (download.go:43) and it is announced unchecked; UDP trackers do not find it at its place (udp_tracker.go:148). |
| C151 | C151: nothing reads what viper read; AppConfig is filled by flags only, after it was used (app.go:43-48, 95-111). |
| C152 | C152: stop() is deferred inside the command (app.go:113), so that further signals are swallowed. |
| C153 | C153: initDownloadDir truncates the files one after the other (torrent.go:157-163), so that an error at a later file comes when earlier ones are lost. |

## 6. Axioms of each theorem

As printed by `#print axioms` (generated by `tools/gen_axioms.py`). All theorems are in the namespace `Gotit.Props`.

**none** (6): `C23_connect`, `C40_bound_sharp`, `C40_bound_overflow`, `C40_bound_zero`, `C69_peer_violated`, `C94_zero`.

**propext** (15): `C01_lookup`, `C23_length_violated`, `C23_hash_violated`, `C24_panic_iff`, `C48_add_reports`, `C51_returned_partial`, `C56_progress`, `C63_violated`, `C63_violated_close`, `C63_violated_map`, `C69_tracker`, `C69_peer_partial`, `C74_first_message_violated`, `C107_final`, `C149_late_partial`.

**Quot.sound, propext** (96): `C03_unique`, `C03_numbers`, `C19_compact`, `C19_valid`, `C21_udp_partial`, `C24_foreign`, `C24_announce_no_panic`, `C25_announce_violated`, `C29_no_panic_violated`, `C29_panic_iff_partial`, `C29_total`, `C30_fields`, `C32_framing`, `C32_sound`, `C33_timeout_partial`, `C33_idle_partial`, `C35_success_iff`, `C35_table`, `C38_done`, `C38_stable`, `C42_single_violated`, `C48_addAll`, `C45_violated`, `C49_lifo`, `C49_conservation`, `C49_holds`, `C50_violated`, `C50_blocks_partial`, `C50_tiles_partial`, `C50_iff_partial`, `C51_violated`, `C51_index_partial`, `C56_cancel_partial`, `C58_counters`, `C58_sum`, `C59_overrun_violated`, `C59_left_partial`, `C61_download`, `C61_failed_kept`, `C61_counted`, `C61_listed`, `C63_violated_send`, `C63_causes_partial`, `C63_orderly_partial`, `C64_violated`, `never_returns`, `C64_partial`, `C64_winds_partial`, `C64_bound_partial`, `C65_violated`, `C65_partial`, `C66_tracker`, `C66_peer`, `C66_attempts`, `C66_limit`, `C66_udp`, `C70_violated`, `C70_partial`, `C71_init_partial`, `C74_violated`, `C74_crash_iff_partial`, `C81_others_partial`, `C90_why`, `C91_violated`, `C91_retry_violated`, `C96_unchoke`, `C98_violated`, `C98_gone_partial`, `C98_new_partial`, `C103_counts`, `C103_removed`, `timed_reachable`, `timed_progress`, `C109_violated`, `C110_rest`, `C110_growth`, `C110_growth_sharp`, `timed_untimed`, `timed_untimed_all`, `C118_violated`, `C118_one_partial`, `C118_after_partial`, `C118_exact_partial`, `C118_reannounce_partial`, `C127_any_partial`, `C128_cut_partial`, `C130_set`, `C131_close`, `C133_exact_partial`, `C133_connect`, `C140_room`, `C141_goes_on`, `C148_udp_partial`, `C149_violated`, `C149_moves_partial`, `C150_udp_violated`.

**Classical.choice, Quot.sound, propext** (396): `C01_encode_parse`, `C02_int_roundtrip_iff_partial`, `C02_int_roundtrip_violated`, `C02_negative_rejected_partial`, `C02_large_corrupted_partial`, `C03_grammar`, `C03_consumed`, `C04_panic_iff_partial`, `C04_no_panic_violated`, `C04_no_panic_partial`, `C05_terminates`, `C05_fuel_irrelevant`, `C06_raw`, `C06_atoms`, `C07_truncation`, `C07_truncation_api`, `C08_trailing`, `C09_last_wins`, `C10_no_alias_violated`, `C10_view_faithful`, `C10_shape_partial`, `C10_exact_partial`, `C11_text_violated`, `C11_iff_partial`, `C11_text_partial`, `C12_panic_iff_partial`, `C12_no_panic_violated`, `C12_key_violated`, `C12_key_iff_partial`, `C12_all_partial`, `C12_wrong_target`, `C13_required`, `C13_missing`, `C13_absent_untouched`, `C13_optional`, `C14_int_partial`, `C14_uint_partial`, `C14_unmarshal_partial`, `C14_range`, `C14_exact_violated`, `C15_info_hash`, `C16_atomic_violated`, `C16_exact_partial`, `C16_before_partial`, `C16_later_fields_partial`, `C16_single_field_partial`, `C17_success_iff_partial`, `C17_compact_violated`, `C18_entries_partial`, `C18_all_valid_violated`, `C20_failure`, `C20_status`, `C21_wait_partial`, `C21_failed_partial`, `C21_wait_violated`, `C22_params_partial`, `C22_query_url_partial`, `C22_query_url_violated`, `C22_characters`, `C22_kept`, `C23_header_partial`, `C23_fields_partial`, `C25_connect_partial`, `C25_parse_partial`, `C25_if_eof_partial`, `C26_message_violated`, `C26_announce_violated`, `C26_action2_partial`, `C27_framed_partial`, `C27_framed_iff_partial`, `C27_framed_violated`, `C28_request_violated`, `C28_wire_partial`, `C28_have_partial`, `C30_pieces`, `C31_bits_violated`, `C31_bits_partial`, `C31_seed_partial`, `C31_bitfield_partial`, `C31_sent_partial`, `C33_resync_violated`, `C34_accept_iff`, `C34_own`, `C34_client_id`, `C36_next`, `C36_distinct`, `C36_terminates`, `C36_new`, `C37_again_violated`, `C37_available_partial`, `C38_new`, `C39_done_violated`, `C39_initial_partial`, `C39_new_partial`, `C39_opened_partial`, `C40_ceiling`, `C40_new`, `C41_layout`, `C41_bytes`, `C41_reachable`, `C42_multi_violated`, `C42_outside_partial`, `C42_single_partial`, `C46_violated`, `C46_path_violated`, `C46_inside_partial`, `C46_iff_partial`, `C47_violated`, `C47_distinct_partial`, `C47_iff_partial`, `C48_trackers`, `C43_violated`, `C43_misplaced_violated`, `C43_verified_partial`, `C43_exact_partial`, `C43_iff_partial`, `C44_violated`, `C44_done_partial`, `C45_iff_partial`, `C45_one_block_partial`, `C57_state`, `C57_run`, `C52_violated`, `C52_C55_partial`, `C53_unchoked`, `C54_one`, `C54_requeue_partial`, `C54_requeue_requests`, `C54_violated`, `C55_violated`, `run_answered`, `C56_violated`, `C56_done_partial`, `C56_time_violated`, `C56_time_partial`, `C59_violated`, `C59_once_partial`, `C60_violated`, `C60_panic_violated`, `C60_bar_partial`, `C60_drawn_partial`, `C60_iff_partial`, `C60_received_partial`, `C60_percent_int`, `C68_percent`, `C61_first`, `C61_once`, `C62_violated`, `C62_partial`, `C64_cancel_partial`, `C65_drains_partial`, `C66_requests`, `C67_violated`, `flags_ignored`, `C67_names_violated`, `C67_level_partial`, `C67_partial`, `C67_silent`, `C67_format_partial`, `C71_violated`, `C71_partial`, `C71_order_partial`, `startProgram_command`, `C72_violated`, `C72_path_violated`, `C72_panic_iff_partial`, `C73_roundtrip`, `C73_open`, `C74_download_partial`, `C75_violated`, `C75_have_violated`, `C75_alloc_partial`, `C76_verified`, `C76_stream`, `C77_once`, `C78_violated`, `C78_pushed_partial`, `C78_anywhere_partial`, `C79_violated`, `C79_done_partial`, `C80_determined_partial`, `C80_violated`, `C80_order_violated`, `C81_violated`, `C81_built_partial`, `C82_ends_iff_partial`, `C82_violated`, `C83_partial`, `C83_running_partial`, `C83_violated`, `C84_one`, `C84_blocked`, `C84_release`, `C84_no_deadlock`, `C85_started_iff`, `C85_handover`, `C85_written`, `C86_leak_violated`, `C86_open_partial`, `C86_first_partial`, `C87_violated`, `C87_figures_partial`, `C87_every_partial`, `C87_bound_partial`, `C87_quiet_partial`, `C88_http`, `C88_udp`, `url_scheme_unique`, `C89_violated`, `C89_but_strings_partial`, `C89_same_partial`, `C89_maps_partial`, `C89_maps_same_partial`, `C89_maps_violated`, `C89_hash_partial`, `C90_keepalive`, `C91_given_partial`, `C91_partial`, `C92_some_order_partial`, `C92_partial`, `C92_violated`, `C92_order_violated`, `C93_int_partial`, `C93_uint_partial`, `C93_violated`, `C94_stored`, `C95_iff_partial`, `C95_built_partial`, `C95_parsed_partial`, `C95_violated`, `C96_violated`, `C96_never_partial`, `C97_violated`, `C97_iff_partial`, `C97_opened_partial`, `C97_any_partial`, `C99_violated`, `C99_exact_partial`, `C100_violated`, `C100_udp_violated`, `C100_always_partial`, `C101_sizes`, `C101_exact`, `C101_mono`, `C102_speed`, `C102_start`, `C103_violated`, `C103_iff_partial`, `C103_line_partial`, `C104_violated`, `C104_reads_partial`, `C104_name_partial`, `C104_size_partial`, `C105_violated`, `C105_exit_partial`, `C106_violated`, `C106_exit_partial`, `C107_violated`, `C107_wrap_violated`, `C107_partial`, `C108_violated`, `C108_bound_partial`, `C108_partial`, `C108_spacing`, `keepAliveDue_iff`, `C109_partial`, `C111_set`, `C111_kept`, `C112_violated`, `C112_counted_partial`, `C113_violated`, `C113_never_partial`, `C114_violated`, `C114_multi_partial`, `C114_single_partial`, `C115_violated`, `C115_first_partial`, `C115_in_time_partial`, `C116_message`, `C116_others`, `C117_violated`, `C117_iff_partial`, `C119_violated`, `C119_compact_partial`, `C119_success_partial`, `C119_failure_partial`, `C119_again_partial`, `C120_violated`, `C120_only_violated`, `C120_ignored_partial`, `C121_violated`, `C121_always_partial`, `C122_violated`, `C122_exact_partial`, `C123_violated`, `C123_false_violated`, `C123_lost_violated`, `C123_iff_partial`, `C124_violated`, `C124_interrupted_partial`, `C124_forever_partial`, `C124_status_partial`, `C125_violated`, `C125_open_violated`, `C125_exact_partial`, `C125_bytes_partial`, `C126_violated`, `C126_exact_partial`, `C126_noseeds_partial`, `C127_violated`, `C127_announce_violated`, `C128_violated`, `C128_unbroken_partial`, `C128_announced_partial`, `C128_any`, `C128_world_any`, `C129_text`, `C129_different`, `C129_pieces`, `C132_violated`, `C132_lost_partial`, `C132_queue_partial`, `C132_response_partial`, `C133_violated`, `C134_violated`, `C134_http_partial`, `C134_udp_partial`, `C134_tries_partial`, `C135_violated`, `C135_told_partial`, `C135_exact_partial`, `C136_provenance`, `C136_file`, `C136_bytes`, `C136_parts`, `C136_any`, `C137_violated`, `C137_send_violated`, `C137_wait_violated`, `C137_close_violated`, `C137_map_violated`, `C137_print_violated`, `C148_violated`, `C137_exact_partial`, `C137_shown_partial`, `C137_causes_partial`, `C137_trackers_partial`, `C138_violated`, `C138_entries_partial`, `C138_listed_partial`, `C138_dialled_partial`, `C139_violated`, `C139_exact_partial`, `C140_new`, `C140_from`, `C140_model`, `C140_model_new`, `C140_model_from`, `C141_again`, `C142_partial`, `C142_violated`, `C142_honest_violated`, `C143_body`, `C143_files`, `C143_new_partial`, `C143_never_partial`, `C143_violated`, `C144_flat_partial`, `C144_nested_violated`, `C145_dials`, `C145_response`, `C146_violated`, `C146_intact_partial`, `C146_broken_partial`, `C147_violated`, `C147_lines_partial`, `C147_bound_partial`, `C148_reply_partial`, `C149_partial`, `C150_violated`, `C150_http_partial`, `C150_flag_partial`, `C150_udp_partial`, `C151_violated`, `C151_format_violated`, `C151_exact_partial`, `C151_commands_partial`, `C152_violated`, `C152_false_violated`, `C152_iff_partial`, `C153_bencode_partial`, `C153_exact_partial`, `C153_violated`, `C153_iff_partial`, `C153_crash_partial`, `C153_false_violated`.
