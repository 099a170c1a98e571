{"id": "C01", "title": "Encode then Parse is the identity", "statement": "For every bencode value built from strings, lists, dictionaries and integers between 0 and 922337203685477580, Parse(v.Encode()) succeeds and returns the same value, whatever order the dictionary entries were emitted in; nil list elements and nil dictionary values are skipped.", "quantifier": "all values, any nesting depth and size, all map iteration orders, any bytes following the encoding", "why_tests_cant": "the value space is infinite and recursive; tests try a few literals and cannot control Go's random map order", "anchors": ["pkg/bencode/elements.go: Encode", "pkg/bencode/parse.go: Parse"]}
{"id": "C02", "title": "Every Go int survives Encode/Parse", "statement": "For every int n, Parse(Integer(n).Encode()) returns n.", "quantifier": "all 2^64 int values", "why_tests_cant": "2^64 inputs; the failing ones (negative, or above 922337203685477580) are exactly those no test in the repository tries", "anchors": ["pkg/bencode/elements.go: IntElement.Encode", "pkg/bencode/parse.go: scanner.number, readInt"]}
{"id": "C03", "title": "Parse accepts exactly the bencode grammar", "statement": "Parse(data) succeeds with value v if and only if some prefix of data is a derivation of v in the (lenient) bencode grammar; the prefix and the value are unique.", "quantifier": "all byte strings, all values", "why_tests_cant": "an if-and-only-if over all byte strings and all derivations", "anchors": ["pkg/bencode/parse.go: Parse, Next, readList, readDict, readString, readInt"]}
{"id": "C04", "title": "Parse never panics", "statement": "For every byte string Parse returns a value or an error; it never panics.", "quantifier": "all byte strings", "why_tests_cant": "a single crashing length prefix among infinitely many inputs is enough; the overflowing ones have 18+ digits", "anchors": ["pkg/bencode/parse.go: readString, number, read"]}
{"id": "C05", "title": "Parse terminates on every input", "statement": "Parse returns on every input; the depth of its calls and the number of its loop iterations on any path are bounded by a linear function of the input length.", "quantifier": "all byte strings", "why_tests_cant": "non-termination cannot be observed by a finite run; the bound is over all lengths", "anchors": ["pkg/bencode/parse.go: readList, readDict, Next"]}
{"id": "C06", "title": "Raw() is the verbatim source text", "statement": "For every list or dictionary, at any depth, inside a successfully parsed value, Raw() is a contiguous piece of the input, and parsing Raw() on its own returns that same element.", "quantifier": "all byte strings Parse accepts, all nested elements", "why_tests_cant": "the info-hash of every torrent in existence depends on it; tests check one or two documents", "anchors": ["pkg/bencode/parse.go: readList, readDict", "pkg/bencode/elements.go: Raw"]}
{"id": "C07", "title": "Truncated input is always rejected", "statement": "If Parse accepts a document and consumes all of it, then for every strict prefix (every possible truncation point) Parse returns an error: it neither accepts nor panics.", "quantifier": "all accepted documents, all truncation points", "why_tests_cant": "every cut point of every document", "anchors": ["pkg/bencode/parse.go: Parse"]}
{"id": "C08", "title": "Bytes after the first element are irrelevant", "statement": "If Parse(data) succeeds with v, Parse(data followed by anything) succeeds with the same v.", "quantifier": "all accepted inputs, all suffixes", "why_tests_cant": "two universally quantified byte strings", "anchors": ["pkg/bencode/parse.go: Parse"]}
{"id": "C09", "title": "Duplicate dictionary keys: the last one wins", "statement": "For every parsed dictionary, Value(k) is the value of the last occurrence of key k in the source, and nil exactly when k does not occur.", "quantifier": "all accepted dictionaries, all keys", "why_tests_cant": "all orders and multiplicities of keys", "anchors": ["pkg/bencode/parse.go: readDict", "pkg/bencode/elements.go: DictElement.Value"]}
{"id": "C10", "title": "Parsed values do not depend on the caller's buffer", "statement": "After Parse(data) returns, overwriting data does not change the strings in the returned value.", "quantifier": "all accepted inputs, all later buffer contents", "why_tests_cant": "aliasing through unsafe.Pointer is invisible unless the buffer is reused after parsing", "anchors": ["pkg/bencode/parse.go: b2s, readString"]}
{"id": "C11", "title": "String() does not depend on how a value was obtained", "statement": "Parse(v.Encode()).String() equals v.String() for every value v whose dictionaries are emitted in the same order.", "quantifier": "all values", "why_tests_cant": "recursive value space; only nested containers expose the difference", "anchors": ["pkg/bencode/elements.go: prettyPrint"]}
{"id": "C12", "title": "Unmarshal never panics", "statement": "For every byte string and every pointer-to-struct target, Unmarshal returns nil or an error; it never panics.", "quantifier": "all byte strings, all target struct types", "why_tests_cant": "tracker responses and torrent files are untrusted; all byte strings must be covered", "anchors": ["pkg/bencode/tag_parser.go: Unmarshal, processTarget"]}
{"id": "C13", "title": "Required and optional fields", "statement": "If Unmarshal succeeds then every non-optional tagged field's key is present in the document's top-level dictionary; if a required key is absent Unmarshal fails; an absent optional key leaves its field untouched.", "quantifier": "all documents, all struct types", "why_tests_cant": "all subsets of keys present, all target types", "anchors": ["pkg/bencode/tag_parser.go: processTarget"]}
{"id": "C14", "title": "Integer fields are never silently truncated", "statement": "If Unmarshal stores a number in an int8..int64 or uint8..uint64 field, the stored number is exactly the number in the document and lies in the field's range; otherwise it returns an error.", "quantifier": "all widths, all bencode integers", "why_tests_cant": "all 2^64 integers times all widths", "anchors": ["pkg/bencode/tag_parser.go: setField"]}
{"id": "C15", "title": "The info-hash is the SHA-1 of the info dictionary's original bytes", "statement": "If Unmarshal into Metainfo succeeds, Hash() is the SHA-1 of exactly the bytes of the (last) info dictionary as they stand in the file, and that info dictionary is what Info was filled from.", "quantifier": "all torrent files", "why_tests_cant": "the hash must be right for every file, including non-canonical ones", "anchors": ["pkg/bencode/tag_parser.go: Metainfo, Hash, Unmarshal"]}
{"id": "C16", "title": "A failed Unmarshal leaves the target unchanged", "statement": "If Unmarshal returns an error, the target struct has the same contents as before the call.", "quantifier": "all documents, all targets", "why_tests_cant": "every possible failing field position", "anchors": ["pkg/bencode/tag_parser.go: processTarget, setField"]}
{"id": "C17", "title": "Compact HTTP tracker responses yield their peers", "statement": "When an HTTP tracker answers 200 with a dictionary whose peers key is a byte string of 6-byte entries (the form the client asks for with compact=1), Announce returns those peers.", "quantifier": "all responses", "why_tests_cant": "all responses; no test decodes any announce response", "anchors": ["pkg/tracker/http_tracker.go: readPeers", "gotit.go: AnnounceResponse", "pkg/bencode/tag_parser.go: setField"]}
{"id": "C18", "title": "Dictionary-form peers are returned in order, one per entry, and only valid ones", "statement": "When peers is a list of dictionaries, Announce returns one address per entry, in order, and every returned address is valid.", "quantifier": "all peer lists", "why_tests_cant": "all lists, all placements of malformed entries", "anchors": ["pkg/tracker/http_tracker.go: parseBencodePeers"]}
{"id": "C19", "title": "Compact peer decoding is the inverse of the compact encoding", "statement": "Decoding the concatenation of 4-byte address + 2-byte big-endian port entries returns exactly those entries; up to 5 trailing bytes are ignored; every decoded address is valid.", "quantifier": "all peer lists, all tails", "why_tests_cant": "2^48 entries, all list lengths", "anchors": ["pkg/tracker/http_tracker.go: parseCompactPeers"]}
{"id": "C20", "title": "A tracker failure is always reported", "statement": "If the response dictionary contains a non-empty failure reason, Announce returns an error and no peers, and the announce interval is unchanged.", "quantifier": "all responses with a failure reason", "why_tests_cant": "all combinations with the other fields", "anchors": ["pkg/tracker/http_tracker.go: readPeers"]}
{"id": "C21", "title": "The client waits as long as the tracker asks between announces", "statement": "After a successful announce the next announce starts no earlier than the number of seconds the tracker sent, and never immediately.", "quantifier": "all responses, all announce histories", "why_tests_cant": "missing, zero and overflowing intervals are corner cases of an infinite domain", "anchors": ["pkg/tracker/http_tracker.go: readPeers", "pkg/tracker/tracker.go: WaitInterval", "pkg/tracker/udp_tracker.go: readAnnounce", "pkg/download/manager.go: runTracker"]}
{"id": "C22", "title": "The announce URL delivers every parameter to the tracker", "statement": "For every tracker URL, hash and statistics, a tracker that decodes the query string of the request receives the tracker URL's own parameters and the client's eleven parameters unchanged.", "quantifier": "all tracker URLs, all 20-byte hashes, all counters", "why_tests_cant": "all byte values in the hash need percent-encoding; URLs with a query are never tested", "anchors": ["pkg/tracker/http_tracker.go: Announce, buildQuery"]}
{"id": "C23", "title": "The UDP announce request follows BEP 15", "statement": "The announce datagram is 98 bytes and carries the info-hash at offset 16.", "quantifier": "all hashes, statistics, ports, transaction ids", "why_tests_cant": "field-by-field layout over all values; binary.Write's ignored error hides the failure", "anchors": ["pkg/tracker/udp_tracker.go: createAnnounce"]}
{"id": "C24", "title": "Replies with a foreign transaction id are never accepted", "statement": "Whatever datagram arrives, if its transaction id is not the one just sent (or it is too short to contain one) no connection id, peer list or interval is taken from it and an error is returned; no datagram of at least 4 bytes causes a panic.", "quantifier": "all datagrams, all transaction ids", "why_tests_cant": "all datagrams from an attacker", "anchors": ["pkg/tracker/udp_tracker.go: parseTrackerResponse, readConnect, readAnnounce, readError, checkResponseTransactionId"]}
{"id": "C25", "title": "A UDP announce returns the peers the tracker sent", "statement": "If the tracker answers the connect and announce requests correctly, Announce returns the peers in its answer.", "quantifier": "all tracker answers, all datagram timings", "why_tests_cant": "reading a datagram socket until EOF never ends without an error; only a real UDP exchange shows it", "anchors": ["pkg/tracker/udp_tracker.go: Announce, handshake", "pkg/gotitnet/connection.go: ReadAll"]}
{"id": "C26", "title": "UDP tracker error messages are reported", "statement": "If the tracker answers with a BEP 15 error packet (action 3), Announce's error contains the tracker's message.", "quantifier": "all error packets", "why_tests_cant": "all messages and transaction ids", "anchors": ["pkg/tracker/udp_tracker.go: conError, parseTrackerResponse, readError"]}
{"id": "C27", "title": "Messages are framed correctly", "statement": "Every message written by Send starts with a 4-byte big-endian length equal to the number of bytes that follow.", "quantifier": "all messages the package can construct or receive", "why_tests_cant": "all message types and payloads", "anchors": ["pkg/util/peer_message.go: Send, createSignalMessage, createHaveMessage, createCancelMessage, CreatePieceMessage, createBitfieldMessage"]}
{"id": "C28", "title": "Requests carry the block that was asked for", "statement": "The remote peer that decodes the message sent for CreatePieceMessage(index, offset, length) sees exactly index, offset and length; likewise for cancel and have.", "quantifier": "all 2^96 argument triples", "why_tests_cant": "argument space; the accessors return the right numbers even though the wire bytes do not", "anchors": ["pkg/util/peer_message.go: CreatePieceMessage, createCancelMessage, createHaveMessage"]}
{"id": "C29", "title": "No message from a peer can crash the client's decoder", "statement": "NewPeerMessage returns a message for every byte string; it never panics.", "quantifier": "all byte strings", "why_tests_cant": "malicious peers choose the bytes", "anchors": ["pkg/util/peer_message.go: NewPeerMessage"]}
{"id": "C30", "title": "Received messages decode to their fields", "statement": "For well-formed have, request, cancel and piece messages Index, Offset, BlockLength and Data return exactly the values on the wire.", "quantifier": "all indexes, offsets, lengths and data", "why_tests_cant": "all 32-bit values and all payloads", "anchors": ["pkg/util/peer_message.go: NewPeerMessage, Index, Offset, BlockLength, Data"]}
{"id": "C31", "title": "Bitfields identify the pieces the peer has", "statement": "After a bitfield message, the peer's set contains i if and only if bit i of the wire bitfield (most significant bit of the first byte is piece 0) is set.", "quantifier": "all bitfields, all piece indexes", "why_tests_cant": "2^n bitfields of every length", "anchors": ["pkg/util/peer_message.go: Bitfield, createBitset", "pkg/peer/peer.go: handlePeerMessage"]}
{"id": "C32", "title": "Stream framing is independent of packet boundaries", "statement": "If the peer sends a sequence of messages, successive ReadPeerMessage calls return exactly their bodies in order, no matter how the stream is cut into segments, as long as no read fails in between.", "quantifier": "all message sequences, all segmentations", "why_tests_cant": "exponentially many segmentations", "anchors": ["pkg/gotitnet/connection.go: ReadPeerMessage, readPeerMessageSize, readExactly"]}
{"id": "C33", "title": "A read timeout does not lose synchronisation", "statement": "If a ReadPeerMessage call fails with a timeout, the next successful ReadPeerMessage returns a message the peer actually sent.", "quantifier": "all streams, all timeout points", "why_tests_cant": "all points at which the deadline can hit", "anchors": ["pkg/gotitnet/connection.go: ReadPeerMessage, readExactly", "pkg/peer/peer.go: Run, unchoke"]}
{"id": "C34", "title": "Handshake acceptance", "statement": "The handshake built for a 20-byte info-hash is 68 bytes and is accepted by a peer expecting that hash; a handshake is accepted if and only if it has at least 68 bytes, announces the BitTorrent protocol and carries exactly the expected hash, whatever its reserved bits and peer id.", "quantifier": "all byte strings, all hashes", "why_tests_cant": "all byte strings", "anchors": ["pkg/peer/peer.go: isHandshakeValid, createHandshake"]}
{"id": "C35", "title": "Piece table", "statement": "NewPieces succeeds exactly when the length is a multiple of 20; piece i then has index i and the i-th 20-byte hash, and CheckHash compares it exactly.", "quantifier": "all byte strings", "why_tests_cant": "all lengths", "anchors": ["pkg/torrent/piece.go: NewPieces, CheckHash, Index"]}
{"id": "C36", "title": "Next hands out each piece at most once", "statement": "In every history of Next calls by any number of concurrent peers, no piece index is returned twice, every returned index is a valid piece of the torrent that the calling peer has, and it is the lowest such piece not yet handed out; Next reports not-found exactly when there is none.", "quantifier": "all schedules of any number of concurrent callers, all peer bitsets", "why_tests_cant": "all interleavings of unboundedly many calls", "anchors": ["pkg/torrent/torrent.go: Next"]}
{"id": "C37", "title": "Pieces whose download failed are handed out again", "statement": "If a piece that was handed out by Next is never downloaded, a later Next call by a peer that has it returns it again.", "quantifier": "all histories", "why_tests_cant": "liveness over all histories", "anchors": ["pkg/torrent/torrent.go: Next", "pkg/peer/peer.go: handlePieceMessage"]}
{"id": "C38", "title": "Done means every piece was marked downloaded", "statement": "Done returns true if and only if every piece has been marked downloaded, and once true it stays true, as long as only valid piece indexes are marked.", "quantifier": "all histories of SetDownloaded, all piece counts, all schedules", "why_tests_cant": "all orders and repetitions", "anchors": ["pkg/torrent/torrent.go: SetDownloaded, Done"]}
{"id": "C39", "title": "Done is false until something was downloaded", "statement": "For every torrent accepted by New with non-zero total length, Done is false before any piece is written.", "quantifier": "all metainfo contents", "why_tests_cant": "degenerate piece lengths (zero, negative) are an infinite family", "anchors": ["pkg/torrent/torrent.go: New, Done"]}
{"id": "C40", "title": "The number of pieces is the ceiling of length over piece length", "statement": "For positive lengths up to 2^53 New computes PiecesNum = ceil(Length / PieceLength) exactly, in spite of floating point.", "quantifier": "all lengths and piece lengths up to 2^53", "why_tests_cant": "2^106 pairs; rounding errors only show at particular ones", "anchors": ["pkg/torrent/torrent.go: New"]}
{"id": "C41", "title": "Multi-file layout", "statement": "Writing a block at torrent position p stores byte j of the block at position p+j of the concatenation of all files (in order, each with its declared length), changes no other byte, and never makes a file longer than declared.", "quantifier": "all file lists (any number, zero lengths included), positions and blocks", "why_tests_cant": "all splits across any number of files", "anchors": ["pkg/torrent/torrent.go: writePieceData"]}
{"id": "C42", "title": "A block that does not fit is rejected without side effects", "statement": "If a block does not lie completely inside the torrent, the write reports an error and no file changes.", "quantifier": "all file lists, positions and blocks", "why_tests_cant": "all overlapping positions", "anchors": ["pkg/torrent/torrent.go: writePieceData"]}
{"id": "C43", "title": "Only verified data is stored, at its own place", "statement": "Whatever messages peers send, every byte of the output files is either untouched or the correct byte of the torrent's content at that position.", "quantifier": "all message sequences from arbitrary peers", "why_tests_cant": "adversarial message sequences", "anchors": ["pkg/peer/peer.go: handlePieceMessage", "pkg/torrent/torrent.go: CheckPiece, WritePiece"]}
{"id": "C44", "title": "A complete download is recognised", "statement": "Once every piece of the torrent has been received correctly and written, Done returns true.", "quantifier": "all torrents, all delivery orders, duplicates allowed", "why_tests_cant": "all lengths, in particular lengths that are not a multiple of the piece length", "anchors": ["pkg/torrent/torrent.go: WritePiece, Done"]}
{"id": "C45", "title": "Pieces larger than one block can be downloaded", "statement": "If an honest peer answers every block request of a piece, the piece ends up stored.", "quantifier": "all piece lengths and contents", "why_tests_cant": "depends on the relation between block and piece hashes for every content", "anchors": ["pkg/peer/peer.go: handlePieceMessage", "pkg/torrent/torrent.go: CheckPiece"]}
{"id": "C46", "title": "Downloads stay inside the chosen directory", "statement": "Every file New creates lies inside the download directory.", "quantifier": "all metainfo names and paths", "why_tests_cant": "attacker-chosen strings", "anchors": ["pkg/torrent/torrent.go: initDownloadDir"]}
{"id": "C47", "title": "Every file of a torrent gets its own path", "statement": "Two different files of a multi-file torrent are stored in two different files on disk.", "quantifier": "all file lists with distinct paths", "why_tests_cant": "all path lists", "anchors": ["pkg/torrent/torrent.go: initDownloadDir"]}
{"id": "C48", "title": "The tracker set", "statement": "The trackers of a torrent are exactly its announce URL, the URLs of all announce-list tiers and the url-list entries, each once.", "quantifier": "all metainfo contents", "why_tests_cant": "all lists with repetitions", "anchors": ["pkg/torrent/torrent.go: New", "pkg/util/set.go: Add, Contains, AddAll"]}
{"id": "C49", "title": "The retry queue neither loses nor duplicates requests", "statement": "In every concurrent history, each request put in the queue is handed out at most once, requests handed out were put in before, nothing is lost while in the queue, and the most recently failed request is handed out first.", "quantifier": "all histories and schedules of any number of goroutines", "why_tests_cant": "all interleavings", "anchors": ["pkg/torrent/pieces_queue.go: RequestFailed, FailedPieceMessage"]}
{"id": "C50", "title": "Block requests tile the piece", "statement": "Between two Next calls a peer requests the blocks of the piece it was given, in increasing order without gap, overlap or repetition, covering the piece exactly.", "quantifier": "all piece lengths, all sequences of requests", "why_tests_cant": "all piece lengths, in particular those not a multiple of 128 KiB", "anchors": ["pkg/peer/peer.go: nextRequestMessage, createPieceMessage, NewPeer"]}
{"id": "C51", "title": "A peer is only asked for pieces handed out by Next (or for failed requests)", "statement": "Every request created by a peer is either a queued failed request or concerns the piece most recently returned to that peer by Next.", "quantifier": "all histories from NewPeer", "why_tests_cant": "all histories", "anchors": ["pkg/peer/peer.go: nextRequestMessage, NewPeer"]}
{"id": "C52", "title": "Run eventually requests data from an unchoked peer", "statement": "If the remote peer unchokes the client, answers everything and has pieces the client lacks, Run sends a request.", "quantifier": "all behaviours of the remote peer", "why_tests_cant": "liveness over all executions", "anchors": ["pkg/peer/peer.go: Run, unchoke, SendInterested, NewPeer"]}
{"id": "C53", "title": "No request is sent while choked", "statement": "Run never sends a request when the last choke/unchoke message processed from the peer was choke (or there was none).", "quantifier": "all executions of Run", "why_tests_cant": "all message orders", "anchors": ["pkg/peer/peer.go: Run, handlePeerMessage"]}
{"id": "C54", "title": "One request at a time, failed requests are requeued", "statement": "At any time Run has at most one request outstanding; if sending fails or a read fails while a request is outstanding, exactly that request is put in the retry queue.", "quantifier": "all executions of Run", "why_tests_cant": "all error patterns", "anchors": ["pkg/peer/peer.go: Run"]}
{"id": "C55", "title": "A peer keeps downloading", "statement": "After a request has been answered Run sends the next request.", "quantifier": "all executions of Run", "why_tests_cant": "liveness", "anchors": ["pkg/peer/peer.go: Run"]}
{"id": "C56", "title": "Run stops promptly", "statement": "Once the context is cancelled or the torrent is done, Run returns after at most one more loop iteration and sends no further request.", "quantifier": "all executions, all cancellation points", "why_tests_cant": "all cancellation points", "anchors": ["pkg/peer/peer.go: Run, wait, unchoke"]}
{"id": "C57", "title": "Peer state follows the messages received", "statement": "After any sequence of messages the choke flag, the remote-interest flag and the piece set are those determined by the last choke/unchoke, the last interested/not-interested, and the last bitfield plus later have/accepted piece messages.", "quantifier": "all message sequences", "why_tests_cant": "all sequences", "anchors": ["pkg/peer/peer.go: handlePeerMessage"]}
{"id": "C58", "title": "Statistics counters are exact under concurrency", "statement": "For every interleaving of any number of AddDownload, AddUpload, AddPeer and RemovePeer calls, once all have returned Download and Upload are the sums of the sizes and Left is the torrent size minus Download, modulo 2^64.", "quantifier": "all interleavings of the individual atomic operations", "why_tests_cant": "all interleavings", "anchors": ["pkg/stats/stats.go: AddDownload, AddUpload, AddPeer, RemovePeer"]}
{"id": "C59", "title": "Left never exceeds the torrent size", "statement": "Left() reported to trackers is at most the torrent size.", "quantifier": "all histories of a download", "why_tests_cant": "needs histories in which a block is received twice", "anchors": ["pkg/stats/stats.go: AddDownload, Left", "pkg/torrent/torrent.go: WritePiece"]}
{"id": "C60", "title": "The progress display never crashes", "statement": "For every download state the progress bar is rendered: a bar of exactly 20 cells.", "quantifier": "all reachable statistics", "why_tests_cant": "needs histories with more bytes received than the torrent has", "anchors": ["pkg/stats/progress_bar.go: progressBar", "pkg/stats/stats.go: PercentCompleted"]}
{"id": "C61", "title": "At most one connection per peer address", "statement": "In every schedule of concurrent tracker goroutines at most one peer per address is added to the pool; AddPeer returns true exactly for the first, and PeerNum is the number of added peers minus the number whose handshake failed.", "quantifier": "all schedules, all address lists", "why_tests_cant": "all interleavings", "anchors": ["pkg/download/manager.go: AddPeer, initPeers, startPeerDownload"]}
{"id": "C62", "title": "The peer limit is respected", "statement": "The manager never holds more than the configured maximum number of peers.", "quantifier": "all tracker answers", "why_tests_cant": "all histories", "anchors": ["pkg/download/manager.go: NewMng, AddPeer", "pkg/cmd/download.go: num-peer flag"]}
{"id": "C63", "title": "Shutdown never crashes", "statement": "Stop and everything running concurrently with it finish without panic: no nil dereference, no write to a nil map, no send on a closed channel.", "quantifier": "all schedules, all cancellation points", "why_tests_cant": "races and states that depend on the schedule", "anchors": ["pkg/download/manager.go: Stop, AddPeer, Download", "pkg/peer/peer.go: Close, handlePieceMessage"]}
{"id": "C64", "title": "Download returns when the torrent is complete", "statement": "Once Done is true, Download returns without outside intervention.", "quantifier": "all schedules", "why_tests_cant": "liveness over schedules", "anchors": ["pkg/download/manager.go: Download"]}
{"id": "C65", "title": "Accepted pieces are on disk when Download returns", "statement": "Every piece message accepted before Download returns has been written when it returns.", "quantifier": "all schedules", "why_tests_cant": "all interleavings of the writer with shutdown", "anchors": ["pkg/download/manager.go: Download", "pkg/torrent/torrent.go: WritePiece"]}
{"id": "C66", "title": "Announce retries", "statement": "A tracker announce is attempted at most five times, stops at the first success whose peers it returns, and otherwise reports the last error (or the context's error if cancelled while waiting).", "quantifier": "all outcome sequences, all cancellation points", "why_tests_cant": "all outcome sequences", "anchors": ["pkg/download/manager.go: announceToTracker, startPeerDownload"]}
{"id": "C67", "title": "Every documented log level is accepted and takes effect", "statement": "Each level listed in the help text (info, debug, trace, warning, error, silent) given on the command line results in a logger of that level.", "quantifier": "all flag values", "why_tests_cant": "initialisation order: the logger is built before flags are parsed", "anchors": ["pkg/logger/logger.go: getZapLevel, NewCommandLine", "pkg/cmd/app.go: NewApp, NewCmdRun"]}
{"id": "C68", "title": "The percentage shown is right", "statement": "The percentage displayed is 0 at the start, never decreases as bytes arrive, is at most 100 while no more bytes arrived than the torrent has, and is 100 when exactly all have.", "quantifier": "all torrent sizes, all byte counts", "why_tests_cant": "floating point rounding for all pairs of 64-bit numbers", "anchors": ["pkg/stats/stats.go: PercentCompleted"]}
{"id": "C69", "title": "Pauses between announce attempts", "statement": "Consecutive attempts of a tracker announce are at least 1, 2, 4 and 8 seconds apart, and consecutive attempts of a peer handshake at least half a second.", "quantifier": "all durations of attempts, all timer delays", "why_tests_cant": "a unit mistake is only visible by measuring time against a peer that refuses", "anchors": ["pkg/download/manager.go: announceToTracker, startPeerDownload"]}
{"id": "C70", "title": "No panic before cancellation", "statement": "As long as the context is not cancelled, no step of the manager's goroutines panics (nil map, closed channel, nil connection, wait group reuse).", "quantifier": "all schedules, all tracker answers", "why_tests_cant": "needs a peer to end and another to start between the wake-up and the return of a blocked Wait", "anchors": ["pkg/download/manager.go: Download, waitPeers, startPeerDownload, AddPeer"]}
{"id": "C71", "title": "The configuration file named on the command line is used", "statement": "With --config <path>, that file is the one that is read, and the program reports an error if it cannot be.", "quantifier": "all paths, all contents", "why_tests_cant": "initialisation order: the configuration is read before flags are parsed", "anchors": ["pkg/cmd/app.go: NewApp, NewCmdRun, initConfig"]}
{"id": "C72", "title": "Opening a torrent file never panics", "statement": "Whatever the torrent file contains and whatever the file system answers, gotit download reports an error or opens the torrent; it does not crash.", "quantifier": "all file contents, all file system answers", "why_tests_cant": "the crashing inputs are rare among all byte strings and hide in three different stages", "anchors": ["pkg/cmd/download.go: runDownload", "pkg/bencode/tag_parser.go: Unmarshal", "pkg/torrent/torrent.go: New, initDownloadDir"]}
{"id": "C73", "title": "The torrent that is opened is the one that was encoded", "statement": "For every document that carries a metainfo (any order of keys, any further keys), opening its encoding is New on exactly that metainfo, with the raw info dictionary equal to the encoding of the info value, hence with its info-hash.", "quantifier": "all metainfo documents, all file systems", "why_tests_cant": "composition of decoder, reflection-driven unmarshaller and constructor over an unbounded set of documents", "anchors": ["pkg/cmd/download.go: runDownload", "pkg/bencode/tag_parser.go: Unmarshal, Metainfo", "pkg/torrent/torrent.go: New"]}
{"id": "C74", "title": "No peer can crash the client", "statement": "Whatever messages a peer sends, the goroutine that serves it does not panic (a panic in any goroutine ends the whole program).", "quantifier": "all message sequences, all schedules of Run", "why_tests_cant": "needs the rare frames (short have/request/piece, piece index out of range) at every point of the protocol", "anchors": ["pkg/peer/peer.go: Run, unchoke, handlePeerMessage, handlePieceMessage", "pkg/util/peer_message.go: NewPeerMessage, Index", "pkg/torrent/torrent.go: CheckPiece"]}
{"id": "C75", "title": "Memory reserved for a peer is bounded by what it sent", "statement": "The buffers made to read a message, and the set of pieces kept for a peer, are never larger than a constant plus what the peer has sent.", "quantifier": "all byte streams, all messages", "why_tests_cant": "allocation sizes are invisible to functional tests", "anchors": ["pkg/gotitnet/connection.go: ReadPeerMessage, readExactly", "pkg/peer/peer.go: handlePeerMessage"]}
{"id": "C76", "title": "Only verified bytes reach the disk", "statement": "At any time of a download, with any number of peers, each byte of the torrent's files is zero or was sent by a peer for that position in a block whose SHA-1 the metainfo lists for the piece it names; no other file is changed.", "quantifier": "all schedules of peers and writer, all messages of all peers", "why_tests_cant": "composition of the peer goroutines, the channel and the writer over unbounded message histories", "anchors": ["pkg/peer/peer.go: Run, handlePieceMessage", "pkg/torrent/torrent.go: WritePiece, writePieceData, CheckPiece", "pkg/download/manager.go: Download"]}
{"id": "C77", "title": "No piece is given to two peers in a download", "statement": "Over a whole download, whatever the peers do, Next hands out each piece at most once, and only pieces of the torrent.", "quantifier": "all schedules, any number of peers", "why_tests_cant": "the race is between goroutines and between Next and the retry queue", "anchors": ["pkg/torrent/torrent.go: Next", "pkg/peer/peer.go: nextRequestMessage, Run"]}
{"id": "C78", "title": "A download from peers that follow the protocol completes", "statement": "If the remote peers follow the protocol (send blocks that were asked for) and together hold all pieces, the download can reach the state where all pieces are written.", "quantifier": "all torrents, any number of peers, all schedules", "why_tests_cant": "a statement about the absence of any successful execution", "anchors": ["pkg/peer/peer.go: Run, unchoke, nextRequestMessage, newPeerStatus", "pkg/torrent/torrent.go: WritePiece, Done"]}
{"id": "C79", "title": "When the torrent counts as done, the files hold the content", "statement": "Whenever Done reports true in a download, the concatenated files are the content whose piece hashes the metainfo lists.", "quantifier": "all torrents, all schedules, all messages of all peers", "why_tests_cant": "needs verified blocks with unusual offsets, at the last piece", "anchors": ["pkg/torrent/torrent.go: WritePiece, SetDownloaded, Done", "pkg/peer/peer.go: handlePieceMessage"]}
{"id": "C80", "title": "Every element has one encoding, with sorted keys", "statement": "Encode of an element always gives the same text, whatever order the map iteration has, and the keys of dictionaries in it are in increasing byte order.", "quantifier": "all elements, all iteration orders", "why_tests_cant": "the iteration order is random; a test sees one order", "anchors": ["pkg/bencode/elements.go: DictElement.Encode"]}
{"id": "C81", "title": "A generated dictionary is not changed by later calls of Add", "statement": "The element Generate returns is encoded as the dictionary of the entries added before the call, also after further calls of Add on the builder.", "quantifier": "all builders, all sequences of Add, all values (also nested builders)", "why_tests_cant": "sharing of the map is invisible unless a builder is used again", "anchors": ["pkg/bencode/elements.go: Add, Generate, NewDictBuilder"]}
{"id": "C82", "title": "Encode returns", "statement": "Encode returns for every element that can be built.", "quantifier": "all heaps of maps, all elements", "why_tests_cant": "non-termination for self-containing values", "anchors": ["pkg/bencode/elements.go: Encode, Add, Generate"]}
{"id": "C83", "title": "No data races", "statement": "Any two accesses of one shared variable by two goroutines, one of them a write, are ordered by the happens-before relation of the Go memory model.", "quantifier": "all sets of trackers, all numbers of peers, all interleavings, all pairs of accesses", "why_tests_cant": "the race detector only sees the interleavings that occur", "anchors": ["pkg/download/manager.go: Download, runTracker, initPeers, startPeerDownload, Stop, AddPeer", "pkg/peer/peer.go: connect, Announce, Run, Close", "pkg/torrent/torrent.go: Next, Done, SetDownloaded, WritePiece", "pkg/torrent/pieces_queue.go: RequestFailed, FailedPieceMessage"]}
{"id": "C84", "title": "Mutexes never deadlock", "statement": "No goroutine locks a mutex, sends, receives or waits while it holds a mutex; whoever waits for a mutex waits for a goroutine that can release it by its own steps.", "quantifier": "all sets of trackers, all numbers of peers, all interleavings", "why_tests_cant": "a deadlock needs a particular interleaving of particular goroutines", "anchors": ["pkg/download/manager.go: Stop, AddPeer", "pkg/torrent/torrent.go: Next, Done, SetDownloaded, WritePiece", "pkg/torrent/pieces_queue.go: RequestFailed, FailedPieceMessage"]}
{"id": "C85", "title": "Exactly the peers that introduce themselves with the torrent's hash are talked to", "statement": "startPeerDownload starts Run if and only if, nothing having been cancelled, one of at most five attempts establishes a connection, sends the handshake and receives, however cut into segments, a handshake with the torrent's hash; Run then reads exactly what follows that handshake on that connection, and the only thing written before is our handshake.", "quantifier": "all network behaviours in every attempt, all segmentations, all cancellation points", "why_tests_cant": "segment boundaries, failures and cancellations combine in unboundedly many ways over the attempts", "anchors": ["pkg/peer/peer.go: connect, Announce, createHandshake", "pkg/download/manager.go: startPeerDownload", "pkg/gotitnet/connection.go: NewTimeoutConn, ReadPeerHandshake"]}
{"id": "C86", "title": "No connection of a peer stays open after the peer was closed", "statement": "After Stop has closed a peer, every connection that was established to it is closed.", "quantifier": "all network behaviours in every attempt", "why_tests_cant": "needs failures after a successful dial in several attempts", "anchors": ["pkg/peer/peer.go: connect, Close", "pkg/download/manager.go: startPeerDownload, Stop"]}
{"id": "C87", "title": "The figures announced to a tracker fit together", "statement": "In every announce, downloaded plus left is the size of the torrent (as long as no more bytes were counted than the torrent has), and uploaded is 0.", "quantifier": "all interleavings of the writer's and the announcing goroutine's atomic operations", "why_tests_cant": "needs a block to be counted exactly between two loads", "anchors": ["pkg/download/manager.go: announceToTracker", "pkg/stats/stats.go: AddDownload, Download, Left", "pkg/torrent/torrent.go: WritePiece"]}
{"id": "C88", "title": "Which tracker URLs are used", "statement": "tracker.New returns an HTTP tracker for exactly the URLs whose scheme is http or https in any letter case (and whose rest is parsable), with the address exactly as given; a UDP tracker, connected to the URL's host, for exactly the udp URLs whose host can be dialled; an error for every other string.", "quantifier": "all byte strings", "why_tests_cant": "unboundedly many strings: schemes with digits, signs, upper case, fragments, control characters", "anchors": ["pkg/tracker/tracker.go: New", "pkg/tracker/udp_tracker.go: newUdpTracker", "pkg/tracker/http_tracker.go: newHttpTracker"]}
{"id": "C89", "title": "Unmarshal of the same document gives the same result", "statement": "What Unmarshal stores in its target and how it ends depend only on the document and the previous content of the target, not on the order in which Go happens to iterate over maps.", "quantifier": "all documents, target types, previous contents and iteration orders at every level", "why_tests_cant": "Go randomises map iteration; a test that passes once can fail on the next run, and only documents with dictionaries where strings are expected show it", "anchors": ["pkg/bencode/tag_parser.go: Unmarshal, processTarget, setField", "pkg/bencode/elements.go: prettyPrint, String"]}
{"id": "C90", "title": "What makes Run end", "statement": "Run ends only when it finds the context cancelled or the torrent done, or when a keep-alive message cannot be sent (or by a crash); failed reads, failed requests and failed interested messages never end it. After a failed keep-alive nothing more is sent or read.", "quantifier": "all executions, all peers, all torrents", "why_tests_cant": "every combination of failures at every point of the loop", "anchors": ["pkg/peer/peer.go: Run, unchoke, wait, checkKeepAlive"]}
{"id": "C91", "title": "A peer is only asked for pieces it announced", "statement": "In every download, a request sent to a peer is for a piece which that peer has announced (by a bitfield, a have message or a verified block) before the request.", "quantifier": "all torrents, all numbers of peers, all schedules, everything the peers may send", "why_tests_cant": "depends on what each peer sent, on what other peers put into the shared retry queue, and on the order of all of that", "anchors": ["pkg/peer/peer.go: nextRequestMessage, createPieceMessage, handlePeerMessage", "pkg/torrent/torrent.go: Next", "pkg/torrent/pieces_queue.go: RequestFailed, FailedPieceMessage"]}
{"id": "C92", "title": "Re-encoding a parsed document gives back its text", "statement": "Encode of the element returned by Parse is the part of the document that Parse read.", "quantifier": "all documents that Parse accepts, all orders in which Go may iterate over maps", "why_tests_cant": "Whether the text comes back depends on how every number in it is written, on repeated keys and on the iteration order of every map; the infinite set of texts for which it holds has to be described by a grammar.", "anchors": ["pkg/bencode/parse.go: number, list, dict", "pkg/bencode/elements.go: Encode"]}
{"id": "C93", "title": "Integer fields are only filled from integers", "statement": "If Unmarshal stores a number in an integer field, the document has an integer there.", "quantifier": "all integer types of Go, all elements, all previous contents", "why_tests_cant": "the texts strconv accepts with base 0 form an infinite language (bases, signs, underscores)", "anchors": ["pkg/bencode/tag_parser.go: setField, the integer cases"]}
{"id": "C94", "title": "Unmarshal stores exactly what the document says", "statement": "Unmarshal into a struct succeeds, leaving certain contents, exactly if the document begins with an element from which these contents result field by field: numbers in range, strings as they are, lists element by element in order, dictionaries entry by entry, structs recursively, existing pointers filled in place, nil pointers allocated, absent optional and unexported or untagged fields kept.", "quantifier": "all struct types built from strings, integers, slices, maps, pointers and structs, all previous contents, all documents", "why_tests_cant": "quantifies over all target types and all documents, nested to any depth", "anchors": ["pkg/bencode/tag_parser.go: Unmarshal, processTarget, setField"]}
{"id": "C95", "title": "Printed values are indented by their depth", "statement": "String() puts every element of a list or dictionary on lines of its own, indented by one tab for each list or dictionary around it, with the closing bracket under the line that opened it.", "quantifier": "all values and all documents", "why_tests_cant": "nesting is unbounded and the layout depends on whether each nested element was parsed or built", "anchors": ["pkg/bencode/elements.go: prettyPrint, addTab, newLine"]}
{"id": "C96", "title": "Other peers can download from this client", "statement": "A peer that is interested in pieces the client has stored is told about them, is unchoked, and gets the blocks it asks for.", "quantifier": "all downloads: any number of peers, all frames they send, all interleavings and failures", "why_tests_cant": "that something is never sent, whatever the peers say and however the goroutines interleave, is a statement about all executions", "anchors": ["pkg/peer/peer.go: Run, handlePeerMessage, SendUnchoke", "pkg/download/manager.go: startPeerDownload"]}
{"id": "C97", "title": "Starting a download destroys nothing that is already on the disk", "statement": "Opening a torrent leaves every existing file as it is; a download that was finished or interrupted before is continued.", "quantifier": "all metadata, download directories, disk contents and answers of the operating system", "why_tests_cant": "what is lost depends on what was on the disk, on the paths in the torrent file and on which of the files can be created", "anchors": ["pkg/torrent/torrent.go: New, initDownloadDir"]}
{"id": "C98", "title": "A lost peer is tried again when a tracker names it again", "statement": "An address to which no connection could be made, or whose connection has ended, is tried again when a tracker names it in a later announce.", "quantifier": "all downloads: any number of trackers and peers, all interleavings", "why_tests_cant": "that something never happens again is a statement about all continuations of all executions", "anchors": ["pkg/download/manager.go: AddPeer, initPeers, startPeerDownload"]}
{"id": "C99", "title": "The number of peers shown is the number of connected peers", "statement": "At any time PeerNum, the number of peers in the progress display, is the number of peers whose Run is active.", "quantifier": "all downloads: any number of trackers and peers, all interleavings", "why_tests_cant": "depends on every order of connects, failures and disconnects", "anchors": ["pkg/download/manager.go: AddPeer, startPeerDownload", "pkg/stats/stats.go: AddPeer, RemovePeer, PeerNum"]}
{"id": "C100", "title": "Trackers are told when the download starts, and only then", "statement": "Of the announces to a tracker, the first says event started; the regular ones that follow do not.", "quantifier": "all trackers, replies, failures and retries, any number of announces", "why_tests_cant": "a statement about every request of a run of unbounded length", "anchors": ["pkg/tracker/http_tracker.go: newHttpTracker, buildQuery, Announce", "pkg/tracker/udp_tracker.go: createAnnounce", "pkg/download/manager.go: runTracker"]}
{"id": "C101", "title": "Sizes are shown to the nearest tenth of their unit", "statement": "A number of bytes in the progress line is shown in the largest unit not larger than it, rounded to the nearest tenth, and a larger number is never shown as a smaller one.", "quantifier": "all 64-bit numbers of bytes", "why_tests_cant": "2^64 values; the corner cases sit at unit boundaries, ties and beyond 2^53", "anchors": ["pkg/stats/progress_printer.go:25-37: Print", "pkg/bencode/tag_parser.go: TorrentFile.String, Metainfo.String (bytefmt.ByteSize)"]}
{"id": "C102", "title": "The speed shown is the average speed", "statement": "The speed in the progress line is the number of bytes received divided by the time since the start, in MB/s of 2^20 bytes, rounded to the nearest tenth.", "quantifier": "all byte counts and all positive durations", "why_tests_cant": "a statement about every pair of numbers, through five float64 roundings", "anchors": ["pkg/stats/stats.go:55-58: Speed", "pkg/stats/progress_printer.go:25-37: Print"]}
{"id": "C103", "title": "The number of trackers shown is the number of trackers in use", "statement": "The progress line shows how many trackers are being used, beside the right sizes, speed and number of peers.", "quantifier": "all reachable states of a download and all histories of the counters", "why_tests_cant": "a statement about all interleavings of all goroutines that change counters", "anchors": ["pkg/stats/progress_printer.go:25-37: Print", "pkg/stats/stats.go:72-82: AddTracker, RemoveTracker, TrackerNum", "pkg/download/manager.go: no call of AddTracker"]}
{"id": "C104", "title": "The description of a torrent tells what it is", "statement": "From the text of a Metainfo its name, comment, tracker, total size and date can be read back: no field can imitate another, the size is that of the content, and a date is shown only if there is one.", "quantifier": "all metainfo values, all hash functions, all time zones", "why_tests_cant": "a statement about every combination of texts, including ones that contain line breaks", "anchors": ["pkg/bencode/tag_parser.go:194-241: TorrentFile.String, Metainfo.String", "pkg/bencode/tag_parser.go:243-279: printValue", "pkg/bencode/tag_parser.go:281-285: Hash"]}
{"id": "C105", "title": "The command bencode prints the torrent", "statement": "For a file that can be read as a torrent the command bencode prints its description.", "quantifier": "all files", "why_tests_cant": "a statement about every file; what is missing is any output at all", "anchors": ["pkg/cmd/bencode.go:25-47: run"]}
{"id": "C106", "title": "A download that cannot start says why", "statement": "If the download command ends with an error before the download begins, the reason is shown to the user.", "quantifier": "all errors", "why_tests_cant": "a statement about every way to fail", "anchors": ["pkg/cmd/app.go:112-118: NewCmdRun", "pkg/cmd/download.go:49-84: runDownload", "pkg/printer/printer.go:47-50: Fatal"]}
{"id": "C107", "title": "Verified data cannot crash the writer", "statement": "Whatever torrent was opened and whatever its peers send, the goroutine that writes pieces never panics; a panic there would end the program.", "quantifier": "all torrents New accepts, all downloads (any number of peers, any messages, any interleaving)", "why_tests_cant": "the crash needs a torrent with a file of negative length or with pieces so long that a position exceeds 63 bits, and a peer that sends the right piece", "anchors": ["pkg/torrent/torrent.go:177-195: WritePiece", "pkg/torrent/torrent.go:199-245: writePieceData"]}
{"id": "C108", "title": "A connection is never silent for two minutes", "statement": "While Run goes on and the messages it writes go through, it never lets more than two minutes (the time after which BEP 3 lets a peer take the connection for dead) pass between one message and the next.", "quantifier": "all peers, all torrents, all timings of the network, the scheduler and the writer within stated limits, all executions of Run", "why_tests_cant": "a silence of two minutes needs a particular sequence of slow operations; tests run for seconds and replace the clock", "anchors": ["pkg/peer/peer.go:309-319: checkKeepAlive", "pkg/peer/peer.go:212-282: Run", "pkg/peer/peer.go:165-200: unchoke", "pkg/gotitnet/connection.go:14: PeerTimeout"]}
{"id": "C109", "title": "A dead connection is given up", "statement": "Once nothing gets through a connection any more, neither written nor read, Run ends within a bounded time, so that the place among the peers is free again.", "quantifier": "all peers, all torrents, all timings within stated limits, all executions of Run", "why_tests_cant": "a connection that dies at a particular point, observed for minutes", "anchors": ["pkg/peer/peer.go:165-200: unchoke", "pkg/peer/peer.go:212-282: Run", "pkg/peer/peer.go:309-319: checkKeepAlive"]}
{"id": "C110", "title": "A failing peer is not retried in a tight loop", "statement": "After a message could not be sent to a peer or none could be read, Run neither sends nor reads anything on this connection for at least a tenth of a second.", "quantifier": "all states of Run, all executions from there, all timings", "why_tests_cant": "a busy loop shows only with a connection that fails at once, and costs processor time rather than a wrong result", "anchors": ["pkg/peer/peer.go:156-163: newDefaultBackoff", "pkg/peer/peer.go:172-192: the waits of unchoke", "pkg/peer/peer.go:250-275: the waits of Run"]}
{"id": "C111", "title": "A piece whose writing failed does not count as downloaded", "statement": "Whatever writes to the disk fail, at whatever byte, the bit of a piece becomes set only in a step after which every byte of a verified block that ends where the piece ends is in the files; if moreover peers send whole pieces and none of them has other bytes with the hash of a piece, every piece whose bit is set is in the files at all times.", "quantifier": "all metainfos that New opens, all peers, all schedules, all failures of all writes", "why_tests_cant": "write errors are hard to provoke, and there are failures at every byte of every write", "anchors": ["pkg/torrent/torrent.go:176-195: WritePiece", "pkg/torrent/torrent.go:199-245: writePieceData", "pkg/torrent/torrent.go: SetDownloaded"]}
{"id": "C112", "title": "Only bytes that were stored are counted as downloaded", "statement": "The number of bytes reported as downloaded (to trackers as downloaded and left, and by the progress bar) is at most the number of bytes written to the files.", "quantifier": "all metainfos that New opens, all peers, all schedules, all failures of all writes", "why_tests_cant": "write errors are hard to provoke", "anchors": ["pkg/torrent/torrent.go:176-190: stats.AddDownload before writePieceData", "pkg/stats/stats.go: AddDownload, Left"]}
{"id": "C113", "title": "New accepts only metainfos with one hash per piece", "statement": "If New opens a metainfo, its string of hashes has exactly one hash of 20 bytes for each piece of its content.", "quantifier": "all metainfos, file systems; all executions of the download that follows", "why_tests_cant": "tests use well-formed torrent files", "anchors": ["pkg/torrent/torrent.go: New", "pkg/torrent/torrent.go: EmptyBitset, CheckPiece, Next"]}
{"id": "C114", "title": "No file becomes longer than the metainfo says", "statement": "In every reachable state of a download every file is at most as long as the metainfo says.", "quantifier": "all metainfos that New opens, all peers, all schedules, all failures of writes", "why_tests_cant": "needs a peer that sends a right piece with a wrong offset", "anchors": ["pkg/torrent/torrent.go:176-195: WritePiece", "pkg/torrent/torrent.go:199-245: writePieceData"]}
{"id": "C115", "title": "A connect request to a UDP tracker that is answered in time succeeds", "statement": "If the tracker answers a connect request in time, the connection is made, also if an answer to an earlier request came late.", "quantifier": "all transaction ids, all numbers of attempts", "why_tests_cant": "needs one late datagram; nothing in the tests delays answers", "anchors": ["pkg/tracker/udp_tracker.go:92-114: handshake", "pkg/gotitnet/connection.go:97-104: ReadUdpHandshake"]}
{"id": "C116", "title": "A read ends by its deadline however the bytes arrive", "statement": "Reading a message or a handshake of a peer takes at most one second, and reading from a UDP tracker at most half a second, also if bytes keep arriving one at a time.", "quantifier": "all sequences of arrivals with all times", "why_tests_cant": "there are arbitrarily many schedules of arrivals", "anchors": ["pkg/gotitnet/connection.go:42-63: ReadPeerMessage", "pkg/gotitnet/connection.go:67-104: ReadPeerHandshake, ReadAll, ReadUdpHandshake", "pkg/gotitnet/connection.go:118-120: setReadDeadline"]}
{"id": "C117", "title": "A message is received however slowly its bytes come", "statement": "If a peer keeps sending, without a pause longer than the timeout, a message it sends is received.", "quantifier": "all messages, all schedules of arrivals", "why_tests_cant": "tests run over fast local connections", "anchors": ["pkg/gotitnet/connection.go:42-63: ReadPeerMessage", "pkg/gotitnet/connection.go:118-120: setReadDeadline"]}
{"id": "C118", "title": "The peers of a response are contacted promptly", "statement": "The time from a tracker's response until a peer named in it is contacted has a bound that does not depend on the other peers.", "quantifier": "all responses, all behaviours of the peers within the timeouts", "why_tests_cant": "needs many unreachable peers and minutes of waiting", "anchors": ["pkg/download/manager.go:109-117: initPeers", "pkg/download/manager.go:148-179: startPeerDownload", "pkg/peer/peer.go:122-154: connect, Announce", "pkg/gotitnet/connection.go:13-17: timeouts"]}
{"id": "C119", "title": "A tracker is not asked more often than it wants", "statement": "After any reply of a tracker that contains an interval the next request to it comes no earlier than that interval.", "quantifier": "all sequences of replies, all delays", "why_tests_cant": "needs minutes of waiting and a tracker that counts requests", "anchors": ["pkg/tracker/http_tracker.go:114-137: readPeers", "pkg/download/manager.go:80-107: runTracker", "pkg/download/manager.go:119-146: announceToTracker"]}
{"id": "C120", "title": "IPv6 peers of a response are used", "statement": "An announce whose response names an IPv6 peer under the key peers6 (BEP 7) succeeds, and that peer is among the peers found.", "quantifier": "all responses, all tracker states", "why_tests_cant": "the effect is a peer that is silently missing", "anchors": ["pkg/tracker/http_tracker.go:114-137: readPeers"]}
{"id": "C121", "title": "The id a tracker sets is sent back", "statement": "If the reply of a tracker contains a tracker id (BEP 3), the next request to that tracker carries this id.", "quantifier": "all replies, all tracker ids, all announce data", "why_tests_cant": "needs a tracker that sets ids and compares the following requests", "anchors": ["pkg/tracker/http_tracker.go:42-55: newHttpTracker", "pkg/tracker/http_tracker.go:98-112: buildQuery", "pkg/tracker/http_tracker.go:114-137: readPeers"]}
{"id": "C122", "title": "The minimum interval of a tracker is respected", "statement": "After a reply with the key min interval the next request to the tracker comes no earlier than so many seconds later.", "quantifier": "all replies with which the announce succeeds, all times", "why_tests_cant": "needs minutes of waiting and a tracker that sends both keys", "anchors": ["pkg/tracker/http_tracker.go:114-137: readPeers", "pkg/download/manager.go:80-107: runTracker"]}
{"id": "C123", "title": "An interrupt ends the program", "statement": "Wherever SIGINT or SIGTERM arrives, the program gets to its end afterwards without needing anything from whoever provides the torrent file.", "quantifier": "both commands, all surroundings, all states, all interleavings", "why_tests_cant": "needs signals at particular moments and inputs that stall", "anchors": ["pkg/cmd/app.go:38-60: NewApp", "pkg/cmd/app.go:95-118: NewCmdRun, NotifyContext", "pkg/cmd/download.go:49-84: runDownload", "pkg/cmd/bencode.go:25-47: run", "pkg/download/manager.go:54-68: Download"]}
{"id": "C124", "title": "The exit status tells whether the download is complete", "statement": "When the command download ends with status 0, everything has been written.", "quantifier": "all torrents that can be opened, all executions", "why_tests_cant": "the download never ends by itself, so tests interrupt it", "anchors": ["pkg/cmd/download.go:49-84: runDownload", "pkg/download/manager.go:54-68: Download returns nil", "pkg/cmd/app.go:112-118: the command"]}
{"id": "C125", "title": "The parser's stack is bounded", "statement": "There is a depth of nested calls that is enough for Parse on every input, so that no input exhausts the goroutine's stack (which would kill the program beyond recovery).", "quantifier": "all inputs, all stack sizes", "why_tests_cant": "the stack limit is 1 GB, the inputs in question have millions of nested lists", "anchors": ["pkg/bencode/parse.go:40-52: Next", "pkg/bencode/parse.go:142-163: readList", "pkg/bencode/parse.go:165-190: readDict"]}
{"id": "C126", "title": "Only trackers are announced to", "statement": "Announces go only to URLs named as trackers (announce, announce-list); the servers in url-list, which hold the content, are not announced to.", "quantifier": "all metainfo contents, all URL syntaxes", "why_tests_cant": "all lists of URLs", "anchors": ["pkg/torrent/torrent.go:76-87: New, the tracker set", "pkg/download/manager.go:70-84: getIps, runTracker", "pkg/tracker/tracker.go:28-42: New"]}
{"id": "C127", "title": "Tiers of announce-list", "statement": "Trackers of a later tier are used only after those of the earlier tiers have been tried, and announce is not used when there is an announce-list (BEP 12).", "quantifier": "all metainfo contents, all interleavings", "why_tests_cant": "depends on scheduling and map order", "anchors": ["pkg/torrent/torrent.go:76-87: New, the tracker set", "pkg/download/manager.go:70-78: getIps"]}
{"id": "C128", "title": "The client acts on the messages a peer sent", "statement": "On a connection, the messages Run acts on are, in order, the messages the remote peer put on the stream after its handshake; nothing else is taken for a message.", "quantifier": "all byte streams, all cuts into segments, all deadlines and errors, all executions of Run", "why_tests_cant": "all streams, cuts and timings", "anchors": ["pkg/peer/peer.go:165-200: unchoke", "pkg/peer/peer.go:212-282: Run", "pkg/gotitnet/connection.go:42-63: ReadPeerMessage", "pkg/gotitnet/connection.go:110-116: readExactly"]}
{"id": "C129", "title": "The text of a piece identifies it", "statement": "The text of a piece (Piece.String) shows its index and its hash so that both can be read back; different pieces have different texts.", "quantifier": "all indices, all hashes", "why_tests_cant": "all byte strings as hashes", "anchors": ["pkg/torrent/piece.go:26-32: Index, String", "pkg/torrent/piece.go:34-49: NewPieces"]}
{"id": "C130", "title": "The string set", "statement": "In any sequence of calls of Add, AddAll and Contains on a new set, Contains says whether the string has been put in, and Add says whether it was new.", "quantifier": "all sequences of calls, all strings", "why_tests_cant": "all sequences of calls", "anchors": ["pkg/util/set.go:5-27: NewStringSet, Add, AddAll, Contains"]}
{"id": "C131", "title": "Closing a torrent", "statement": "Torrent.Close closes every file of the torrent, also when closing another one fails, and reports the errors of exactly the files that could not be closed.", "quantifier": "all torrents, all files that fail", "why_tests_cant": "failing Close calls cannot be provoked", "anchors": ["pkg/torrent/torrent.go:251-258: Close"]}
{"id": "C132", "title": "A failed request is not lost with the peers of its response", "statement": "If a request for a piece fails, some peer that is still there, or comes later, can be asked for the piece.", "quantifier": "all torrents, all numbers of peers, all schedules, all remote peers", "why_tests_cant": "needs several tracker responses and connections that break at chosen points; all later schedules", "anchors": ["pkg/download/manager.go:109-117: initPeers makes one PiecesQueue per response", "pkg/torrent/pieces_queue.go: PiecesQueue", "pkg/peer/peer.go:250-251, 268-271: RequestFailed", "pkg/peer/peer.go:284-303: nextRequestMessage", "pkg/torrent/torrent.go: Next marks a piece as requested for good"]}
{"id": "C133", "title": "Answers of UDP trackers are taken for what they are", "statement": "A connect request succeeds only on a connect answer, an announce only on an announce answer, each with the transaction id of the request.", "quantifier": "all tracker states, all answers, all transaction ids", "why_tests_cant": "needs every answer of a tracker, with each of the two requests; hand-written servers answer as expected", "anchors": ["pkg/tracker/udp_tracker.go:72-114: Announce, handshake", "pkg/tracker/udp_tracker.go:116-132: parseTrackerResponse", "pkg/tracker/udp_tracker.go:152-190: readConnect, readAnnounce"]}
{"id": "C134", "title": "An announce ends within a bounded time", "statement": "An announce to a tracker, with all its attempts, is over within a bounded time, whatever the tracker sends and when.", "quantifier": "all tracker answers, all arrival times, all durations of writes", "why_tests_cant": "needs trackers that answer arbitrarily late or never stop answering; tests cannot wait for ever", "anchors": ["pkg/tracker/udp_tracker.go:72-114: Announce, handshake", "pkg/tracker/http_tracker.go:63-96: Announce", "pkg/tracker/tracker.go:38: http.DefaultClient", "pkg/download/manager.go:119-146: announceToTracker", "pkg/gotitnet/connection.go:81-124: deadlines"]}
{"id": "C135", "title": "Interest is shown when there is something to get, and only then", "statement": "The other side of a connection is told that the client is interested if and only if it has said that it has a piece.", "quantifier": "all torrents, all remote peers, all schedules", "why_tests_cant": "needs every order of messages on a connection, including peers that have nothing", "anchors": ["pkg/peer/peer.go:165-200: unchoke", "pkg/peer/peer.go:388-391: SendInterested", "pkg/peer/peer.go:232-237: Run"]}
{"id": "C136", "title": "Everything stored comes from a peer a tracker of the torrent named", "statement": "At every moment of a download each byte of the torrent's files is zero or comes from a block that was sent, in a piece message whose block has the SHA-1 the metainfo lists for its piece, over a connection to an address that a tracker of the metainfo had named, by somebody who had introduced itself with the torrent's hash. No other file is touched.", "quantifier": "all metainfos with sensible lengths, all tracker replies, all bytes on all connections, all disk faults, all schedules of all goroutines of the program", "why_tests_cant": "needs every behaviour of trackers, peers, disk and scheduler together; tests run one download against one peer", "anchors": ["pkg/download/manager.go:54-68: Download", "pkg/download/manager.go:70-117: getIps, initPeers", "pkg/download/manager.go:148-178: startPeerDownload", "pkg/peer/peer.go:133-154: Announce", "pkg/peer/peer.go:212-282: Run", "pkg/tracker/http_tracker.go:63-147: Announce, readPeers", "pkg/torrent/torrent.go:176-193: WritePiece"]}
{"id": "C137", "title": "The program never crashes", "statement": "Whatever trackers, peers, disk, interrupts and scheduler do, no goroutine of a download panics.", "quantifier": "all tracker replies, all bytes on all connections, all disk faults, all interrupts, all schedules of all goroutines of the program", "why_tests_cant": "needs every interleaving of the goroutines with every behaviour of the outside; the crashes need particular schedules or messages", "anchors": ["pkg/download/manager.go:54-68, 195-213: Download, Stop, Wait", "pkg/download/manager.go:107-117: initPeers", "pkg/download/manager.go:148-178: startPeerDownload", "pkg/peer/peer.go:212-282: Run", "pkg/peer/peer.go:304-306: Close", "pkg/torrent/torrent.go:176-193: WritePiece"]}
{"id": "C138", "title": "Peers of a dictionary-form response are contacted at the address given", "statement": "A tracker's response may list each peer's ip as a dotted quad, as an IPv6 address or as a host name (BEP 3); the client connects to the peers so listed.", "quantifier": "all responses, all texts of addresses (all forms of RFC 4291 with zones), all host names, all executions", "why_tests_cant": "the texts an address can have are unboundedly many (zeros left out, double colons, upper and lower case, dotted tails, zones); trackers in tests list plain IPv4", "anchors": ["pkg/tracker/http_tracker.go:139-173: parseBencodePeers (netip.ParseAddr)", "pkg/peer/peer.go:122-131: connect (AddrPort.String)"]}
{"id": "C139", "title": "At most one connection per endpoint", "statement": "Two connections at the same time never lead to the same remote endpoint, however trackers write its address.", "quantifier": "all tracker replies, all schedules, all pairs of running peers", "why_tests_cant": "needs every pair of texts of addresses and all interleavings of the trackers' goroutines; the duplicate needs an IPv4-mapped address", "anchors": ["pkg/download/manager.go:109-117: initPeers", "pkg/download/manager.go:216-227: AddPeer (key AddrPort.String)", "pkg/peer/peer.go:122-131: connect (AddrPort.String)"]}
{"id": "C140", "title": "Sets of pieces are kept exactly", "statement": "After any sequence of calls on a set of pieces, new or made from the words of a bitfield, Test says exactly whether a piece was set, NextClear finds the least piece from a number on that was not, and All says exactly whether all were; words, shifts and growth of the slice never show.", "quantifier": "all sizes, all words, all sequences of calls with all arguments", "why_tests_cant": "the algorithms work on 64-bit words with shifts and complements; errors show only for particular bit patterns, sizes that are not multiples of 64 and particular orders of growth", "anchors": ["pkg/torrent/torrent.go:101-139: SetDownloaded, Next, Done (bitset calls)", "pkg/torrent/torrent.go:260-262: EmptyBitset", "pkg/peer/peer.go:338, 401: Bitset.Set", "pkg/util/peer_message.go:125-134: createBitset (bitset.From)"]}
{"id": "C141", "title": "Trackers are announced to until the download is cancelled", "statement": "The loop of runTracker for a tracker whose URL was accepted ends only after the context was cancelled. As long as it is not, and the calls the goroutine makes return, the tracker is announced to infinitely often: failed announces, answers without peers and peers that cannot be reached never end the loop.", "quantifier": "for all reachable states and all endless executions of the manager, all trackers, whatever trackers, peers and the other goroutines do", "why_tests_cant": "A test observes a few rounds with a few answers; it cannot show that no later answer or interleaving ends the loop.", "anchors": ["pkg/download/manager.go:80-107 (runTracker)", "pkg/download/manager.go:109-117 (initPeers)", "pkg/download/manager.go:119-146 (announceToTracker)"]}
{"id": "C142", "title": "Misbehaving peers cannot make a download impossible to complete", "statement": "From every state of a download that has neither crashed nor been cancelled, whatever the peers have sent so far and whatever writes have failed, one further peer that sends the pieces is enough for the torrent to count as done.", "quantifier": "for all torrents, all reachable states with any number of peers, all messages of the peers and all faults of the disk", "why_tests_cant": "A statement about all histories, including hostile ones, and about the existence of a good continuation of each.", "anchors": ["pkg/torrent/torrent.go:113-118 (SetDownloaded)", "pkg/torrent/torrent.go:136-140 (Done)", "pkg/torrent/torrent.go:176-195 (WritePiece)", "pkg/torrent/torrent.go:197-245 (writePieceData)", "pkg/peer/peer.go: Run, unchoke"]}
{"id": "C143", "title": "What is opened is closed", "statement": "Every file, tracker socket and response body that is opened is closed when the program is done with it: the torrent file after it was read, the files of a download when opening them fails or the download ends, the socket of a UDP tracker when its goroutine ends, the body of a response when the announce ends, however it ends.", "quantifier": "for all torrent files, all results of the file system calls, all tracker URLs, all replies of trackers (status, body, errors while reading)", "why_tests_cant": "Needs every error at every call, among them failures of os.Create in the middle of a list of files; leaks do not show in results.", "anchors": ["pkg/tracker/http_tracker.go:63-96 (Announce)", "pkg/torrent/torrent.go:142-166 (initDownloadDir)", "pkg/torrent/torrent.go:251-258 (Close)", "pkg/cmd/download.go:49-84 (runDownload)", "pkg/tracker/udp_tracker.go:49-70 (newUdpTracker, Close)"]}
{"id": "C144", "title": "Whatever is published can be downloaded", "statement": "For every file and every directory of files, the torrent file made from it as BEP 3 tells is opened by the program, and there is a run of the program with one tracker and one peer that sends what the torrent file describes at whose end, after an interrupt, Download and Stop have returned and the file, or every file of the directory, is in the download directory at its path with exactly its bytes.", "quantifier": "for all contents up to 2 PiB, all names, all directories of any number of files, all piece lengths below 4 GiB, all tracker URLs, all results of the hash function, all states of the disk before", "why_tests_cant": "Joins encoder, parser, New, announce, handshake, Run, writer and Stop for all contents and all divisions into files and pieces; tests publish a few.", "anchors": ["pkg/cmd/download.go:49-84 (runDownload)", "pkg/bencode/tag_parser.go:202-260 (NewMetainfo)", "pkg/torrent/torrent.go:55-245 (New, WritePiece, writePieceData)", "pkg/download/manager.go:50-210", "pkg/peer/peer.go:133-420"]}
{"id": "C145", "title": "Every address is dialled at most five times, and none keeps the others waiting for ever", "statement": "In a whole run of the program, however many trackers name an address however often, at most five attempts are made to reach it, each with at most one connection; an address that was given up without an interrupt had all five; after a successful handshake there is no further attempt. And wherever the goroutine of a tracker is in a response, it can get to the end of the response by its own steps even if no peer of it can be reached, as long as nothing has crashed and Stop is not closing peers.", "quantifier": "for all torrents, tracker replies, peers, results of dialling, interrupts and schedules; all reachable states of the program", "why_tests_cant": "Counts attempts over whole runs with any number of trackers and responses, and says of every state that a response can be gone through; a test follows one run.", "anchors": ["pkg/download/manager.go:109-179 (initPeers, startPeerDownload)", "pkg/download/manager.go:216-227 (AddPeer)", "pkg/peer/peer.go:122-154 (connect, Announce)"]}
{"id": "C146", "title": "What the other side hears is what the client said", "statement": "At any moment of a call of Run, the messages that a peer following BEP 3 takes out of the bytes it got are exactly the messages whose sending succeeded, in order, wherever in a message writes fail.", "quantifier": "for all executions of Run on a new peer and all numbers of bytes that failed writes leave on the connection", "why_tests_cant": "A write that stops inside a message depends on the state of the socket's buffer; where it stops and what is written after it decide what the other side hears. Tests use writers that take everything or nothing.", "anchors": ["pkg/gotitnet/connection.go:72-77 (WriteMsg)", "pkg/util/peer_message.go:83-95 (Send)", "pkg/peer/peer.go:165-200 (unchoke)", "pkg/peer/peer.go:309-319 (checkKeepAlive)"]}
{"id": "C147", "title": "A status line shows one moment of the download", "statement": "The percentage, the bytes downloaded, the bytes left and the speed of every line printed while the program runs belong to the same moment: there is a number of blocks received such that all four are computed from the bytes of these blocks.", "quantifier": "for all executions of the whole program with its display, all torrents, trackers and peers", "why_tests_cant": "The figures are read one after the other, without a lock, by a goroutine of its own; what lies between two reads depends on the scheduler. A test that looks at lines cannot make the writer run between two particular reads.", "anchors": ["pkg/download/manager.go:181-192 (initStatisticsPrinting)", "pkg/torrent/torrent.go:176-195 (WritePiece)", "pkg/stats/stats.go:34-57 (AddDownload, Download, Left, Speed)", "pkg/stats/stats.go:84-90 (PercentCompleted)"]}
{"id": "C148", "title": "No tracker can crash the client", "statement": "Whatever a tracker of the torrent answers to an announce, the program goes on: a reply that cannot be used is an error of this announce.", "quantifier": "for all torrents, all replies (status and body) of HTTP trackers, all datagrams of UDP trackers, in all states of the tracker object and all executions of the whole program", "why_tests_cant": "The replies that matter are those nobody thinks of: a document that is no dictionary, a string length beyond 2^63 deep inside one. Tests use the replies of trackers that work.", "anchors": ["pkg/tracker/http_tracker.go:114-118 (readPeers)", "pkg/bencode/tag_parser.go:44-89 (processTarget)", "pkg/bencode/parse.go:92-140 (number, readString)", "pkg/tracker/udp_tracker.go:112-128 (parseTrackerResponse)", "pkg/download/manager.go:80-107 (runTracker)"]}
{"id": "C149", "title": "After an interrupt the program is over within a bounded time", "statement": "When the context is cancelled (SIGINT, SIGTERM), Download and the Stop after it come to their end within a time that depends only on the timeouts, not on what peers, trackers and the disk do.", "quantifier": "for every number of trackers, every state of the download at the interrupt, every interleaving and timing of the goroutines afterwards", "why_tests_cant": "An interrupt in a test comes at a few moments and with a disk that is fast; the time to the end depends on where each of any number of goroutines is, on peers that are being dialled at that moment, and on how long the writer keeps a peer waiting.", "anchors": ["pkg/download/manager.go:54-68 Download", "pkg/download/manager.go:148-179 startPeerDownload", "pkg/download/manager.go:194-214 Stop, waitPeers", "pkg/peer/peer.go:211-285 Run", "pkg/cmd/app.go:98-99 NotifyContext"]}
{"id": "C150", "title": "Trackers are told the port given on the command line, and only a valid one", "statement": "Whatever is given with --port, if the program announces itself at all, it tells every tracker one port, the one given, between 1 and 65535; anything else is refused at the start.", "quantifier": "for all texts of the flag, torrent sizes, moments of the announce, tracker URLs without query, hashes and ids", "why_tests_cant": "A test gives one sensible port and one tracker; numbers that are no ports, other notations of the number and the place of the field in a UDP datagram are each an unbounded set of inputs.", "anchors": ["pkg/cmd/download.go:43, 80", "pkg/download/manager.go:124-129", "pkg/tracker/http_tracker.go:98-112 (buildQuery)", "pkg/tracker/udp_tracker.go:134-150 (createAnnounce)"]}
{"id": "C151", "title": "What the configuration says takes effect", "statement": "If the program gets to a command, its logger has the level and the format asked for: on the command line, or else in the environment, or else in the configuration file, or else info and color.", "quantifier": "for all machines (files, environment) and command lines", "why_tests_cant": "A test looks at one file with one setting; which of several sources counts, for every combination of files that are missing, unusable or there, is a matter of all combinations.", "anchors": ["pkg/cmd/app.go:43-48", "pkg/cmd/app.go:66-93 (initConfig)", "pkg/cmd/app.go:95-118 (NewCmdRun)"]}
{"id": "C152", "title": "A second interrupt ends the program at once", "statement": "Whoever sends a second SIGINT or SIGTERM because the program has not ended after the first sees the process end.", "quantifier": "for all setups, commands, reachable states of the process and numbers of signals", "why_tests_cant": "Tests send one signal to a program that reacts; the second one matters just where the program is stuck, in states that are hard to bring about and at any moment.", "anchors": ["pkg/cmd/app.go:95-118 (NewCmdRun)", "pkg/cmd/download.go:48-83"]}
{"id": "C153", "title": "A command that fails leaves the disk as it was", "statement": "If bencode or download ends with status 1, no file on the disk has other contents than before the start.", "quantifier": "for all setups, torrent files, contents of the disk and executions of the process up to its end", "why_tests_cant": "Tests start from an empty directory and look at the error; what a failing start does to files that are already there depends on which of the files of a torrent cannot be created.", "anchors": ["pkg/torrent/torrent.go:142-166 (initDownloadDir)", "pkg/cmd/download.go:48-83", "pkg/cmd/app.go:95-118 (NewCmdRun)"]}
