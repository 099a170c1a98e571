#!/usr/bin/env python3
"""Writes /verif/properties.jsonl (one JSON object per line)."""
import json, os
P=[]
def p(title, statement, quantifier, why, anchors):
    P.append(dict(id="C%02d"%(len(P)+1), title=title, statement=statement,
                  quantifier=quantifier, why_tests_cant=why, anchors=anchors))
EL="pkg/bencode/elements.go"; PA="pkg/bencode/parse.go"; TP="pkg/bencode/tag_parser.go"
PM="pkg/util/peer_message.go"; ST="pkg/util/set.go"; PI="pkg/torrent/piece.go"; PQ="pkg/torrent/pieces_queue.go"
TO="pkg/torrent/torrent.go"; PE="pkg/peer/peer.go"; MG="pkg/download/manager.go"; CN="pkg/gotitnet/connection.go"
HT="pkg/tracker/http_tracker.go"; UT="pkg/tracker/udp_tracker.go"; TR="pkg/tracker/tracker.go"; SS="pkg/stats/stats.go"; PB="pkg/stats/progress_bar.go"
LG="pkg/logger/logger.go"; AP="pkg/cmd/app.go"; DL="pkg/cmd/download.go"

# --- bencode ---------------------------------------------------------------
p("Encode then Parse is the identity",
  "For every bencode value built from strings, lists, dictionaries and integers between 0 and 922337203685477580, Parse(v.Encode()) succeeds and returns the same value, whatever order the dictionary entries were emitted in; nil list elements and nil dictionary values are skipped.",
  "all values, any nesting depth and size, all map iteration orders, any bytes following the encoding",
  "the value space is infinite and recursive; tests try a few literals and cannot control Go's random map order",
  [EL+": Encode", PA+": Parse"])
p("Every Go int survives Encode/Parse",
  "For every int n, Parse(Integer(n).Encode()) returns n.",
  "all 2^64 int values",
  "2^64 inputs; the failing ones (negative, or above 922337203685477580) are exactly those no test in the repository tries",
  [EL+": IntElement.Encode", PA+": scanner.number, readInt"])
p("Parse accepts exactly the bencode grammar",
  "Parse(data) succeeds with value v if and only if some prefix of data is a derivation of v in the (lenient) bencode grammar; the prefix and the value are unique.",
  "all byte strings, all values",
  "an if-and-only-if over all byte strings and all derivations",
  [PA+": Parse, Next, readList, readDict, readString, readInt"])
p("Parse never panics",
  "For every byte string Parse returns a value or an error; it never panics.",
  "all byte strings",
  "a single crashing length prefix among infinitely many inputs is enough; the overflowing ones have 18+ digits",
  [PA+": readString, number, read"])
p("Parse terminates on every input",
  "Parse returns on every input; the depth of its calls and the number of its loop iterations on any path are bounded by a linear function of the input length.",
  "all byte strings",
  "non-termination cannot be observed by a finite run; the bound is over all lengths",
  [PA+": readList, readDict, Next"])
p("Raw() is the verbatim source text",
  "For every list or dictionary, at any depth, inside a successfully parsed value, Raw() is a contiguous piece of the input, and parsing Raw() on its own returns that same element.",
  "all byte strings Parse accepts, all nested elements",
  "the info-hash of every torrent in existence depends on it; tests check one or two documents",
  [PA+": readList, readDict", EL+": Raw"])
p("Truncated input is always rejected",
  "If Parse accepts a document and consumes all of it, then for every strict prefix (every possible truncation point) Parse returns an error: it neither accepts nor panics.",
  "all accepted documents, all truncation points",
  "every cut point of every document",
  [PA+": Parse"])
p("Bytes after the first element are irrelevant",
  "If Parse(data) succeeds with v, Parse(data followed by anything) succeeds with the same v.",
  "all accepted inputs, all suffixes",
  "two universally quantified byte strings",
  [PA+": Parse"])
p("Duplicate dictionary keys: the last one wins",
  "For every parsed dictionary, Value(k) is the value of the last occurrence of key k in the source, and nil exactly when k does not occur.",
  "all accepted dictionaries, all keys",
  "all orders and multiplicities of keys",
  [PA+": readDict", EL+": DictElement.Value"])
p("Parsed values do not depend on the caller's buffer",
  "After Parse(data) returns, overwriting data does not change the strings in the returned value.",
  "all accepted inputs, all later buffer contents",
  "aliasing through unsafe.Pointer is invisible unless the buffer is reused after parsing",
  [PA+": b2s, readString"])
p("String() does not depend on how a value was obtained",
  "Parse(v.Encode()).String() equals v.String() for every value v whose dictionaries are emitted in the same order.",
  "all values",
  "recursive value space; only nested containers expose the difference",
  [EL+": prettyPrint"])
# --- unmarshal ---------------------------------------------------------------
p("Unmarshal never panics",
  "For every byte string and every pointer-to-struct target, Unmarshal returns nil or an error; it never panics.",
  "all byte strings, all target struct types",
  "tracker responses and torrent files are untrusted; all byte strings must be covered",
  [TP+": Unmarshal, processTarget"])
p("Required and optional fields",
  "If Unmarshal succeeds then every non-optional tagged field's key is present in the document's top-level dictionary; if a required key is absent Unmarshal fails; an absent optional key leaves its field untouched.",
  "all documents, all struct types",
  "all subsets of keys present, all target types",
  [TP+": processTarget"])
p("Integer fields are never silently truncated",
  "If Unmarshal stores a number in an int8..int64 or uint8..uint64 field, the stored number is exactly the number in the document and lies in the field's range; otherwise it returns an error.",
  "all widths, all bencode integers",
  "all 2^64 integers times all widths",
  [TP+": setField"])
p("The info-hash is the SHA-1 of the info dictionary's original bytes",
  "If Unmarshal into Metainfo succeeds, Hash() is the SHA-1 of exactly the bytes of the (last) info dictionary as they stand in the file, and that info dictionary is what Info was filled from.",
  "all torrent files",
  "the hash must be right for every file, including non-canonical ones",
  [TP+": Metainfo, Hash, Unmarshal"])
p("A failed Unmarshal leaves the target unchanged",
  "If Unmarshal returns an error, the target struct has the same contents as before the call.",
  "all documents, all targets",
  "every possible failing field position",
  [TP+": processTarget, setField"])
# --- http tracker -------------------------------------------------------------
p("Compact HTTP tracker responses yield their peers",
  "When an HTTP tracker answers 200 with a dictionary whose peers key is a byte string of 6-byte entries (the form the client asks for with compact=1), Announce returns those peers.",
  "all responses",
  "all responses; no test decodes any announce response",
  [HT+": readPeers", "gotit.go: AnnounceResponse", TP+": setField"])
p("Dictionary-form peers are returned in order, one per entry, and only valid ones",
  "When peers is a list of dictionaries, Announce returns one address per entry, in order, and every returned address is valid.",
  "all peer lists",
  "all lists, all placements of malformed entries",
  [HT+": parseBencodePeers"])
p("Compact peer decoding is the inverse of the compact encoding",
  "Decoding the concatenation of 4-byte address + 2-byte big-endian port entries returns exactly those entries; up to 5 trailing bytes are ignored; every decoded address is valid.",
  "all peer lists, all tails",
  "2^48 entries, all list lengths",
  [HT+": parseCompactPeers"])
p("A tracker failure is always reported",
  "If the response dictionary contains a non-empty failure reason, Announce returns an error and no peers, and the announce interval is unchanged.",
  "all responses with a failure reason",
  "all combinations with the other fields",
  [HT+": readPeers"])
p("The client waits as long as the tracker asks between announces",
  "After a successful announce the next announce starts no earlier than the number of seconds the tracker sent, and never immediately.",
  "all responses, all announce histories",
  "missing, zero and overflowing intervals are corner cases of an infinite domain",
  [HT+": readPeers", TR+": WaitInterval", UT+": readAnnounce", MG+": runTracker"])
p("The announce URL delivers every parameter to the tracker",
  "For every tracker URL, hash and statistics, a tracker that decodes the query string of the request receives the tracker URL's own parameters and the client's eleven parameters unchanged.",
  "all tracker URLs, all 20-byte hashes, all counters",
  "all byte values in the hash need percent-encoding; URLs with a query are never tested",
  [HT+": Announce, buildQuery"])
# --- udp tracker ---------------------------------------------------------------
p("The UDP announce request follows BEP 15",
  "The announce datagram is 98 bytes and carries the info-hash at offset 16.",
  "all hashes, statistics, ports, transaction ids",
  "field-by-field layout over all values; binary.Write's ignored error hides the failure",
  [UT+": createAnnounce"])
p("Replies with a foreign transaction id are never accepted",
  "Whatever datagram arrives, if its transaction id is not the one just sent (or it is too short to contain one) no connection id, peer list or interval is taken from it and an error is returned; no datagram of at least 4 bytes causes a panic.",
  "all datagrams, all transaction ids",
  "all datagrams from an attacker",
  [UT+": parseTrackerResponse, readConnect, readAnnounce, readError, checkResponseTransactionId"])
p("A UDP announce returns the peers the tracker sent",
  "If the tracker answers the connect and announce requests correctly, Announce returns the peers in its answer.",
  "all tracker answers, all datagram timings",
  "reading a datagram socket until EOF never ends without an error; only a real UDP exchange shows it",
  [UT+": Announce, handshake", CN+": ReadAll"])
p("UDP tracker error messages are reported",
  "If the tracker answers with a BEP 15 error packet (action 3), Announce's error contains the tracker's message.",
  "all error packets",
  "all messages and transaction ids",
  [UT+": conError, parseTrackerResponse, readError"])
# --- peer wire -----------------------------------------------------------------
p("Messages are framed correctly",
  "Every message written by Send starts with a 4-byte big-endian length equal to the number of bytes that follow.",
  "all messages the package can construct or receive",
  "all message types and payloads",
  [PM+": Send, createSignalMessage, createHaveMessage, createCancelMessage, CreatePieceMessage, createBitfieldMessage"])
p("Requests carry the block that was asked for",
  "The remote peer that decodes the message sent for CreatePieceMessage(index, offset, length) sees exactly index, offset and length; likewise for cancel and have.",
  "all 2^96 argument triples",
  "argument space; the accessors return the right numbers even though the wire bytes do not",
  [PM+": CreatePieceMessage, createCancelMessage, createHaveMessage"])
p("No message from a peer can crash the client's decoder",
  "NewPeerMessage returns a message for every byte string; it never panics.",
  "all byte strings",
  "malicious peers choose the bytes",
  [PM+": NewPeerMessage"])
p("Received messages decode to their fields",
  "For well-formed have, request, cancel and piece messages Index, Offset, BlockLength and Data return exactly the values on the wire.",
  "all indexes, offsets, lengths and data",
  "all 32-bit values and all payloads",
  [PM+": NewPeerMessage, Index, Offset, BlockLength, Data"])
p("Bitfields identify the pieces the peer has",
  "After a bitfield message, the peer's set contains i if and only if bit i of the wire bitfield (most significant bit of the first byte is piece 0) is set.",
  "all bitfields, all piece indexes",
  "2^n bitfields of every length",
  [PM+": Bitfield, createBitset", PE+": handlePeerMessage"])
p("Stream framing is independent of packet boundaries",
  "If the peer sends a sequence of messages, successive ReadPeerMessage calls return exactly their bodies in order, no matter how the stream is cut into segments, as long as no read fails in between.",
  "all message sequences, all segmentations",
  "exponentially many segmentations",
  [CN+": ReadPeerMessage, readPeerMessageSize, readExactly"])
p("A read timeout does not lose synchronisation",
  "If a ReadPeerMessage call fails with a timeout, the next successful ReadPeerMessage returns a message the peer actually sent.",
  "all streams, all timeout points",
  "all points at which the deadline can hit",
  [CN+": ReadPeerMessage, readExactly", PE+": Run, unchoke"])
p("Handshake acceptance",
  "The handshake built for a 20-byte info-hash is 68 bytes and is accepted by a peer expecting that hash; a handshake is accepted if and only if it has at least 68 bytes, announces the BitTorrent protocol and carries exactly the expected hash, whatever its reserved bits and peer id.",
  "all byte strings, all hashes",
  "all byte strings",
  [PE+": isHandshakeValid, createHandshake"])
# --- torrent -------------------------------------------------------------------
p("Piece table",
  "NewPieces succeeds exactly when the length is a multiple of 20; piece i then has index i and the i-th 20-byte hash, and CheckHash compares it exactly.",
  "all byte strings",
  "all lengths",
  [PI+": NewPieces, CheckHash, Index"])
p("Next hands out each piece at most once",
  "In every history of Next calls by any number of concurrent peers, no piece index is returned twice, every returned index is a valid piece of the torrent that the calling peer has, and it is the lowest such piece not yet handed out; Next reports not-found exactly when there is none.",
  "all schedules of any number of concurrent callers, all peer bitsets",
  "all interleavings of unboundedly many calls",
  [TO+": Next"])
p("Pieces whose download failed are handed out again",
  "If a piece that was handed out by Next is never downloaded, a later Next call by a peer that has it returns it again.",
  "all histories",
  "liveness over all histories",
  [TO+": Next", PE+": handlePieceMessage"])
p("Done means every piece was marked downloaded",
  "Done returns true if and only if every piece has been marked downloaded, and once true it stays true, as long as only valid piece indexes are marked.",
  "all histories of SetDownloaded, all piece counts, all schedules",
  "all orders and repetitions",
  [TO+": SetDownloaded, Done"])
p("Done is false until something was downloaded",
  "For every torrent accepted by New with non-zero total length, Done is false before any piece is written.",
  "all metainfo contents",
  "degenerate piece lengths (zero, negative) are an infinite family",
  [TO+": New, Done"])
p("The number of pieces is the ceiling of length over piece length",
  "For positive lengths up to 2^53 New computes PiecesNum = ceil(Length / PieceLength) exactly, in spite of floating point.",
  "all lengths and piece lengths up to 2^53",
  "2^106 pairs; rounding errors only show at particular ones",
  [TO+": New"])
p("Multi-file layout",
  "Writing a block at torrent position p stores byte j of the block at position p+j of the concatenation of all files (in order, each with its declared length), changes no other byte, and never makes a file longer than declared.",
  "all file lists (any number, zero lengths included), positions and blocks",
  "all splits across any number of files",
  [TO+": writePieceData"])
p("A block that does not fit is rejected without side effects",
  "If a block does not lie completely inside the torrent, the write reports an error and no file changes.",
  "all file lists, positions and blocks",
  "all overlapping positions",
  [TO+": writePieceData"])
p("Only verified data is stored, at its own place",
  "Whatever messages peers send, every byte of the output files is either untouched or the correct byte of the torrent's content at that position.",
  "all message sequences from arbitrary peers",
  "adversarial message sequences",
  [PE+": handlePieceMessage", TO+": CheckPiece, WritePiece"])
p("A complete download is recognised",
  "Once every piece of the torrent has been received correctly and written, Done returns true.",
  "all torrents, all delivery orders, duplicates allowed",
  "all lengths, in particular lengths that are not a multiple of the piece length",
  [TO+": WritePiece, Done"])
p("Pieces larger than one block can be downloaded",
  "If an honest peer answers every block request of a piece, the piece ends up stored.",
  "all piece lengths and contents",
  "depends on the relation between block and piece hashes for every content",
  [PE+": handlePieceMessage", TO+": CheckPiece"])
p("Downloads stay inside the chosen directory",
  "Every file New creates lies inside the download directory.",
  "all metainfo names and paths",
  "attacker-chosen strings",
  [TO+": initDownloadDir"])
p("Every file of a torrent gets its own path",
  "Two different files of a multi-file torrent are stored in two different files on disk.",
  "all file lists with distinct paths",
  "all path lists",
  [TO+": initDownloadDir"])
p("The tracker set",
  "The trackers of a torrent are exactly its announce URL, the URLs of all announce-list tiers and the url-list entries, each once.",
  "all metainfo contents",
  "all lists with repetitions",
  [TO+": New", ST+": Add, Contains, AddAll"])
p("The retry queue neither loses nor duplicates requests",
  "In every concurrent history, each request put in the queue is handed out at most once, requests handed out were put in before, nothing is lost while in the queue, and the most recently failed request is handed out first.",
  "all histories and schedules of any number of goroutines",
  "all interleavings",
  [PQ+": RequestFailed, FailedPieceMessage"])
# --- peer ---------------------------------------------------------------------
p("Block requests tile the piece",
  "Between two Next calls a peer requests the blocks of the piece it was given, in increasing order without gap, overlap or repetition, covering the piece exactly.",
  "all piece lengths, all sequences of requests",
  "all piece lengths, in particular those not a multiple of 128 KiB",
  [PE+": nextRequestMessage, createPieceMessage, NewPeer"])
p("A peer is only asked for pieces handed out by Next (or for failed requests)",
  "Every request created by a peer is either a queued failed request or concerns the piece most recently returned to that peer by Next.",
  "all histories from NewPeer",
  "all histories",
  [PE+": nextRequestMessage, NewPeer"])
p("Run eventually requests data from an unchoked peer",
  "If the remote peer unchokes the client, answers everything and has pieces the client lacks, Run sends a request.",
  "all behaviours of the remote peer",
  "liveness over all executions",
  [PE+": Run, unchoke, SendInterested, NewPeer"])
p("No request is sent while choked",
  "Run never sends a request when the last choke/unchoke message processed from the peer was choke (or there was none).",
  "all executions of Run",
  "all message orders",
  [PE+": Run, handlePeerMessage"])
p("One request at a time, failed requests are requeued",
  "At any time Run has at most one request outstanding; if sending fails or a read fails while a request is outstanding, exactly that request is put in the retry queue.",
  "all executions of Run",
  "all error patterns",
  [PE+": Run"])
p("A peer keeps downloading",
  "After a request has been answered Run sends the next request.",
  "all executions of Run",
  "liveness",
  [PE+": Run"])
p("Run stops promptly",
  "Once the context is cancelled or the torrent is done, Run returns after at most one more loop iteration and sends no further request.",
  "all executions, all cancellation points",
  "all cancellation points",
  [PE+": Run, wait, unchoke"])
p("Peer state follows the messages received",
  "After any sequence of messages the choke flag, the remote-interest flag and the piece set are those determined by the last choke/unchoke, the last interested/not-interested, and the last bitfield plus later have/accepted piece messages.",
  "all message sequences",
  "all sequences",
  [PE+": handlePeerMessage"])
# --- stats -------------------------------------------------------------------
p("Statistics counters are exact under concurrency",
  "For every interleaving of any number of AddDownload, AddUpload, AddPeer and RemovePeer calls, once all have returned Download and Upload are the sums of the sizes and Left is the torrent size minus Download, modulo 2^64.",
  "all interleavings of the individual atomic operations",
  "all interleavings",
  [SS+": AddDownload, AddUpload, AddPeer, RemovePeer"])
p("Left never exceeds the torrent size",
  "Left() reported to trackers is at most the torrent size.",
  "all histories of a download",
  "needs histories in which a block is received twice",
  [SS+": AddDownload, Left", TO+": WritePiece"])
p("The progress display never crashes",
  "For every download state the progress bar is rendered: a bar of exactly 20 cells.",
  "all reachable statistics",
  "needs histories with more bytes received than the torrent has",
  [PB+": progressBar", SS+": PercentCompleted"])
# --- manager -------------------------------------------------------------------
p("At most one connection per peer address",
  "In every schedule of concurrent tracker goroutines at most one peer per address is added to the pool; AddPeer returns true exactly for the first, and PeerNum is the number of added peers minus the number whose handshake failed.",
  "all schedules, all address lists",
  "all interleavings",
  [MG+": AddPeer, initPeers, startPeerDownload"])
p("The peer limit is respected",
  "The manager never holds more than the configured maximum number of peers.",
  "all tracker answers",
  "all histories",
  [MG+": NewMng, AddPeer", DL+": num-peer flag"])
p("Shutdown never crashes",
  "Stop and everything running concurrently with it finish without panic: no nil dereference, no write to a nil map, no send on a closed channel.",
  "all schedules, all cancellation points",
  "races and states that depend on the schedule",
  [MG+": Stop, AddPeer, Download", PE+": Close, handlePieceMessage"])
p("Download returns when the torrent is complete",
  "Once Done is true, Download returns without outside intervention.",
  "all schedules",
  "liveness over schedules",
  [MG+": Download"])
p("Accepted pieces are on disk when Download returns",
  "Every piece message accepted before Download returns has been written when it returns.",
  "all schedules",
  "all interleavings of the writer with shutdown",
  [MG+": Download", TO+": WritePiece"])
p("Announce retries",
  "A tracker announce is attempted at most five times, stops at the first success whose peers it returns, and otherwise reports the last error (or the context's error if cancelled while waiting).",
  "all outcome sequences, all cancellation points",
  "all outcome sequences",
  [MG+": announceToTracker, startPeerDownload"])
# --- cli ---------------------------------------------------------------------
p("Every documented log level is accepted and takes effect",
  "Each level listed in the help text (info, debug, trace, warning, error, silent) given on the command line results in a logger of that level.",
  "all flag values",
  "initialisation order: the logger is built before flags are parsed",
  [LG+": getZapLevel, NewCommandLine", AP+": NewApp, NewCmdRun"])
# --- added while the model grew ------------------------------------------------
p("The percentage shown is right",
  "The percentage displayed is 0 at the start, never decreases as bytes arrive, is at most 100 while no more bytes arrived than the torrent has, and is 100 when exactly all have.",
  "all torrent sizes, all byte counts",
  "floating point rounding for all pairs of 64-bit numbers",
  ["pkg/stats/stats.go: PercentCompleted"])
p("Pauses between announce attempts",
  "Consecutive attempts of a tracker announce are at least 1, 2, 4 and 8 seconds apart, and consecutive attempts of a peer handshake at least half a second.",
  "all durations of attempts, all timer delays",
  "a unit mistake is only visible by measuring time against a peer that refuses",
  [MG+": announceToTracker, startPeerDownload"])
p("No panic before cancellation",
  "As long as the context is not cancelled, no step of the manager's goroutines panics (nil map, closed channel, nil connection, wait group reuse).",
  "all schedules, all tracker answers",
  "needs a peer to end and another to start between the wake-up and the return of a blocked Wait",
  [MG+": Download, waitPeers, startPeerDownload, AddPeer"])
p("The configuration file named on the command line is used",
  "With --config <path>, that file is the one that is read, and the program reports an error if it cannot be.",
  "all paths, all contents",
  "initialisation order: the configuration is read before flags are parsed",
  [AP+": NewApp, NewCmdRun, initConfig"])
p("Opening a torrent file never panics",
  "Whatever the torrent file contains and whatever the file system answers, gotit download reports an error or opens the torrent; it does not crash.",
  "all file contents, all file system answers",
  "the crashing inputs are rare among all byte strings and hide in three different stages",
  [DL+": runDownload", TP+": Unmarshal", TO+": New, initDownloadDir"])
p("The torrent that is opened is the one that was encoded",
  "For every document that carries a metainfo (any order of keys, any further keys), opening its encoding is New on exactly that metainfo, with the raw info dictionary equal to the encoding of the info value, hence with its info-hash.",
  "all metainfo documents, all file systems",
  "composition of decoder, reflection-driven unmarshaller and constructor over an unbounded set of documents",
  [DL+": runDownload", TP+": Unmarshal, Metainfo", TO+": New"])
p("No peer can crash the client",
  "Whatever messages a peer sends, the goroutine that serves it does not panic (a panic in any goroutine ends the whole program).",
  "all message sequences, all schedules of Run",
  "needs the rare frames (short have/request/piece, piece index out of range) at every point of the protocol",
  [PE+": Run, unchoke, handlePeerMessage, handlePieceMessage", PM+": NewPeerMessage, Index", TO+": CheckPiece"])
p("Memory reserved for a peer is bounded by what it sent",
  "The buffers made to read a message, and the set of pieces kept for a peer, are never larger than a constant plus what the peer has sent.",
  "all byte streams, all messages",
  "allocation sizes are invisible to functional tests",
  [CN+": ReadPeerMessage, readExactly", PE+": handlePeerMessage"])
p("Only verified bytes reach the disk",
  "At any time of a download, with any number of peers, each byte of the torrent's files is zero or was sent by a peer for that position in a block whose SHA-1 the metainfo lists for the piece it names; no other file is changed.",
  "all schedules of peers and writer, all messages of all peers",
  "composition of the peer goroutines, the channel and the writer over unbounded message histories",
  [PE+": Run, handlePieceMessage", TO+": WritePiece, writePieceData, CheckPiece", MG+": Download"])
p("No piece is given to two peers in a download",
  "Over a whole download, whatever the peers do, Next hands out each piece at most once, and only pieces of the torrent.",
  "all schedules, any number of peers",
  "the race is between goroutines and between Next and the retry queue",
  [TO+": Next", PE+": nextRequestMessage, Run"])
p("A download from peers that follow the protocol completes",
  "If the remote peers follow the protocol (send blocks that were asked for) and together hold all pieces, the download can reach the state where all pieces are written.",
  "all torrents, any number of peers, all schedules",
  "a statement about the absence of any successful execution",
  [PE+": Run, unchoke, nextRequestMessage, newPeerStatus", TO+": WritePiece, Done"])
p("When the torrent counts as done, the files hold the content",
  "Whenever Done reports true in a download, the concatenated files are the content whose piece hashes the metainfo lists.",
  "all torrents, all schedules, all messages of all peers",
  "needs verified blocks with unusual offsets, at the last piece",
  [TO+": WritePiece, SetDownloaded, Done", PE+": handlePieceMessage"])
p("Every element has one encoding, with sorted keys",
  "Encode of an element always gives the same text, whatever order the map iteration has, and the keys of dictionaries in it are in increasing byte order.",
  "all elements, all iteration orders",
  "the iteration order is random; a test sees one order",
  [EL+": DictElement.Encode"])
p("A generated dictionary is not changed by later calls of Add",
  "The element Generate returns is encoded as the dictionary of the entries added before the call, also after further calls of Add on the builder.",
  "all builders, all sequences of Add, all values (also nested builders)",
  "sharing of the map is invisible unless a builder is used again",
  [EL+": Add, Generate, NewDictBuilder"])
p("Encode returns",
  "Encode returns for every element that can be built.",
  "all heaps of maps, all elements",
  "non-termination for self-containing values",
  [EL+": Encode, Add, Generate"])
p("No data races",
  "Any two accesses of one shared variable by two goroutines, one of them a write, are ordered by the happens-before relation of the Go memory model.",
  "all sets of trackers, all numbers of peers, all interleavings, all pairs of accesses",
  "the race detector only sees the interleavings that occur",
  [MG+": Download, runTracker, initPeers, startPeerDownload, Stop, AddPeer", PE+": connect, Announce, Run, Close", TO+": Next, Done, SetDownloaded, WritePiece", PQ+": RequestFailed, FailedPieceMessage"])
p("Mutexes never deadlock",
  "No goroutine locks a mutex, sends, receives or waits while it holds a mutex; whoever waits for a mutex waits for a goroutine that can release it by its own steps.",
  "all sets of trackers, all numbers of peers, all interleavings",
  "a deadlock needs a particular interleaving of particular goroutines",
  [MG+": Stop, AddPeer", TO+": Next, Done, SetDownloaded, WritePiece", PQ+": RequestFailed, FailedPieceMessage"])
p("Exactly the peers that introduce themselves with the torrent's hash are talked to",
  "startPeerDownload starts Run if and only if, nothing having been cancelled, one of at most five attempts establishes a connection, sends the handshake and receives, however cut into segments, a handshake with the torrent's hash; Run then reads exactly what follows that handshake on that connection, and the only thing written before is our handshake.",
  "all network behaviours in every attempt, all segmentations, all cancellation points",
  "segment boundaries, failures and cancellations combine in unboundedly many ways over the attempts",
  [PE+": connect, Announce, createHandshake", MG+": startPeerDownload", CN+": NewTimeoutConn, ReadPeerHandshake"])
p("No connection of a peer stays open after the peer was closed",
  "After Stop has closed a peer, every connection that was established to it is closed.",
  "all network behaviours in every attempt",
  "needs failures after a successful dial in several attempts",
  [PE+": connect, Close", MG+": startPeerDownload, Stop"])
p("The figures announced to a tracker fit together",
  "In every announce, downloaded plus left is the size of the torrent (as long as no more bytes were counted than the torrent has), and uploaded is 0.",
  "all interleavings of the writer's and the announcing goroutine's atomic operations",
  "needs a block to be counted exactly between two loads",
  [MG+": announceToTracker", SS+": AddDownload, Download, Left", TO+": WritePiece"])
p("Which tracker URLs are used",
  "tracker.New returns an HTTP tracker for exactly the URLs whose scheme is http or https in any letter case (and whose rest is parsable), with the address exactly as given; a UDP tracker, connected to the URL's host, for exactly the udp URLs whose host can be dialled; an error for every other string.",
  "all byte strings",
  "unboundedly many strings: schemes with digits, signs, upper case, fragments, control characters",
  [TR+": New", UT+": newUdpTracker", HT+": newHttpTracker"])
p("Unmarshal of the same document gives the same result",
  "What Unmarshal stores in its target and how it ends depend only on the document and the previous content of the target, not on the order in which Go happens to iterate over maps.",
  "all documents, target types, previous contents and iteration orders at every level",
  "Go randomises map iteration; a test that passes once can fail on the next run, and only documents with dictionaries where strings are expected show it",
  [TP+": Unmarshal, processTarget, setField", EL+": prettyPrint, String"])
p("What makes Run end",
  "Run ends only when it finds the context cancelled or the torrent done, or when a keep-alive message cannot be sent (or by a crash); failed reads, failed requests and failed interested messages never end it. After a failed keep-alive nothing more is sent or read.",
  "all executions, all peers, all torrents",
  "every combination of failures at every point of the loop",
  [PE+": Run, unchoke, wait, checkKeepAlive"])
p("A peer is only asked for pieces it announced",
  "In every download, a request sent to a peer is for a piece which that peer has announced (by a bitfield, a have message or a verified block) before the request.",
  "all torrents, all numbers of peers, all schedules, everything the peers may send",
  "depends on what each peer sent, on what other peers put into the shared retry queue, and on the order of all of that",
  [PE+": nextRequestMessage, createPieceMessage, handlePeerMessage", TO+": Next", PQ+": RequestFailed, FailedPieceMessage"])
p("Re-encoding a parsed document gives back its text",
  "Encode of the element returned by Parse is the part of the document that Parse read.",
  "all documents that Parse accepts, all orders in which Go may iterate over maps",
  "Whether the text comes back depends on how every number in it is written, on repeated keys and on the iteration order of every map; the infinite set of texts for which it holds has to be described by a grammar.",
  [PA+": number, list, dict", EL+": Encode"])
p("Integer fields are only filled from integers",
  "If Unmarshal stores a number in an integer field, the document has an integer there.",
  "all integer types of Go, all elements, all previous contents",
  "the texts strconv accepts with base 0 form an infinite language (bases, signs, underscores)",
  [TP+": setField, the integer cases"])
p("Unmarshal stores exactly what the document says",
  "Unmarshal into a struct succeeds, leaving certain contents, exactly if the document begins with an element from which these contents result field by field: numbers in range, strings as they are, lists element by element in order, dictionaries entry by entry, structs recursively, existing pointers filled in place, nil pointers allocated, absent optional and unexported or untagged fields kept.",
  "all struct types built from strings, integers, slices, maps, pointers and structs, all previous contents, all documents",
  "quantifies over all target types and all documents, nested to any depth",
  [TP+": Unmarshal, processTarget, setField"])
p("Printed values are indented by their depth",
  "String() puts every element of a list or dictionary on lines of its own, indented by one tab for each list or dictionary around it, with the closing bracket under the line that opened it.",
  "all values and all documents",
  "nesting is unbounded and the layout depends on whether each nested element was parsed or built",
  [EL+": prettyPrint, addTab, newLine"])
p("Other peers can download from this client",
  "A peer that is interested in pieces the client has stored is told about them, is unchoked, and gets the blocks it asks for.",
  "all downloads: any number of peers, all frames they send, all interleavings and failures",
  "that something is never sent, whatever the peers say and however the goroutines interleave, is a statement about all executions",
  [PE+": Run, handlePeerMessage, SendUnchoke", MG+": startPeerDownload"])
p("Starting a download destroys nothing that is already on the disk",
  "Opening a torrent leaves every existing file as it is; a download that was finished or interrupted before is continued.",
  "all metadata, download directories, disk contents and answers of the operating system",
  "what is lost depends on what was on the disk, on the paths in the torrent file and on which of the files can be created",
  [TO+": New, initDownloadDir"])
p("A lost peer is tried again when a tracker names it again",
  "An address to which no connection could be made, or whose connection has ended, is tried again when a tracker names it in a later announce.",
  "all downloads: any number of trackers and peers, all interleavings",
  "that something never happens again is a statement about all continuations of all executions",
  [MG+": AddPeer, initPeers, startPeerDownload"])
p("The number of peers shown is the number of connected peers",
  "At any time PeerNum, the number of peers in the progress display, is the number of peers whose Run is active.",
  "all downloads: any number of trackers and peers, all interleavings",
  "depends on every order of connects, failures and disconnects",
  [MG+": AddPeer, startPeerDownload", SS+": AddPeer, RemovePeer, PeerNum"])
p("Trackers are told when the download starts, and only then",
  "Of the announces to a tracker, the first says event started; the regular ones that follow do not.",
  "all trackers, replies, failures and retries, any number of announces",
  "a statement about every request of a run of unbounded length",
  [HT+": newHttpTracker, buildQuery, Announce", UT+": createAnnounce", MG+": runTracker"])
p("Sizes are shown to the nearest tenth of their unit",
  "A number of bytes in the progress line is shown in the largest unit not larger than it, rounded to the nearest tenth, and a larger number is never shown as a smaller one.",
  "all 64-bit numbers of bytes",
  "2^64 values; the corner cases sit at unit boundaries, ties and beyond 2^53",
  ["pkg/stats/progress_printer.go:25-37: Print", TP+": TorrentFile.String, Metainfo.String (bytefmt.ByteSize)"])
p("The speed shown is the average speed",
  "The speed in the progress line is the number of bytes received divided by the time since the start, in MB/s of 2^20 bytes, rounded to the nearest tenth.",
  "all byte counts and all positive durations",
  "a statement about every pair of numbers, through five float64 roundings",
  ["pkg/stats/stats.go:55-58: Speed", "pkg/stats/progress_printer.go:25-37: Print"])
p("The number of trackers shown is the number of trackers in use",
  "The progress line shows how many trackers are being used, beside the right sizes, speed and number of peers.",
  "all reachable states of a download and all histories of the counters",
  "a statement about all interleavings of all goroutines that change counters",
  ["pkg/stats/progress_printer.go:25-37: Print", "pkg/stats/stats.go:72-82: AddTracker, RemoveTracker, TrackerNum", MG+": no call of AddTracker"])
p("The description of a torrent tells what it is",
  "From the text of a Metainfo its name, comment, tracker, total size and date can be read back: no field can imitate another, the size is that of the content, and a date is shown only if there is one.",
  "all metainfo values, all hash functions, all time zones",
  "a statement about every combination of texts, including ones that contain line breaks",
  [TP+":194-241: TorrentFile.String, Metainfo.String", TP+":243-279: printValue", TP+":281-285: Hash"])
p("The command bencode prints the torrent",
  "For a file that can be read as a torrent the command bencode prints its description.",
  "all files",
  "a statement about every file; what is missing is any output at all",
  ["pkg/cmd/bencode.go:25-47: run"])
p("A download that cannot start says why",
  "If the download command ends with an error before the download begins, the reason is shown to the user.",
  "all errors",
  "a statement about every way to fail",
  ["pkg/cmd/app.go:112-118: NewCmdRun", "pkg/cmd/download.go:49-84: runDownload", "pkg/printer/printer.go:47-50: Fatal"])
p("Verified data cannot crash the writer",
  "Whatever torrent was opened and whatever its peers send, the goroutine that writes pieces never panics; a panic there would end the program.",
  "all torrents New accepts, all downloads (any number of peers, any messages, any interleaving)",
  "the crash needs a torrent with a file of negative length or with pieces so long that a position exceeds 63 bits, and a peer that sends the right piece",
  [TO+":177-195: WritePiece", TO+":199-245: writePieceData"])
p("A connection is never silent for two minutes",
  "While Run goes on and the messages it writes go through, it never lets more than two minutes (the time after which BEP 3 lets a peer take the connection for dead) pass between one message and the next.",
  "all peers, all torrents, all timings of the network, the scheduler and the writer within stated limits, all executions of Run",
  "a silence of two minutes needs a particular sequence of slow operations; tests run for seconds and replace the clock",
  [PE+":309-319: checkKeepAlive", PE+":212-282: Run", PE+":165-200: unchoke", CN+":14: PeerTimeout"])
p("A dead connection is given up",
  "Once nothing gets through a connection any more, neither written nor read, Run ends within a bounded time, so that the place among the peers is free again.",
  "all peers, all torrents, all timings within stated limits, all executions of Run",
  "a connection that dies at a particular point, observed for minutes",
  [PE+":165-200: unchoke", PE+":212-282: Run", PE+":309-319: checkKeepAlive"])
p("A failing peer is not retried in a tight loop",
  "After a message could not be sent to a peer or none could be read, Run neither sends nor reads anything on this connection for at least a tenth of a second.",
  "all states of Run, all executions from there, all timings",
  "a busy loop shows only with a connection that fails at once, and costs processor time rather than a wrong result",
  [PE+":156-163: newDefaultBackoff", PE+":172-192: the waits of unchoke", PE+":250-275: the waits of Run"])
p("A piece whose writing failed does not count as downloaded",
  "Whatever writes to the disk fail, at whatever byte, the bit of a piece becomes set only in a step after which every byte of a verified block that ends where the piece ends is in the files; if moreover peers send whole pieces and none of them has other bytes with the hash of a piece, every piece whose bit is set is in the files at all times.",
  "all metainfos that New opens, all peers, all schedules, all failures of all writes",
  "write errors are hard to provoke, and there are failures at every byte of every write",
  [TO+":176-195: WritePiece", TO+":199-245: writePieceData", TO+": SetDownloaded"])
p("Only bytes that were stored are counted as downloaded",
  "The number of bytes reported as downloaded (to trackers as downloaded and left, and by the progress bar) is at most the number of bytes written to the files.",
  "all metainfos that New opens, all peers, all schedules, all failures of all writes",
  "write errors are hard to provoke",
  [TO+":176-190: stats.AddDownload before writePieceData", SS+": AddDownload, Left"])
p("New accepts only metainfos with one hash per piece",
  "If New opens a metainfo, its string of hashes has exactly one hash of 20 bytes for each piece of its content.",
  "all metainfos, file systems; all executions of the download that follows",
  "tests use well-formed torrent files",
  [TO+": New", TO+": EmptyBitset, CheckPiece, Next"])
p("No file becomes longer than the metainfo says",
  "In every reachable state of a download every file is at most as long as the metainfo says.",
  "all metainfos that New opens, all peers, all schedules, all failures of writes",
  "needs a peer that sends a right piece with a wrong offset",
  [TO+":176-195: WritePiece", TO+":199-245: writePieceData"])
p("A connect request to a UDP tracker that is answered in time succeeds",
  "If the tracker answers a connect request in time, the connection is made, also if an answer to an earlier request came late.",
  "all transaction ids, all numbers of attempts",
  "needs one late datagram; nothing in the tests delays answers",
  [UT+":92-114: handshake", CN+":97-104: ReadUdpHandshake"])
p("A read ends by its deadline however the bytes arrive",
  "Reading a message or a handshake of a peer takes at most one second, and reading from a UDP tracker at most half a second, also if bytes keep arriving one at a time.",
  "all sequences of arrivals with all times",
  "there are arbitrarily many schedules of arrivals",
  [CN+":42-63: ReadPeerMessage", CN+":67-104: ReadPeerHandshake, ReadAll, ReadUdpHandshake", CN+":118-120: setReadDeadline"])
p("A message is received however slowly its bytes come",
  "If a peer keeps sending, without a pause longer than the timeout, a message it sends is received.",
  "all messages, all schedules of arrivals",
  "tests run over fast local connections",
  [CN+":42-63: ReadPeerMessage", CN+":118-120: setReadDeadline"])
p("The peers of a response are contacted promptly",
  "The time from a tracker's response until a peer named in it is contacted has a bound that does not depend on the other peers.",
  "all responses, all behaviours of the peers within the timeouts",
  "needs many unreachable peers and minutes of waiting",
  [MG+":109-117: initPeers", MG+":148-179: startPeerDownload", PE+":122-154: connect, Announce", CN+":13-17: timeouts"])
p("A tracker is not asked more often than it wants",
  "After any reply of a tracker that contains an interval the next request to it comes no earlier than that interval.",
  "all sequences of replies, all delays",
  "needs minutes of waiting and a tracker that counts requests",
  [HT+":114-137: readPeers", MG+":80-107: runTracker", MG+":119-146: announceToTracker"])
p("IPv6 peers of a response are used",
  "An announce whose response names an IPv6 peer under the key peers6 (BEP 7) succeeds, and that peer is among the peers found.",
  "all responses, all tracker states",
  "the effect is a peer that is silently missing",
  [HT+":114-137: readPeers"])
p("The id a tracker sets is sent back",
  "If the reply of a tracker contains a tracker id (BEP 3), the next request to that tracker carries this id.",
  "all replies, all tracker ids, all announce data",
  "needs a tracker that sets ids and compares the following requests",
  [HT+":42-55: newHttpTracker", HT+":98-112: buildQuery", HT+":114-137: readPeers"])
p("The minimum interval of a tracker is respected",
  "After a reply with the key min interval the next request to the tracker comes no earlier than so many seconds later.",
  "all replies with which the announce succeeds, all times",
  "needs minutes of waiting and a tracker that sends both keys",
  [HT+":114-137: readPeers", MG+":80-107: runTracker"])
p("An interrupt ends the program",
  "Wherever SIGINT or SIGTERM arrives, the program gets to its end afterwards without needing anything from whoever provides the torrent file.",
  "both commands, all surroundings, all states, all interleavings",
  "needs signals at particular moments and inputs that stall",
  [AP+":38-60: NewApp", AP+":95-118: NewCmdRun, NotifyContext", DL+":49-84: runDownload", "pkg/cmd/bencode.go:25-47: run", MG+":54-68: Download"])
p("The exit status tells whether the download is complete",
  "When the command download ends with status 0, everything has been written.",
  "all torrents that can be opened, all executions",
  "the download never ends by itself, so tests interrupt it",
  [DL+":49-84: runDownload", MG+":54-68: Download returns nil", AP+":112-118: the command"])
p("The parser's stack is bounded",
  "There is a depth of nested calls that is enough for Parse on every input, so that no input exhausts the goroutine's stack (which would kill the program beyond recovery).",
  "all inputs, all stack sizes",
  "the stack limit is 1 GB, the inputs in question have millions of nested lists",
  [PA+":40-52: Next", PA+":142-163: readList", PA+":165-190: readDict"])
p("Only trackers are announced to",
  "Announces go only to URLs named as trackers (announce, announce-list); the servers in url-list, which hold the content, are not announced to.",
  "all metainfo contents, all URL syntaxes",
  "all lists of URLs",
  [TO+":76-87: New, the tracker set", MG+":70-84: getIps, runTracker", TR+":28-42: New"])
p("Tiers of announce-list",
  "Trackers of a later tier are used only after those of the earlier tiers have been tried, and announce is not used when there is an announce-list (BEP 12).",
  "all metainfo contents, all interleavings",
  "depends on scheduling and map order",
  [TO+":76-87: New, the tracker set", MG+":70-78: getIps"])
p("The client acts on the messages a peer sent",
  "On a connection, the messages Run acts on are, in order, the messages the remote peer put on the stream after its handshake; nothing else is taken for a message.",
  "all byte streams, all cuts into segments, all deadlines and errors, all executions of Run",
  "all streams, cuts and timings",
  [PE+":165-200: unchoke", PE+":212-282: Run", CN+":42-63: ReadPeerMessage", CN+":110-116: readExactly"])
p("The text of a piece identifies it",
  "The text of a piece (Piece.String) shows its index and its hash so that both can be read back; different pieces have different texts.",
  "all indices, all hashes",
  "all byte strings as hashes",
  [PI+":26-32: Index, String", PI+":34-49: NewPieces"])
p("The string set",
  "In any sequence of calls of Add, AddAll and Contains on a new set, Contains says whether the string has been put in, and Add says whether it was new.",
  "all sequences of calls, all strings",
  "all sequences of calls",
  [ST+":5-27: NewStringSet, Add, AddAll, Contains"])
p("Closing a torrent",
  "Torrent.Close closes every file of the torrent, also when closing another one fails, and reports the errors of exactly the files that could not be closed.",
  "all torrents, all files that fail",
  "failing Close calls cannot be provoked",
  [TO+":251-258: Close"])
p("A failed request is not lost with the peers of its response",
  "If a request for a piece fails, some peer that is still there, or comes later, can be asked for the piece.",
  "all torrents, all numbers of peers, all schedules, all remote peers",
  "needs several tracker responses and connections that break at chosen points; all later schedules",
  [MG+":109-117: initPeers makes one PiecesQueue per response", PQ+": PiecesQueue", PE+":250-251, 268-271: RequestFailed", PE+":284-303: nextRequestMessage", TO+": Next marks a piece as requested for good"])
p("Answers of UDP trackers are taken for what they are",
  "A connect request succeeds only on a connect answer, an announce only on an announce answer, each with the transaction id of the request.",
  "all tracker states, all answers, all transaction ids",
  "needs every answer of a tracker, with each of the two requests; hand-written servers answer as expected",
  [UT+":72-114: Announce, handshake", UT+":116-132: parseTrackerResponse", UT+":152-190: readConnect, readAnnounce"])
p("An announce ends within a bounded time",
  "An announce to a tracker, with all its attempts, is over within a bounded time, whatever the tracker sends and when.",
  "all tracker answers, all arrival times, all durations of writes",
  "needs trackers that answer arbitrarily late or never stop answering; tests cannot wait for ever",
  [UT+":72-114: Announce, handshake", HT+":63-96: Announce", TR+":38: http.DefaultClient", MG+":119-146: announceToTracker", CN+":81-124: deadlines"])
p("Interest is shown when there is something to get, and only then",
  "The other side of a connection is told that the client is interested if and only if it has said that it has a piece.",
  "all torrents, all remote peers, all schedules",
  "needs every order of messages on a connection, including peers that have nothing",
  [PE+":165-200: unchoke", PE+":388-391: SendInterested", PE+":232-237: Run"])
p("Everything stored comes from a peer a tracker of the torrent named",
  "At every moment of a download each byte of the torrent's files is zero or comes from a block that was sent, in a piece message whose block has the SHA-1 the metainfo lists for its piece, over a connection to an address that a tracker of the metainfo had named, by somebody who had introduced itself with the torrent's hash. No other file is touched.",
  "all metainfos with sensible lengths, all tracker replies, all bytes on all connections, all disk faults, all schedules of all goroutines of the program",
  "needs every behaviour of trackers, peers, disk and scheduler together; tests run one download against one peer",
  [MG+":54-68: Download", MG+":70-117: getIps, initPeers", MG+":148-178: startPeerDownload", PE+":133-154: Announce", PE+":212-282: Run", HT+":63-147: Announce, readPeers", TO+":176-193: WritePiece"])
p("The program never crashes",
  "Whatever trackers, peers, disk, interrupts and scheduler do, no goroutine of a download panics.",
  "all tracker replies, all bytes on all connections, all disk faults, all interrupts, all schedules of all goroutines of the program",
  "needs every interleaving of the goroutines with every behaviour of the outside; the crashes need particular schedules or messages",
  [MG+":54-68, 195-213: Download, Stop, Wait", MG+":107-117: initPeers", MG+":148-178: startPeerDownload", PE+":212-282: Run", PE+":304-306: Close", TO+":176-193: WritePiece"])
p("Peers of a dictionary-form response are contacted at the address given",
  "A tracker's response may list each peer's ip as a dotted quad, as an IPv6 address or as a host name (BEP 3); the client connects to the peers so listed.",
  "all responses, all texts of addresses (all forms of RFC 4291 with zones), all host names, all executions",
  "the texts an address can have are unboundedly many (zeros left out, double colons, upper and lower case, dotted tails, zones); trackers in tests list plain IPv4",
  [HT+":139-173: parseBencodePeers (netip.ParseAddr)", PE+":122-131: connect (AddrPort.String)"])
p("At most one connection per endpoint",
  "Two connections at the same time never lead to the same remote endpoint, however trackers write its address.",
  "all tracker replies, all schedules, all pairs of running peers",
  "needs every pair of texts of addresses and all interleavings of the trackers' goroutines; the duplicate needs an IPv4-mapped address",
  [MG+":109-117: initPeers", MG+":216-227: AddPeer (key AddrPort.String)", PE+":122-131: connect (AddrPort.String)"])
p("Sets of pieces are kept exactly",
  "After any sequence of calls on a set of pieces, new or made from the words of a bitfield, Test says exactly whether a piece was set, NextClear finds the least piece from a number on that was not, and All says exactly whether all were; words, shifts and growth of the slice never show.",
  "all sizes, all words, all sequences of calls with all arguments",
  "the algorithms work on 64-bit words with shifts and complements; errors show only for particular bit patterns, sizes that are not multiples of 64 and particular orders of growth",
  [TO+":101-139: SetDownloaded, Next, Done (bitset calls)", TO+":260-262: EmptyBitset", PE+":338, 401: Bitset.Set", PM+":125-134: createBitset (bitset.From)"])
p("Trackers are announced to until the download is cancelled",
  "The loop of runTracker for a tracker whose URL was accepted ends only after the context was cancelled. As long as it is not, and the calls the goroutine makes return, the tracker is announced to infinitely often: failed announces, answers without peers and peers that cannot be reached never end the loop.",
  "for all reachable states and all endless executions of the manager, all trackers, whatever trackers, peers and the other goroutines do",
  "A test observes a few rounds with a few answers; it cannot show that no later answer or interleaving ends the loop.",
  [MG+":80-107 (runTracker)", MG+":109-117 (initPeers)", MG+":119-146 (announceToTracker)"])
p("Misbehaving peers cannot make a download impossible to complete",
  "From every state of a download that has neither crashed nor been cancelled, whatever the peers have sent so far and whatever writes have failed, one further peer that sends the pieces is enough for the torrent to count as done.",
  "for all torrents, all reachable states with any number of peers, all messages of the peers and all faults of the disk",
  "A statement about all histories, including hostile ones, and about the existence of a good continuation of each.",
  [TO+":113-118 (SetDownloaded)", TO+":136-140 (Done)", TO+":176-195 (WritePiece)", TO+":197-245 (writePieceData)", PE+": Run, unchoke"])
p("What is opened is closed",
  "Every file, tracker socket and response body that is opened is closed when the program is done with it: the torrent file after it was read, the files of a download when opening them fails or the download ends, the socket of a UDP tracker when its goroutine ends, the body of a response when the announce ends, however it ends.",
  "for all torrent files, all results of the file system calls, all tracker URLs, all replies of trackers (status, body, errors while reading)",
  "Needs every error at every call, among them failures of os.Create in the middle of a list of files; leaks do not show in results.",
  [HT+":63-96 (Announce)", TO+":142-166 (initDownloadDir)", TO+":251-258 (Close)", DL+":49-84 (runDownload)", UT+":49-70 (newUdpTracker, Close)"])
p("Whatever is published can be downloaded",
  "For every file and every directory of files, the torrent file made from it as BEP 3 tells is opened by the program, and there is a run of the program with one tracker and one peer that sends what the torrent file describes at whose end, after an interrupt, Download and Stop have returned and the file, or every file of the directory, is in the download directory at its path with exactly its bytes.",
  "for all contents up to 2 PiB, all names, all directories of any number of files, all piece lengths below 4 GiB, all tracker URLs, all results of the hash function, all states of the disk before",
  "Joins encoder, parser, New, announce, handshake, Run, writer and Stop for all contents and all divisions into files and pieces; tests publish a few.",
  [DL+":49-84 (runDownload)", TP+":202-260 (NewMetainfo)", TO+":55-245 (New, WritePiece, writePieceData)", MG+":50-210", PE+":133-420"])
p("Every address is dialled at most five times, and none keeps the others waiting for ever",
  "In a whole run of the program, however many trackers name an address however often, at most five attempts are made to reach it, each with at most one connection; an address that was given up without an interrupt had all five; after a successful handshake there is no further attempt. And wherever the goroutine of a tracker is in a response, it can get to the end of the response by its own steps even if no peer of it can be reached, as long as nothing has crashed and Stop is not closing peers.",
  "for all torrents, tracker replies, peers, results of dialling, interrupts and schedules; all reachable states of the program",
  "Counts attempts over whole runs with any number of trackers and responses, and says of every state that a response can be gone through; a test follows one run.",
  [MG+":109-179 (initPeers, startPeerDownload)", MG+":216-227 (AddPeer)", PE+":122-154 (connect, Announce)"])
p("What the other side hears is what the client said",
  "At any moment of a call of Run, the messages that a peer following BEP 3 takes out of the bytes it got are exactly the messages whose sending succeeded, in order, wherever in a message writes fail.",
  "for all executions of Run on a new peer and all numbers of bytes that failed writes leave on the connection",
  "A write that stops inside a message depends on the state of the socket's buffer; where it stops and what is written after it decide what the other side hears. Tests use writers that take everything or nothing.",
  [CN+":72-77 (WriteMsg)", PM+":83-95 (Send)", PE+":165-200 (unchoke)", PE+":309-319 (checkKeepAlive)"])
p("A status line shows one moment of the download",
  "The percentage, the bytes downloaded, the bytes left and the speed of every line printed while the program runs belong to the same moment: there is a number of blocks received such that all four are computed from the bytes of these blocks.",
  "for all executions of the whole program with its display, all torrents, trackers and peers",
  "The figures are read one after the other, without a lock, by a goroutine of its own; what lies between two reads depends on the scheduler. A test that looks at lines cannot make the writer run between two particular reads.",
  [MG+":181-192 (initStatisticsPrinting)", TO+":176-195 (WritePiece)", SS+":34-57 (AddDownload, Download, Left, Speed)", SS+":84-90 (PercentCompleted)"])
p("No tracker can crash the client",
  "Whatever a tracker of the torrent answers to an announce, the program goes on: a reply that cannot be used is an error of this announce.",
  "for all torrents, all replies (status and body) of HTTP trackers, all datagrams of UDP trackers, in all states of the tracker object and all executions of the whole program",
  "The replies that matter are those nobody thinks of: a document that is no dictionary, a string length beyond 2^63 deep inside one. Tests use the replies of trackers that work.",
  [HT+":114-118 (readPeers)", TP+":44-89 (processTarget)", PA+":92-140 (number, readString)", UT+":112-128 (parseTrackerResponse)", MG+":80-107 (runTracker)"])
p("After an interrupt the program is over within a bounded time",
  "When the context is cancelled (SIGINT, SIGTERM), Download and the Stop after it come to their end within a time that depends only on the timeouts, not on what peers, trackers and the disk do.",
  "for every number of trackers, every state of the download at the interrupt, every interleaving and timing of the goroutines afterwards",
  "An interrupt in a test comes at a few moments and with a disk that is fast; the time to the end depends on where each of any number of goroutines is, on peers that are being dialled at that moment, and on how long the writer keeps a peer waiting.",
  [MG+":54-68 Download", MG+":148-179 startPeerDownload", MG+":194-214 Stop, waitPeers", PE+":211-285 Run", AP+":98-99 NotifyContext"])
p("Trackers are told the port given on the command line, and only a valid one",
  "Whatever is given with --port, if the program announces itself at all, it tells every tracker one port, the one given, between 1 and 65535; anything else is refused at the start.",
  "for all texts of the flag, torrent sizes, moments of the announce, tracker URLs without query, hashes and ids",
  "A test gives one sensible port and one tracker; numbers that are no ports, other notations of the number and the place of the field in a UDP datagram are each an unbounded set of inputs.",
  [DL+":43, 80", MG+":124-129", HT+":98-112 (buildQuery)", UT+":134-150 (createAnnounce)"])
p("What the configuration says takes effect",
  "If the program gets to a command, its logger has the level and the format asked for: on the command line, or else in the environment, or else in the configuration file, or else info and color.",
  "for all machines (files, environment) and command lines",
  "A test looks at one file with one setting; which of several sources counts, for every combination of files that are missing, unusable or there, is a matter of all combinations.",
  [AP+":43-48", AP+":66-93 (initConfig)", AP+":95-118 (NewCmdRun)"])
p("A second interrupt ends the program at once",
  "Whoever sends a second SIGINT or SIGTERM because the program has not ended after the first sees the process end.",
  "for all setups, commands, reachable states of the process and numbers of signals",
  "Tests send one signal to a program that reacts; the second one matters just where the program is stuck, in states that are hard to bring about and at any moment.",
  [AP+":95-118 (NewCmdRun)", DL+":48-83"])
p("A command that fails leaves the disk as it was",
  "If bencode or download ends with status 1, no file on the disk has other contents than before the start.",
  "for all setups, torrent files, contents of the disk and executions of the process up to its end",
  "Tests start from an empty directory and look at the error; what a failing start does to files that are already there depends on which of the files of a torrent cannot be created.",
  [TO+":142-166 (initDownloadDir)", DL+":48-83", AP+":95-118 (NewCmdRun)"])
out=os.path.join(os.path.dirname(__file__),"..","properties.jsonl")
with open(out,"w") as f:
    for x in P: f.write(json.dumps(x,ensure_ascii=False)+"\n")
print(len(P))
