#!/usr/bin/env python3
"""Write MANIFEST.json. Each entry: property, status, theorems (names inside Gotit.Props), note."""
import json, re, glob, os, sys
root = os.path.dirname(os.path.dirname(os.path.abspath(__file__)))
P, Q = "proved", "partial"
claims = [
 ("C01", P, ["C01_encode_parse", "C01_lookup"], ""),
 ("C02", Q, ["C02_int_roundtrip_iff_partial", "C02_int_roundtrip_violated", "C02_negative_rejected_partial", "C02_large_corrupted_partial"],
  "False of the code as stated; exact range of integers that survive is proved."),
 ("C03", P, ["C03_grammar", "C03_unique", "C03_consumed", "C03_numbers"], ""),
 ("C04", Q, ["C04_panic_iff_partial", "C04_no_panic_violated", "C04_no_panic_partial"],
  "False of the code: a 18-digit length panics. Exact set of panicking inputs proved."),
 ("C05", P, ["C05_terminates", "C05_fuel_irrelevant"], ""),
 ("C06", P, ["C06_raw","C06_atoms"], "C06_atoms covers strings and integers, which keep no source text."),
 ("C07", P, ["C07_truncation", "C07_truncation_api"], ""),
 ("C08", P, ["C08_trailing"], ""),
 ("C09", P, ["C09_last_wins"], ""),
 ("C10", Q, ["C10_no_alias_violated", "C10_view_faithful", "C10_shape_partial", "C10_exact_partial"], "False of the code (unsafe b2s). Exactly: an integer never changes; a string changes just if its own bytes are overwritten; a list or dictionary just if any byte of its text is."),
 ("C11", Q, ["C11_text_violated", "C11_iff_partial", "C11_text_partial"], "False of the code; the texts agree exactly if no non-empty container built by the program is inside another one."),
 ("C12", Q, ["C12_panic_iff_partial", "C12_no_panic_violated", "C12_key_violated", "C12_key_iff_partial", "C12_all_partial", "C12_wrong_target"], "False of the code. C12_all_partial gives the exact panic condition for every target, C12_panic_iff_partial a shorter one for targets whose maps have string keys; for a map with another key type see C12_key_violated."),
 ("C13", P, ["C13_required", "C13_missing", "C13_absent_untouched", "C13_optional"], ""),
 ("C14", Q, ["C14_int_partial", "C14_uint_partial", "C14_unmarshal_partial", "C14_range", "C14_exact_violated"],
  "False for document numbers above 922337203685477580 (mangled by Parse); exact otherwise."),
 ("C15", P, ["C15_info_hash"], ""),
 ("C16", Q, ["C16_atomic_violated", "C16_exact_partial", "C16_before_partial", "C16_later_fields_partial", "C16_single_field_partial"], "False of the code. C16_exact_partial says for every target, with nested structs and pointers, what a failing call leaves: up to the failing field everything is stored, inside it the same holds if it is a struct (a nil pointer to one has become non-nil), the later fields are unchanged."),
 ("C17", Q, ["C17_success_iff_partial", "C17_compact_violated"], "False of the code: every compact response fails. Exactly which responses succeed is proved."),
 ("C18", Q, ["C18_entries_partial", "C18_all_valid_violated"], "Order and count proved; validity false (zero addresses for unparsable entries), exact condition proved."),
 ("C19", P, ["C19_compact", "C19_valid"], "parseCompactPeers is also what the UDP tracker uses."),
 ("C20", P, ["C20_failure", "C20_status"], ""),
 ("C21", Q, ["C21_wait_partial", "C21_failed_partial", "C21_wait_violated", "C21_udp_partial"], "False without interval or above 9223372036 s; proved otherwise."),
 ("C22", Q, ["C22_params_partial", "C22_query_url_partial", "C22_query_url_violated", "C22_characters", "C22_kept"], "Proved for URLs without query; false for every URL with a query, exact form proved."),
 ("C23", Q, ["C23_length_violated", "C23_hash_violated", "C23_header_partial", "C23_fields_partial", "C23_connect"], "False of the code: 80 bytes, no info-hash. Header, connect request and the value and place of every other field proved."),
 ("C24", P, ["C24_foreign", "C24_panic_iff", "C24_announce_no_panic"], ""),
 ("C25", Q, ["C25_announce_violated", "C25_connect_partial", "C25_parse_partial", "C25_if_eof_partial"], "False of the code: ReadAll on a UDP socket always fails. Parsing of answers proved."),
 ("C26", Q, ["C26_message_violated", "C26_announce_violated", "C26_action2_partial"], "False of the code: error action is 2 instead of 3."),
 ("C27", Q, ["C27_framed_partial", "C27_framed_iff_partial", "C27_framed_violated"], "False for bitfield messages (unless 13 pieces) and for re-sent type-99 messages; proved for every other message the client builds or received."),
 ("C28", Q, ["C28_request_violated", "C28_wire_partial", "C28_have_partial"], "False of the code: request and cancel carry the length as index and zeros; have, keep-alive and signals proved."),
 ("C29", Q, ["C29_no_panic_violated", "C29_panic_iff_partial", "C29_total"], "False of the code; exact condition for the panic proved."),
 ("C30", P, ["C30_fields", "C30_pieces"], ""),
 ("C31", Q, ["C31_bits_violated", "C31_bits_partial", "C31_seed_partial", "C31_bitfield_partial", "C31_sent_partial"], "False of the code: the order is reversed in each group of 64; exact relation proved."),
 ("C32", P, ["C32_framing", "C32_sound"], ""),
 ("C33", Q, ["C33_resync_violated", "C33_timeout_partial", "C33_idle_partial"], "False of the code: bytes read before a timeout are lost; exact effect proved; holds when the deadline passes between messages."),
 ("C34", P, ["C34_accept_iff", "C34_own", "C34_client_id"], ""),
 ("C35", P, ["C35_success_iff", "C35_table"], ""),
 ("C36", P, ["C36_next", "C36_distinct", "C36_terminates", "C36_new"], "Any number of goroutines, operations interleaved one by one."),
 ("C37", Q, ["C37_again_violated", "C37_available_partial"], "False of the code: a piece handed out is never handed out again in any execution."),
 ("C38", P, ["C38_done", "C38_stable", "C38_new"], "C38_invalid_index shows why valid indexes are needed."),
 ("C39", Q, ["C39_done_violated", "C39_initial_partial", "C39_new_partial", "C39_opened_partial"], "False for non-positive piece lengths; exact condition proved (amd64 float conversion)."),
 ("C40", P, ["C40_ceiling", "C40_new", "C40_bound_sharp", "C40_bound_overflow", "C40_bound_zero"], "C40_bound_sharp: the bound 2^53 cannot be dropped."),
 ("C41", P, ["C41_layout", "C41_bytes", "C41_reachable"], "For non-empty blocks inside the torrent; C41_reachable shows New yields such torrents for sensible metainfos."),
 ("C42", Q, ["C42_multi_violated", "C42_single_violated", "C42_outside_partial", "C42_single_partial"], "False: a block overlapping the end is partly written (multi-file) or extends the file (single-file). Exact effect proved for both kinds of torrents; blocks starting beyond the end are rejected untouched in multi-file torrents."),
 ("C46", Q, ["C46_violated", "C46_path_violated", "C46_inside_partial", "C46_iff_partial"], "False: names and paths with .. reach any file. Proved for plain names, and exactly which names and paths keep the files inside every download directory."),
 ("C47", Q, ["C47_violated", "C47_distinct_partial", "C47_iff_partial"], "False: only the first path element is used. Proved when first elements are distinct plain names; exactly which files share a file on disk is proved."),
 ("C48", P, ["C48_trackers", "C48_add_reports", "C48_addAll"], ""),
 ("C43", Q, ["C43_violated", "C43_misplaced_violated", "C43_verified_partial", "C43_exact_partial", "C43_iff_partial"], "False: the offset of an accepted piece is never checked. Proved for offset 0 and messages that are not second preimages. Exactly, for any offsets: a byte is decided by the last message lying over it and is the byte of the content that many places before."),
 ("C44", Q, ["C44_violated", "C44_done_partial"], "False when the length is not a multiple of the piece length; exact condition proved."),
 ("C45", Q, ["C45_violated", "C45_iff_partial", "C45_one_block_partial"], "False for pieces longer than one block: the block's hash is compared with the piece's. Proved when the answer carries the whole piece."),
 ("C49", P, ["C49_lifo", "C49_conservation", "C49_holds"], "All interleavings of individual operations."),
 ("C50", Q, ["C50_violated","C50_blocks_partial","C50_tiles_partial","C50_iff_partial"], "Exactly: a piece is covered just if its size is max 1 (pieceLength / 128 KiB) whole blocks, at most 4 GiB, and its number has 32 bits. Violated when the piece length is not a multiple of 128 KiB or for the last piece: the blocks requested cover blockNum*128 KiB only. Partial: the blocks requested between two Next calls are consecutive from 0 without gap or overlap."),
 ("C51", Q, ["C51_violated","C51_index_partial","C51_returned_partial"], "Violated: a new peer has blockIdx 0 < blockNum, so it requests piece 0 without calling Next. Partial: after the first Next call every created request is for the piece last returned (index below 2^32)."),
 ("C57", P, ["C57_state","C57_run"], "For every sequence of messages handled without panic, and for every execution of Run that has not crashed."),
 ("C52", Q, ["C52_violated","C52_C55_partial"], "Violated: nothing ever sets the client's interest flag, so Run on a new peer never sends a request in any execution. Partial: with the flag set, an iteration with the peer unchoked and nothing outstanding attempts a request within six steps."),
 ("C53", P, ["C53_unchoked"], "For every execution from every initial peer state, not only from NewPeer (where no request is ever sent)."),
 ("C54", Q, ["C54_one","C54_requeue_partial","C54_requeue_requests","C54_violated"], "At most one request outstanding: proved. Requeueing: violated when the read error happens in the unchoke loop (peer choked meanwhile); proved exactly for all other failures."),
 ("C55", Q, ["C55_violated","run_answered","C52_C55_partial"], "Violated: after a request is sent, no other is sent until a read fails. Partial: after a failed read the next iteration asks again."),
 ("C56", Q, ["C56_violated","C56_cancel_partial","C56_done_partial","C56_progress","C56_time_violated","C56_time_partial"], "Violated: one more request can be sent after cancellation or completion, and the unchoke loop ignores completion. Partial: at most one more request; at most 12 more steps after cancellation; after completion 14 steps plus four per failed read or write. In time: a piece waiting for the writer keeps Run going for ever; otherwise Run ends within 4 s + twice the longest such wait + ten delays of the scheduler after cancellation."),
 ("C58", P, ["C58_counters","C58_sum"], "Also for the tracker counter."),
 ("C59", Q, ["C59_violated","C59_overrun_violated","C59_left_partial","C59_once_partial"], "Violated when bytes are received twice: Left wraps to almost 2^64. Partial: at every moment of every interleaving, while the bytes reported do not exceed the size; in particular when every piece is received at most once."),
 ("C60", Q, ["C60_violated","C60_panic_violated","C60_bar_partial","C60_drawn_partial", "C60_iff_partial", "C60_received_partial", "C60_percent_int"], "Violated from 105% on (bytes received twice): negative Repeat count. Partial: exactly the percentages 0-104 are drawn with 20 cells; in bytes: always up to 104% received, never from 105% on."),
 ("C68", P, ["C68_percent"], "IEEE-754 rounding modelled exactly; at most 100 is in C60_drawn_partial."),
 ("C61", P, ["C61_first","C61_once","C61_download","C61_failed_kept", "C61_counted", "C61_listed"], "AddPeer and Stop under the mutex operation by operation, any number of goroutines; and the whole manager: at most one peer per address handshaking or running, PeerNum = added - failed. Also: a peer that failed stays in the pool, so its address is never tried again."),
 ("C62", Q, ["C62_violated","C62_partial"], "Violated for every limit: peerNum is stored and never read. Holds: no more peers than different addresses received, no more running than pooled."),
 ("C63", Q, ["C63_violated","C63_violated_send","C63_violated_close","C63_violated_map","C63_causes_partial","C63_orderly_partial"], "Violated in three ways, each with a schedule. Holds: the exact cause of every possible panic (including that of Announce at the reply of a tracker, C148), and no panic if at the return of Download the trackers and peers have ended and no handshake failed."),
 ("C64", Q, ["C64_violated","never_returns","C64_partial","C64_winds_partial","C64_bound_partial","C64_cancel_partial"], "Violated: whatever has been written, Download does not return unless the context is cancelled from outside. Holds: after cancellation, from every state, Download and Stop get to their end as the peers end, in at most running peers + pool + 10 steps unless further peers are connected."),
 ("C65", Q, ["C65_violated","C65_partial","C65_drains_partial"], "Violated: nothing waits for the writer. Holds: no loss or reordering, at most 1025 messages outstanding, everything written once the writer returned, which it can always reach."),
 ("C66", P, ["C66_tracker","C66_peer","C66_attempts","C66_limit","C66_requests","C66_udp"], "For every outcome of every attempt and every cancellation point."),
 ("C69", Q, ["C69_tracker","C69_peer_violated","C69_peer_partial"], "Trackers: proved. Peers: violated, Delay(500) is 500 nanoseconds."),
 ("C70", Q, ["C70_violated","C70_partial"], "Violated: WaitGroup reused before previous Wait has returned. Holds: it is the only panic of the manager before cancellation besides that at the reply of a tracker (C148; the display is apart: C137_shown_partial)."),
 ("C67", Q, ["C67_violated","flags_ignored","C67_names_violated","C67_level_partial","C67_partial","C67_silent", "C67_format_partial"], "Violated for every documented level but info: the logger is built when the commands are constructed, from the defaults. Two documented names are unknown besides. Holds: what NewCommandLine does with every value."),
 ("C71", Q, ["C71_violated","C71_partial","C71_order_partial","C71_init_partial","startProgram_command"], "Violated for every path: the configuration is read before the flags are parsed. Holds: the default configuration is what is read; if it is unusable no command runs."),
 ("C72", Q, ["C72_violated","C72_path_violated","C72_panic_iff_partial"], "Violated: a file containing a list, or a torrent with an empty file path, crashes. Proved: the exact condition for a crash."),
 ("C73", P, ["C73_roundtrip","C73_open"], "For every document carrying a metainfo, in any key order."),
 ("C74", Q, ["C74_violated","C74_first_message_violated","C74_crash_iff_partial","C74_download_partial"], "False of the code. Proved: any too short have/request/cancel/piece message, or a piece message with an index out of range, crashes the program whenever Run reads; and, while the write channel is open, no other message crashes the goroutine that handles it (exact condition over all traces). A peer can also crash the display by sending a right piece several times: C137_print_violated."),
 ("C75", Q, ["C75_violated","C75_have_violated","C75_alloc_partial"], "False of the code. Proved: four bytes make the client reserve any amount below 4 GiB; a have message makes the set of pieces as long as its index; upper bound and exact amount for messages that arrive."),
 ("C76", P, ["C76_verified", "C76_stream"], "For every torrent opened by New whose piece positions fit in int64."),
 ("C77", P, ["C77_once"], ""),
 ("C78", Q, ["C78_violated","C78_pushed_partial","C78_anywhere_partial"], "False of the code: as long as peers send blocks only on request nothing is ever written and Done stays false (the client never becomes interested, so it sends no request). Proved as partial: if a peer pushes all pieces unasked and the content fills its last piece, the download completes with the right content. Exact, from any state (C78_anywhere_partial): whatever happened before, including failed writes and stalled peers, a download that has not crashed or been cancelled can still be completed by one more peer that pushes the pieces, if and only if the content fills its last piece. That such a peer comes is not claimed."),
 ("C79", Q, ["C79_violated","C79_done_partial"], "False of the code: for every single-file torrent with a short last piece beginning with a non-zero byte there is a download of verified blocks at whose end Done holds and a byte is wrong. Proved as partial: holds if blocks are sent with offset 0, no second preimages are found and there are no surplus hashes."),
 ("C80", Q, ["C80_determined_partial", "C80_violated", "C80_order_violated"], "False of the code for every element with a dictionary of two or more keys; proved that the text is determined exactly when no dictionary has two keys."),
 ("C81", Q, ["C81_violated", "C81_others_partial", "C81_built_partial"], "False of the code (the map is shared); proved that elements not holding the map keep their text and that a builder used once gives the dictionary of what was added."),
 ("C82", Q, ["C82_ends_iff_partial", "C82_violated"], "False of the code for a builder to which its own element is added; proved that Encode returns exactly for well-founded elements."),
 ("C83", Q, ["C83_partial", "C83_running_partial", "C83_violated"], "False of the code for Peer.conn: Stop closes the connections of the pool while a tracker goroutine may still be dialling. Proved that this is the only pair, using goroutine starts, mutexes and the channel only; hence none before Stop."),
 ("C84", P, ["C84_one", "C84_blocked", "C84_release", "C84_no_deadlock"], "Closing a connection in Stop, logging and file operations are taken to return."),
 ("C85", P, ["C85_started_iff", "C85_handover", "C85_written"], "Dialling, writing and the events on the connection are parameters; retry.Do as documented."),
 ("C86", Q, ["C86_leak_violated", "C86_open_partial", "C86_first_partial"], "False: connect overwrites p.conn without closing the previous connection; a silent peer leaves four open. Proved exactly which connections stay open, and that none does if the first attempt succeeds. Missing: the property itself."),
 ("C87", Q, ["C87_violated", "C87_figures_partial", "C87_every_partial", "C87_bound_partial", "C87_quiet_partial"], "False: two counters are changed and read one after the other. Proved exactly which pairs of figures occur (both directions), that the sum exceeds the size by at most one block, and that it is right when the writer stands still. Missing: the property itself."),
 ("C88", P, ["C88_http", "C88_udp", "url_scheme_unique"], "What url.Parse makes of the part after the scheme, and dialling, are parameters."),
 ("C89", Q, ["C89_violated", "C89_but_strings_partial", "C89_same_partial", "C89_maps_partial", "C89_maps_same_partial", "C89_maps_violated", "C89_hash_partial"], "Violated: a dictionary with two keys stored in a string field (its text follows the iteration order). Proved: the outcome, all numbers, raw bytes and lengths never depend on the order; everything is the same if no text of a dictionary with two keys lands in a string; the torrent hash never depends on it. For target types with maps: the call succeeds in every order or in none and stores the same up to strings; but which failure it is, even error or panic, may depend on the order (map[string]map[int]int)."),
 ("C90", P, ["C90_why", "C90_keepalive"], "Crashes are treated in C74 and C76."),
 ("C91", Q, ["C91_given_partial", "C91_partial", "C91_violated", "C91_retry_violated"], "Stated for peers that are interested (NewPeer makes none, so that the program sends no request at all, see C52). What holds: a request is for the piece Next gave last, and Next gives only announced pieces (bitfields read in the reversed order of C31); or it was put back by a peer with the same retry queue; or it is for piece 0 before Next was ever asked. Missing, because false: the two last cases do not look at what the peer has."),
 ("C92", Q, ["C92_some_order_partial", "C92_partial", "C92_violated", "C92_order_violated"], "Violated: i01e comes back as i1e; d1:ai1e1:bi2ee may come back as d1:bi2e1:ai1ee. Exact: some iteration order gives the text back iff the text is Plain (numbers without leading zeros and not above maxNumber, no repeated key); every order does iff moreover no dictionary has two keys."),
 ("C93", Q, ["C93_int_partial", "C93_uint_partial", "C93_violated"], "Violated: a string that is an integer literal of Go is accepted as well (\"0x10\" gives 16, \"077\" gives 63, \"-1_000\" gives -1000). Exact: a field is set to n iff the element is the integer n, or a string that is a Go literal (with a sign for signed fields) for n, and n fits. Lists, dictionaries and all other strings are refused."),
 ("C94", P, ["C94_stored", "C94_zero"], "Both directions. StoredFields (Spec/Stored.lean) is a relation on types, old contents, elements and new contents that does not mention the code. Integer types have 8, 16, 32 or 64 bits; the target has the shape of its type."),
 ("C95", Q, ["C95_iff_partial", "C95_built_partial", "C95_parsed_partial", "C95_violated"], "Violated for parsed documents: nested lists and dictionaries start again at the margin. Exact: laid out by depth iff no non-empty parsed list or dictionary lies inside another one; a parsed document has no line deeper than one tab."),
 ("C96", Q, ["C96_violated", "C96_never_partial", "C96_unchoke"], "Violated in every execution: after the handshake a peer hears only interested messages and keep-alives. For every torrent of more than one piece there is a download in which a verified, stored piece is asked for by an interested peer and nothing is ever given."),
 ("C97", Q, ["C97_violated", "C97_iff_partial", "C97_opened_partial", "C97_any_partial"], "Violated: os.Create truncates. Exact: opening empties precisely the torrent's own files (up to the first that cannot be created), touches no other file, and loses nothing iff they were all empty; no piece counts as downloaded afterwards. A finished download started again is lost."),
 ("C98", Q, ["C98_violated", "C98_gone_partial", "C98_new_partial"], "Violated: the pool forgets no address. Exact: an address that was tried and is neither being tried nor connected stays so for ever; an address never tried before is tried as soon as it is named."),
 ("C99", Q, ["C99_violated", "C99_exact_partial"], "Violated: RemovePeer is only called when the handshake fails. Exact: the number is the peers being tried plus the connected ones plus all that were connected before; any number may be shown when no peer is left."),
 ("C100", Q, ["C100_violated", "C100_udp_violated", "C100_always_partial"], "Violated both ways: every request to an HTTP tracker says started, whatever was answered and downloaded (so completed and stopped are never said either); UDP trackers get event 0 (none) every time."),
 ("C101", P, ["C101_sizes", "C101_exact", "C101_mono"], "Below 2^53 exactly the nearest tenth; up to 2^64 the error is at most 0.0501 units, as float64 rounds first."),
 ("C102", P, ["C102_speed", "C102_start"], "Relative error of the value before rounding at most 2^-49."),
 ("C103", Q, ["C103_violated", "C103_iff_partial", "C103_line_partial", "C103_counts", "C103_removed"], "Violated: AddTracker is never called, so 0 is shown; right exactly when no tracker is in use. The other fields are right."),
 ("C104", Q, ["C104_violated", "C104_reads_partial", "C104_name_partial", "C104_size_partial"], "Violated: a name with a line break forges lines; several files are shown as 0B; an absent date is shown as 1970. Without line breaks every printed field can be read back, the info-hash by decoding base64; a name can be read exactly if it has no line break."),
 ("C105", Q, ["C105_violated", "C105_exit_partial"], "Violated for every file: the lines that print are commented out. The exit code and the logged error are right."),
 ("C106", Q, ["C106_violated", "C106_exit_partial"], "Violated: every error gives the same text, `error with the app`; the reason is dropped. The exit code is 1."),
 ("C107", Q, ["C107_violated", "C107_wrap_violated", "C107_partial", "C107_final"], "Violated: a file of negative length makes writePieceData cut the data at a negative place; a position of 2^63 wraps and has the same effect. If no file length is negative and no position a message can name exceeds 63 bits, the writer never panics. After a panic nothing happens any more."),
 ("C108", Q, ["C108_violated", "C108_bound_partial", "C108_partial", "C108_spacing", "keepAliveDue_iff", "timed_reachable", "timed_progress"], "Violated: handlePeerMessage sends a verified piece on a channel to the writer without a deadline; while the writer is busy no keep-alive is sent, however long. If a message waits at most w for the writer, the silence is at most 117 s + w + ten delays of the scheduler, hence below two minutes if w + 10 delays are at most 3 s. Keep-alives are at least 114 s apart. The floating point comparison Minutes() >= 1.9 is exactly 114 s."),
 ("C109", Q, ["C109_violated", "C109_partial"], "Violated: unchoke retries for ever (100 ms to 30 s between the attempts) while the connection is dead; only cancelling ends it. Outside unchoke, with a peer that has unchoked this client, Run ends within 117 s + w + ten delays of the scheduler, because the keep-alive fails."),
 ("C110", P, ["C110_rest","C110_growth","C110_growth_sharp"], "The jitter of the back-off stays at or above its minimum of 100 ms. In one call of unchoke the wait after the k-th failure is at most 100 ms doubled k - 1 times and at most 30 s, and every wait within these bounds can happen. A keep-alive that fails ends Run."),
 ("C111", P, ["C111_set", "C111_kept"], "Proved in the model of a whole download in which each write may fail after any number of bytes. C111_kept assumes, as C79_done_partial, that blocks come with offset 0 and that nobody finds other bytes with the hash of a piece."),
 ("C112", Q, ["C112_violated", "C112_counted_partial"], "Violated: WritePiece counts before it writes. On a full disk the whole content is counted, left is 0 and the bar is full although nothing was written. Exact: what is counted is the bytes of all blocks taken from the channel, whatever became of them."),
 ("C113", Q, ["C113_violated", "C113_never_partial"], "Violated: if New opens a metainfo, it also opens the same with any number of hashes. With fewer hashes than pieces no reachable state of the download is done."),
 ("C114", Q, ["C114_violated", "C114_multi_partial", "C114_single_partial"], "Violated for single-file torrents: a peer that sends a right piece with offset b makes the file i*pieceLength+b+length long. Proved for torrents with several files, with lengths within Go's int; a single file ends at the latest where some accepted block ends."),
 ("C115", Q, ["C115_violated", "C115_first_partial", "C115_in_time_partial"], "Violated: the handshake reads one datagram and compares its transaction id. After one late answer every later attempt reads the answer to the attempt before it and fails, though all are answered in time. Exact: an attempt succeeds if and only if the first datagram on the socket is the answer to it."),
 ("C116", P, ["C116_message", "C116_others", "timed_untimed", "timed_untimed_all"], "The deadline is set once per call, not per Read. timed_untimed: the model with clock times gives the results of Model/Net for a deadline that passes at the right moment. The other three readers give the same bound; computing takes no time in the model."),
 ("C117", Q, ["C117_violated", "C117_iff_partial"], "Violated: the one deadline covers the whole message. A block of 128 KiB sent steadily at 100 kB/s is never received. Exact: a message is received if and only if its length and all its bytes arrive within one second of the start of the read."),
 ("C118", Q, ["C118_violated", "C118_one_partial", "C118_after_partial", "C118_exact_partial", "C118_reannounce_partial"], "Violated: the peers are contacted one after the other, an unreachable one taking ten seconds (five dials of two seconds). The last of fifty may wait 490 s, and the tracker is asked again that much later. Holds: at most 20 s (and microseconds, and timers that are late) per accepted peer before it in the list."),
 ("C119", Q, ["C119_violated", "C119_compact_partial", "C119_success_partial", "C119_failure_partial", "C119_again_partial"], "Violated by every compact reply, the form the client asks for: the announce fails (C17), its interval is ignored and the request is repeated after 1, 2, 4 and 8 seconds, five requests a minute. Holds after replies the announce succeeds with, intervals up to 292 years; after other failures than the fifth in a row at least a second passes."),
 ("C120", Q, ["C120_violated", "C120_only_violated", "C120_ignored_partial"], "Violated: the key is decoded and then not used (a TODO in the source). A response without IPv4 peers is an error. Exact: two responses that agree in failure reason, interval and peers have the same effect, whatever else they contain."),
 ("C121", Q, ["C121_violated", "C121_always_partial"], "Violated by every tracker that sets an id different from the random one the client made up. Exact: all requests of all rounds carry the id drawn when the tracker object was made."),
 ("C122", Q, ["C122_violated", "C122_exact_partial"], "Violated by every reply whose min interval is above its interval. Exact: the next request comes after the interval and the delay of the timer, whatever else is in the reply."),
 ("C123", Q, ["C123_violated", "C123_false_violated", "C123_lost_violated", "C123_iff_partial"], "Violated: while the torrent file is being opened or read (a pipe, a stalled disk) any number of signals has no effect, as they are caught and nobody looks at the context; between the construction of the two commands an interrupt of a download is forgotten. Exact: after a signal the program gets to its end unless it still needs something from the file. During a download it always does (C64_cancel_partial)."),
 ("C124", Q, ["C124_violated", "C124_interrupted_partial", "C124_forever_partial","C124_status_partial"], "Violated: a download interrupted at once ends with status 0 and nothing written. Exact: status 0 occurs only after an interrupt, complete or not; without one a download that has begun goes on for ever or dies with status 2."),
 ("C125", Q, ["C125_violated", "C125_open_violated", "C125_exact_partial", "C125_bytes_partial"], "Violated: whatever the stack size, a well-formed document of nested lists (or just enough letters l) exhausts it. Exact: with room for k nested calls the parser dies exactly on the texts in which an element has to be read while k containers are open; otherwise the stack makes no difference. A text shorter than k bytes is always safe."),
 ("C126", Q, ["C126_violated", "C126_exact_partial", "C126_noseeds_partial"], "Violated: every web seed with an http(s) URL receives announces. Exact: announces go to precisely the usable URLs of announce, announce-list and url-list. Holds for torrents without such web seeds."),
 ("C127", Q, ["C127_violated", "C127_announce_violated", "C127_any_partial"], "Violated for every torrent with trackers in two tiers: any set of trackers may have begun to announce while the others have not. The announce URL is always used."),
 ("C128", Q, ["C128_violated", "C128_cut_partial", "C128_unbroken_partial", "C128_announced_partial", "C128_any", "C128_world_any"], "Violated for every message: bytes inside another message (say a block) are taken for it when the deadline passes while that message arrives, because Run goes on reading. Always: each message acted on stands in the arrived bytes after its length, in order and without overlap. If no deadline passes and no error happens inside a message, exactly the messages sent are acted on. C128_any and C128_world_any: the executions of the models PeerRun and World are exactly those some bytes on the connections lead to (messages below 4 GiB), so their theorems, positive and negative, are about remote peers that only send bytes."),
 ("C129", P, ["C129_text", "C129_different", "C129_pieces"], ""),
 ("C130", P, ["C130_set"], ""),
 ("C131", P, ["C131_close"], "Close is never called by the program."),
 ("C132", Q, ["C132_violated", "C132_lost_partial", "C132_queue_partial", "C132_response_partial"], "False: every call of initPeers makes its own retry queue, and Next never gives a piece again. C132_queue_partial: once given by Next, a piece is only ever asked of peers of the same response. C132_lost_partial: when those have returned, it is never asked for again. C132_response_partial: in the whole program every response gets a queue that no peer of another response has. C132_violated: such executions exist for every torrent with pieces below 128 KiB. Stated for peers with the interest flag set (see C52)."),
 ("C133", Q, ["C133_exact_partial", "C133_connect", "C133_violated"], "False for announces: parseTrackerResponse looks at the action code of the answer only, not at what was asked; an announce answered with a connect answer succeeds with the peers of a former announce (C133_violated; stated for an answer that can be read, see C25). C133_connect: holds for connect requests, exactly. C133_exact_partial: what is accepted, exactly."),
 ("C134", Q, ["C134_violated", "C134_http_partial", "C134_udp_partial", "C134_tries_partial"], "False for HTTP trackers: http.DefaultClient has no timeout, so an answer can come arbitrarily late, and a body that never ends keeps Announce from returning (C134_violated); C134_http_partial: it returns exactly if there is an answer and its body ends. Holds for UDP trackers: two seconds for an announce (C134_udp_partial), 25 seconds for five attempts with their pauses (C134_tries_partial). Nothing is cancelled in these theorems."),
 ("C135", Q, ["C135_violated", "C135_told_partial", "C135_exact_partial"], "False: a peer is told before it has said anything, and one that has nothing is told again and again (C135_violated). C135_told_partial: nothing is heard from a peer that has not been told before. C135_exact_partial: once told, a peer takes the client to be interested for good; the client never says that it is not."),
 ("C136", P, ["C136_provenance", "C136_file", "C136_bytes", "C136_parts", "C136_any"], "C136_file begins with the torrent file, given as the encoding of a metainfo, C136_bytes with any bytes the program opens. C136_provenance is the property, for the whole program: manager, trackers, connections, Run of all peers, writer in one model. C136_parts: every execution of the whole program is one of Model/Manager and one of Model/World, so their theorems hold for it. C136_any: conversely what peers, writer and disk can do in Model/World (each peer with its own retry queue, messages below 4 GiB, as many peers as trackers can name) they can do in the whole program. The hypothesis on the size (2^63 bytes) is that of C76."),
 ("C137", Q, ["C137_violated", "C137_send_violated", "C137_wait_violated", "C137_close_violated", "C137_map_violated", "C137_print_violated", "C148_violated", "C137_exact_partial", "C137_shown_partial", "C137_causes_partial", "C137_trackers_partial"], "False in seven ways, each shown by an execution of the whole program (Model/Program), for every torrent with an HTTP tracker: a malformed message of a peer (C137_violated); a verified piece that comes after an interrupt (C137_send_violated); a peer that ends while another is started, without any message or interrupt (C137_wait_violated); an interrupt after a peer could not be reached (C137_close_violated) or before a tracker answers (C137_map_violated); a peer that sends a verified piece again and again until the display panics at 105% (C137_print_violated, Model/Display); a reply of a tracker that is no dictionary (C148_violated). C137_exact_partial: before an interrupt the first, the third and the last are the only ones, exactly, of the goroutines other than the display; C137_shown_partial: with the display these and its panic, which needs more than 104% of the size received. C137_causes_partial: apart from the display there is no seventh. C137_trackers_partial: before an interrupt and without peers the replies of C148 are the only cause, exactly."),
 ("C138", Q, ["C138_violated", "C138_entries_partial", "C138_listed_partial", "C138_dialled_partial"], "C138_violated: in every execution in which trackers list peers by host names, no peer is ever connected to. C138_entries_partial: an entry is valid exactly if its ip is the text of an address in the sense of RFC 4291/4007 (specified on its own, Spec/Netip) and its port a number, and then is that address. C138_listed_partial: a response listing addresses in whatever forms of text is answered with exactly these addresses. C138_dialled_partial: the text dialled for an address is understood by net.Dial exactly if its zone has no brackets, and then as this address and port."),
 ("C139", Q, ["C139_violated", "C139_exact_partial"], "C139_violated: for every IPv4 address and port, a tracker that lists it once as dotted quad and once IPv4-mapped makes the client hold two connections to the same endpoint (an execution of the whole program). C139_exact_partial: that is the only way; any two running peers have different addresses, since AddrPort.String is injective."),
 ("C140", P, ["C140_new", "C140_from", "C140_model", "C140_model_new", "C140_model_from", "C140_room"], "About the library bitset v1.2.2 on its words (BitVec 64), as gotit calls it. C140_new, C140_from: every result of every sequence of calls, against a specification in terms of the calls before. C140_model…: the word algorithms give the same results as Model/BitSet, which the other properties use, so these do not depend on that abstraction."),
 ("C141", P, ["C141_goes_on", "C141_again"], "C141_goes_on: safety, in every continuation without cancellation. C141_again: in every endless execution without cancellation in which the goroutine leaves each of its calls; that announces, handshakes and waits return is the matter of C134, C110 and C21."),
 ("C142", Q, ["C142_partial", "C142_violated", "C142_honest_violated"], "Holds when the content fills its last piece (C142_partial). With a shorter last piece a torrent of several files never counts as done, whatever peers send (C142_violated: no hypothesis on them); any torrent does not as long as the peers send whole pieces (C142_honest_violated)."),
 ("C143", Q, ["C143_body", "C143_files", "C143_new_partial", "C143_never_partial", "C143_violated"], "Holds for response bodies (C143_body). Fails for the rest: torrent file, files of the download and UDP sockets are never closed (C143_never_partial), also when New fails half-way (C143_new_partial, exact; C143_violated). Close of a torrent would close exactly what is open (C143_files); nothing calls it."),
 ("C144", Q, ["C144_flat_partial", "C144_nested_violated"], "C144_flat_partial: for single files and directories without directories inside, whether or not the last piece is full, with exact file lengths, and the program ends normally. Fails for directories inside directories (C144_nested_violated): only the first name of a path is used, so the file is never at its place, whatever peers and trackers do."),
 ("C145", P, ["C145_dials", "C145_response"], "For every run of the program. Time does not occur here (see C118 for how long it takes)."),
 ("C146", Q, ["C146_violated", "C146_intact_partial", "C146_broken_partial"], "False: unchoke writes interested again after a write that failed in the middle of the message; the other side then hears choke (or a keep-alive) and takes the rest for the beginning of a long message: for up to 52 repetitions nothing else is heard. C146_intact_partial: exactly what was said is heard if only the last write was cut. C146_broken_partial: whenever a cut message is followed by a whole one, what is heard is not what was said. (Between the two: several cut writes after each other and nothing more.)"),
 ("C147", Q, ["C147_violated", "C147_lines_partial", "C147_bound_partial"], "False: for every torrent there is an execution that prints a line with nothing downloaded and yet a piece less left. C147_lines_partial: what the figures of every line are, exactly in terms of blocks: the percentage not newer than downloaded, downloaded at most one block ahead of left, the speed the newest. C147_bound_partial: in bytes, while no more than the size was received: downloaded and left exceed the size by at most one block."),
 ("C148", Q, ["C148_violated", "C148_reply_partial", "C148_udp_partial", "C137_trackers_partial"], "False: a reply with status 200 whose body begins with an element other than a dictionary, e.g. le, ends the program before there is any peer (C148_violated, for every torrent with an HTTP tracker). C148_reply_partial: exactly these replies, and those in which a string with a length gotit takes for negative is reached, make Announce panic. C148_udp_partial: no datagrams of a UDP tracker do. C137_trackers_partial: in the whole program, before an interrupt and without peers, nothing else crashes. (Stack overflow by nesting is C125.)"),
 ("C149", Q, ["C149_violated", "C149_partial", "C149_moves_partial", "C149_late_partial", "C56_time_partial"], "Violated: a Run that waits for the writer has no time limit, and Download waits for it, interrupt or not (C149_violated). Holds if the writer takes every piece within w: over within 4 s + 2w + (16 + trackers + peers in the pool) delays of the scheduler, whatever trackers and dialled peers do (C149_partial). The times in the model can always be kept (C149_moves_partial); its limits for Run are C56_time_partial and C149_late_partial."),
 ("C150", Q, ["C150_violated", "C150_http_partial", "C150_flag_partial", "C150_udp_violated", "C150_udp_partial"], "False: every integer of 64 bits is accepted and announced as it is, so that outside 0 to 65535 no tracker can read it (C150_violated). UDP trackers never find the port: the datagram ends before its place (C150_udp_violated); it stands modulo 2^32 in the last four bytes (C150_udp_partial). HTTP, exactly: one port in decimal, read back as given iff it is between 0 and 65535 (C150_http_partial). Nothing listens on the port: there is no call of net.Listen in the repository (see C96)."),
 ("C151", Q, ["C151_violated", "C151_format_violated", "C151_exact_partial", "C151_commands_partial"], "False on every machine where the program starts and for every level but info (C151_violated). Exactly: the program does not start iff the search for .gotit finds a file that is not usable (this holds for every command, with or without --config); otherwise the logger is info and color, although viper holds what is in the environment or else in the file (C151_exact_partial). viper is modelled by its documented behaviour."),
 ("C152", Q, ["C152_violated", "C152_false_violated", "C152_iff_partial"], "False in every case: NotifyContext stays registered until the command returns, so that after the first signal any number of further ones changes nothing (C152_violated). Exactly: a signal ends the process at once iff it comes before the first NotifyContext (C152_iff_partial). With C123_violated: a program that waits for the torrent file can only be ended with SIGKILL."),
 ("C153", Q, ["C153_bencode_partial", "C153_exact_partial", "C153_violated", "C153_iff_partial", "C153_crash_partial", "C153_false_violated"], "Holds for bencode in every execution. False for download: if one of several files cannot be created, the ones before it have been truncated already and the command fails (C153_violated, C153_false_violated). C153_iff_partial says exactly when a file can be lost, C153_exact_partial what the disk looks like after a failure; a crash at the start touches nothing (C153_crash_partial). Empty files and directories that are left behind are not seen by the model of the disk."),
]
exec(open(os.path.join(root, "tools", "claims_extra.py")).read()) if os.path.exists(os.path.join(root, "tools", "claims_extra.py")) else None
src = "".join(open(f).read() for f in glob.glob(root + "/lean/Verif/Props/*.lean"))
names = set(re.findall(r"^theorem (\S+)", src, re.M))
ids = [json.loads(l)["id"] for l in open(root + "/properties.jsonl")]
out, bad = [], False
for p, st, ths, note in claims:
    for t in ths:
        if t not in names:
            print("missing theorem", t); bad = True
    out.append({"property": p, "status": st, "theorems": ["Gotit.Props." + t for t in ths], "note": note})
missing = [i for i in ids if i not in [c[0] for c in claims]]
if missing: print("no claim yet:", missing)
json.dump({"claims": out}, open(root + "/MANIFEST.json", "w"), indent=1)
sys.exit(bad)
