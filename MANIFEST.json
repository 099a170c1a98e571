{
 "claims": [
  {
   "property": "C01",
   "status": "proved",
   "theorems": [
    "Gotit.Props.C01_encode_parse",
    "Gotit.Props.C01_lookup"
   ],
   "note": ""
  },
  {
   "property": "C02",
   "status": "partial",
   "theorems": [
    "Gotit.Props.C02_int_roundtrip_iff_partial",
    "Gotit.Props.C02_int_roundtrip_violated",
    "Gotit.Props.C02_negative_rejected_partial",
    "Gotit.Props.C02_large_corrupted_partial"
   ],
   "note": "False of the code as stated; exact range of integers that survive is proved."
  },
  {
   "property": "C03",
   "status": "proved",
   "theorems": [
    "Gotit.Props.C03_grammar",
    "Gotit.Props.C03_unique",
    "Gotit.Props.C03_consumed",
    "Gotit.Props.C03_numbers"
   ],
   "note": ""
  },
  {
   "property": "C04",
   "status": "partial",
   "theorems": [
    "Gotit.Props.C04_panic_iff_partial",
    "Gotit.Props.C04_no_panic_violated",
    "Gotit.Props.C04_no_panic_partial"
   ],
   "note": "False of the code: a 18-digit length panics. Exact set of panicking inputs proved."
  },
  {
   "property": "C05",
   "status": "proved",
   "theorems": [
    "Gotit.Props.C05_terminates",
    "Gotit.Props.C05_fuel_irrelevant"
   ],
   "note": ""
  },
  {
   "property": "C06",
   "status": "proved",
   "theorems": [
    "Gotit.Props.C06_raw",
    "Gotit.Props.C06_atoms"
   ],
   "note": "C06_atoms covers strings and integers, which keep no source text."
  },
  {
   "property": "C07",
   "status": "proved",
   "theorems": [
    "Gotit.Props.C07_truncation",
    "Gotit.Props.C07_truncation_api"
   ],
   "note": ""
  },
  {
   "property": "C08",
   "status": "proved",
   "theorems": [
    "Gotit.Props.C08_trailing"
   ],
   "note": ""
  },
  {
   "property": "C09",
   "status": "proved",
   "theorems": [
    "Gotit.Props.C09_last_wins"
   ],
   "note": ""
  },
  {
   "property": "C10",
   "status": "partial",
   "theorems": [
    "Gotit.Props.C10_no_alias_violated",
    "Gotit.Props.C10_view_faithful",
    "Gotit.Props.C10_shape_partial",
    "Gotit.Props.C10_exact_partial"
   ],
   "note": "False of the code (unsafe b2s). Exactly: an integer never changes; a string changes just if its own bytes are overwritten; a list or dictionary just if any byte of its text is."
  },
  {
   "property": "C11",
   "status": "partial",
   "theorems": [
    "Gotit.Props.C11_text_violated",
    "Gotit.Props.C11_iff_partial",
    "Gotit.Props.C11_text_partial"
   ],
   "note": "False of the code; the texts agree exactly if no non-empty container built by the program is inside another one."
  },
  {
   "property": "C12",
   "status": "partial",
   "theorems": [
    "Gotit.Props.C12_panic_iff_partial",
    "Gotit.Props.C12_no_panic_violated",
    "Gotit.Props.C12_key_violated",
    "Gotit.Props.C12_key_iff_partial",
    "Gotit.Props.C12_all_partial",
    "Gotit.Props.C12_wrong_target"
   ],
   "note": "False of the code. C12_all_partial gives the exact panic condition for every target, C12_panic_iff_partial a shorter one for targets whose maps have string keys; for a map with another key type see C12_key_violated."
  },
  {
   "property": "C13",
   "status": "proved",
   "theorems": [
    "Gotit.Props.C13_required",
    "Gotit.Props.C13_missing",
    "Gotit.Props.C13_absent_untouched",
    "Gotit.Props.C13_optional"
   ],
   "note": ""
  },
  {
   "property": "C14",
   "status": "partial",
   "theorems": [
    "Gotit.Props.C14_int_partial",
    "Gotit.Props.C14_uint_partial",
    "Gotit.Props.C14_unmarshal_partial",
    "Gotit.Props.C14_range",
    "Gotit.Props.C14_exact_violated"
   ],
   "note": "False for document numbers above 922337203685477580 (mangled by Parse); exact otherwise."
  },
  {
   "property": "C15",
   "status": "proved",
   "theorems": [
    "Gotit.Props.C15_info_hash"
   ],
   "note": ""
  },
  {
   "property": "C16",
   "status": "partial",
   "theorems": [
    "Gotit.Props.C16_atomic_violated",
    "Gotit.Props.C16_exact_partial",
    "Gotit.Props.C16_before_partial",
    "Gotit.Props.C16_later_fields_partial",
    "Gotit.Props.C16_single_field_partial"
   ],
   "note": "False of the code. C16_exact_partial says for every target, with nested structs and pointers, what a failing call leaves: up to the failing field everything is stored, inside it the same holds if it is a struct (a nil pointer to one has become non-nil), the later fields are unchanged."
  },
  {
   "property": "C17",
   "status": "partial",
   "theorems": [
    "Gotit.Props.C17_success_iff_partial",
    "Gotit.Props.C17_compact_violated"
   ],
   "note": "False of the code: every compact response fails. Exactly which responses succeed is proved."
  },
  {
   "property": "C18",
   "status": "partial",
   "theorems": [
    "Gotit.Props.C18_entries_partial",
    "Gotit.Props.C18_all_valid_violated"
   ],
   "note": "Order and count proved; validity false (zero addresses for unparsable entries), exact condition proved."
  },
  {
   "property": "C19",
   "status": "proved",
   "theorems": [
    "Gotit.Props.C19_compact",
    "Gotit.Props.C19_valid"
   ],
   "note": "parseCompactPeers is also what the UDP tracker uses."
  },
  {
   "property": "C20",
   "status": "proved",
   "theorems": [
    "Gotit.Props.C20_failure",
    "Gotit.Props.C20_status"
   ],
   "note": ""
  },
  {
   "property": "C21",
   "status": "partial",
   "theorems": [
    "Gotit.Props.C21_wait_partial",
    "Gotit.Props.C21_failed_partial",
    "Gotit.Props.C21_wait_violated",
    "Gotit.Props.C21_udp_partial"
   ],
   "note": "False without interval or above 9223372036 s; proved otherwise."
  },
  {
   "property": "C22",
   "status": "partial",
   "theorems": [
    "Gotit.Props.C22_params_partial",
    "Gotit.Props.C22_query_url_partial",
    "Gotit.Props.C22_query_url_violated",
    "Gotit.Props.C22_characters",
    "Gotit.Props.C22_kept"
   ],
   "note": "Proved for URLs without query; false for every URL with a query, exact form proved."
  },
  {
   "property": "C23",
   "status": "partial",
   "theorems": [
    "Gotit.Props.C23_length_violated",
    "Gotit.Props.C23_hash_violated",
    "Gotit.Props.C23_header_partial",
    "Gotit.Props.C23_fields_partial",
    "Gotit.Props.C23_connect"
   ],
   "note": "False of the code: 80 bytes, no info-hash. Header, connect request and the value and place of every other field proved."
  },
  {
   "property": "C24",
   "status": "proved",
   "theorems": [
    "Gotit.Props.C24_foreign",
    "Gotit.Props.C24_panic_iff",
    "Gotit.Props.C24_announce_no_panic"
   ],
   "note": ""
  },
  {
   "property": "C25",
   "status": "partial",
   "theorems": [
    "Gotit.Props.C25_announce_violated",
    "Gotit.Props.C25_connect_partial",
    "Gotit.Props.C25_parse_partial",
    "Gotit.Props.C25_if_eof_partial"
   ],
   "note": "False of the code: ReadAll on a UDP socket always fails. Parsing of answers proved."
  },
  {
   "property": "C26",
   "status": "partial",
   "theorems": [
    "Gotit.Props.C26_message_violated",
    "Gotit.Props.C26_announce_violated",
    "Gotit.Props.C26_action2_partial"
   ],
   "note": "False of the code: error action is 2 instead of 3."
  },
  {
   "property": "C27",
   "status": "partial",
   "theorems": [
    "Gotit.Props.C27_framed_partial",
    "Gotit.Props.C27_framed_iff_partial",
    "Gotit.Props.C27_framed_violated"
   ],
   "note": "False for bitfield messages (unless 13 pieces) and for re-sent type-99 messages; proved for every other message the client builds or received."
  },
  {
   "property": "C28",
   "status": "partial",
   "theorems": [
    "Gotit.Props.C28_request_violated",
    "Gotit.Props.C28_wire_partial",
    "Gotit.Props.C28_have_partial"
   ],
   "note": "False of the code: request and cancel carry the length as index and zeros; have, keep-alive and signals proved."
  },
  {
   "property": "C29",
   "status": "partial",
   "theorems": [
    "Gotit.Props.C29_no_panic_violated",
    "Gotit.Props.C29_panic_iff_partial",
    "Gotit.Props.C29_total"
   ],
   "note": "False of the code; exact condition for the panic proved."
  },
  {
   "property": "C30",
   "status": "proved",
   "theorems": [
    "Gotit.Props.C30_fields",
    "Gotit.Props.C30_pieces"
   ],
   "note": ""
  },
  {
   "property": "C31",
   "status": "partial",
   "theorems": [
    "Gotit.Props.C31_bits_violated",
    "Gotit.Props.C31_bits_partial",
    "Gotit.Props.C31_seed_partial",
    "Gotit.Props.C31_bitfield_partial",
    "Gotit.Props.C31_sent_partial"
   ],
   "note": "False of the code: the order is reversed in each group of 64; exact relation proved."
  },
  {
   "property": "C32",
   "status": "proved",
   "theorems": [
    "Gotit.Props.C32_framing",
    "Gotit.Props.C32_sound"
   ],
   "note": ""
  },
  {
   "property": "C33",
   "status": "partial",
   "theorems": [
    "Gotit.Props.C33_resync_violated",
    "Gotit.Props.C33_timeout_partial",
    "Gotit.Props.C33_idle_partial"
   ],
   "note": "False of the code: bytes read before a timeout are lost; exact effect proved; holds when the deadline passes between messages."
  },
  {
   "property": "C34",
   "status": "proved",
   "theorems": [
    "Gotit.Props.C34_accept_iff",
    "Gotit.Props.C34_own",
    "Gotit.Props.C34_client_id"
   ],
   "note": ""
  },
  {
   "property": "C35",
   "status": "proved",
   "theorems": [
    "Gotit.Props.C35_success_iff",
    "Gotit.Props.C35_table"
   ],
   "note": ""
  },
  {
   "property": "C36",
   "status": "proved",
   "theorems": [
    "Gotit.Props.C36_next",
    "Gotit.Props.C36_distinct",
    "Gotit.Props.C36_terminates",
    "Gotit.Props.C36_new"
   ],
   "note": "Any number of goroutines, operations interleaved one by one."
  },
  {
   "property": "C37",
   "status": "partial",
   "theorems": [
    "Gotit.Props.C37_again_violated",
    "Gotit.Props.C37_available_partial"
   ],
   "note": "False of the code: a piece handed out is never handed out again in any execution."
  },
  {
   "property": "C38",
   "status": "proved",
   "theorems": [
    "Gotit.Props.C38_done",
    "Gotit.Props.C38_stable",
    "Gotit.Props.C38_new"
   ],
   "note": "C38_invalid_index shows why valid indexes are needed."
  },
  {
   "property": "C39",
   "status": "partial",
   "theorems": [
    "Gotit.Props.C39_done_violated",
    "Gotit.Props.C39_initial_partial",
    "Gotit.Props.C39_new_partial",
    "Gotit.Props.C39_opened_partial"
   ],
   "note": "False for non-positive piece lengths; exact condition proved (amd64 float conversion)."
  },
  {
   "property": "C40",
   "status": "proved",
   "theorems": [
    "Gotit.Props.C40_ceiling",
    "Gotit.Props.C40_new",
    "Gotit.Props.C40_bound_sharp",
    "Gotit.Props.C40_bound_overflow",
    "Gotit.Props.C40_bound_zero"
   ],
   "note": "C40_bound_sharp: the bound 2^53 cannot be dropped."
  },
  {
   "property": "C41",
   "status": "proved",
   "theorems": [
    "Gotit.Props.C41_layout",
    "Gotit.Props.C41_bytes",
    "Gotit.Props.C41_reachable"
   ],
   "note": "For non-empty blocks inside the torrent; C41_reachable shows New yields such torrents for sensible metainfos."
  },
  {
   "property": "C42",
   "status": "partial",
   "theorems": [
    "Gotit.Props.C42_multi_violated",
    "Gotit.Props.C42_single_violated",
    "Gotit.Props.C42_outside_partial",
    "Gotit.Props.C42_single_partial"
   ],
   "note": "False: a block overlapping the end is partly written (multi-file) or extends the file (single-file). Exact effect proved for both kinds of torrents; blocks starting beyond the end are rejected untouched in multi-file torrents."
  },
  {
   "property": "C46",
   "status": "partial",
   "theorems": [
    "Gotit.Props.C46_violated",
    "Gotit.Props.C46_path_violated",
    "Gotit.Props.C46_inside_partial",
    "Gotit.Props.C46_iff_partial"
   ],
   "note": "False: names and paths with .. reach any file. Proved for plain names, and exactly which names and paths keep the files inside every download directory."
  },
  {
   "property": "C47",
   "status": "partial",
   "theorems": [
    "Gotit.Props.C47_violated",
    "Gotit.Props.C47_distinct_partial",
    "Gotit.Props.C47_iff_partial"
   ],
   "note": "False: only the first path element is used. Proved when first elements are distinct plain names; exactly which files share a file on disk is proved."
  },
  {
   "property": "C48",
   "status": "proved",
   "theorems": [
    "Gotit.Props.C48_trackers",
    "Gotit.Props.C48_add_reports",
    "Gotit.Props.C48_addAll"
   ],
   "note": ""
  },
  {
   "property": "C43",
   "status": "partial",
   "theorems": [
    "Gotit.Props.C43_violated",
    "Gotit.Props.C43_misplaced_violated",
    "Gotit.Props.C43_verified_partial",
    "Gotit.Props.C43_exact_partial",
    "Gotit.Props.C43_iff_partial"
   ],
   "note": "False: the offset of an accepted piece is never checked. Proved for offset 0 and messages that are not second preimages. Exactly, for any offsets: a byte is decided by the last message lying over it and is the byte of the content that many places before."
  },
  {
   "property": "C44",
   "status": "partial",
   "theorems": [
    "Gotit.Props.C44_violated",
    "Gotit.Props.C44_done_partial"
   ],
   "note": "False when the length is not a multiple of the piece length; exact condition proved."
  },
  {
   "property": "C45",
   "status": "partial",
   "theorems": [
    "Gotit.Props.C45_violated",
    "Gotit.Props.C45_iff_partial",
    "Gotit.Props.C45_one_block_partial"
   ],
   "note": "False for pieces longer than one block: the block's hash is compared with the piece's. Proved when the answer carries the whole piece."
  },
  {
   "property": "C49",
   "status": "proved",
   "theorems": [
    "Gotit.Props.C49_lifo",
    "Gotit.Props.C49_conservation",
    "Gotit.Props.C49_holds"
   ],
   "note": "All interleavings of individual operations."
  },
  {
   "property": "C50",
   "status": "partial",
   "theorems": [
    "Gotit.Props.C50_violated",
    "Gotit.Props.C50_blocks_partial",
    "Gotit.Props.C50_tiles_partial",
    "Gotit.Props.C50_iff_partial"
   ],
   "note": "Exactly: a piece is covered just if its size is max 1 (pieceLength / 128 KiB) whole blocks, at most 4 GiB, and its number has 32 bits. Violated when the piece length is not a multiple of 128 KiB or for the last piece: the blocks requested cover blockNum*128 KiB only. Partial: the blocks requested between two Next calls are consecutive from 0 without gap or overlap."
  },
  {
   "property": "C51",
   "status": "partial",
   "theorems": [
    "Gotit.Props.C51_violated",
    "Gotit.Props.C51_index_partial",
    "Gotit.Props.C51_returned_partial"
   ],
   "note": "Violated: a new peer has blockIdx 0 < blockNum, so it requests piece 0 without calling Next. Partial: after the first Next call every created request is for the piece last returned (index below 2^32)."
  },
  {
   "property": "C57",
   "status": "proved",
   "theorems": [
    "Gotit.Props.C57_state",
    "Gotit.Props.C57_run"
   ],
   "note": "For every sequence of messages handled without panic, and for every execution of Run that has not crashed."
  },
  {
   "property": "C52",
   "status": "partial",
   "theorems": [
    "Gotit.Props.C52_violated",
    "Gotit.Props.C52_C55_partial"
   ],
   "note": "Violated: nothing ever sets the client's interest flag, so Run on a new peer never sends a request in any execution. Partial: with the flag set, an iteration with the peer unchoked and nothing outstanding attempts a request within six steps."
  },
  {
   "property": "C53",
   "status": "proved",
   "theorems": [
    "Gotit.Props.C53_unchoked"
   ],
   "note": "For every execution from every initial peer state, not only from NewPeer (where no request is ever sent)."
  },
  {
   "property": "C54",
   "status": "partial",
   "theorems": [
    "Gotit.Props.C54_one",
    "Gotit.Props.C54_requeue_partial",
    "Gotit.Props.C54_requeue_requests",
    "Gotit.Props.C54_violated"
   ],
   "note": "At most one request outstanding: proved. Requeueing: violated when the read error happens in the unchoke loop (peer choked meanwhile); proved exactly for all other failures."
  },
  {
   "property": "C55",
   "status": "partial",
   "theorems": [
    "Gotit.Props.C55_violated",
    "Gotit.Props.run_answered",
    "Gotit.Props.C52_C55_partial"
   ],
   "note": "Violated: after a request is sent, no other is sent until a read fails. Partial: after a failed read the next iteration asks again."
  },
  {
   "property": "C56",
   "status": "partial",
   "theorems": [
    "Gotit.Props.C56_violated",
    "Gotit.Props.C56_cancel_partial",
    "Gotit.Props.C56_done_partial",
    "Gotit.Props.C56_progress",
    "Gotit.Props.C56_time_violated",
    "Gotit.Props.C56_time_partial"
   ],
   "note": "Violated: one more request can be sent after cancellation or completion, and the unchoke loop ignores completion. Partial: at most one more request; at most 12 more steps after cancellation; after completion 14 steps plus four per failed read or write. In time: a piece waiting for the writer keeps Run going for ever; otherwise Run ends within 4 s + twice the longest such wait + ten delays of the scheduler after cancellation."
  },
  {
   "property": "C58",
   "status": "proved",
   "theorems": [
    "Gotit.Props.C58_counters",
    "Gotit.Props.C58_sum"
   ],
   "note": "Also for the tracker counter."
  },
  {
   "property": "C59",
   "status": "partial",
   "theorems": [
    "Gotit.Props.C59_violated",
    "Gotit.Props.C59_overrun_violated",
    "Gotit.Props.C59_left_partial",
    "Gotit.Props.C59_once_partial"
   ],
   "note": "Violated when bytes are received twice: Left wraps to almost 2^64. Partial: at every moment of every interleaving, while the bytes reported do not exceed the size; in particular when every piece is received at most once."
  },
  {
   "property": "C60",
   "status": "partial",
   "theorems": [
    "Gotit.Props.C60_violated",
    "Gotit.Props.C60_panic_violated",
    "Gotit.Props.C60_bar_partial",
    "Gotit.Props.C60_drawn_partial",
    "Gotit.Props.C60_iff_partial",
    "Gotit.Props.C60_received_partial",
    "Gotit.Props.C60_percent_int"
   ],
   "note": "Violated from 105% on (bytes received twice): negative Repeat count. Partial: exactly the percentages 0-104 are drawn with 20 cells; in bytes: always up to 104% received, never from 105% on."
  },
  {
   "property": "C68",
   "status": "proved",
   "theorems": [
    "Gotit.Props.C68_percent"
   ],
   "note": "IEEE-754 rounding modelled exactly; at most 100 is in C60_drawn_partial."
  },
  {
   "property": "C61",
   "status": "proved",
   "theorems": [
    "Gotit.Props.C61_first",
    "Gotit.Props.C61_once",
    "Gotit.Props.C61_download",
    "Gotit.Props.C61_failed_kept",
    "Gotit.Props.C61_counted",
    "Gotit.Props.C61_listed"
   ],
   "note": "AddPeer and Stop under the mutex operation by operation, any number of goroutines; and the whole manager: at most one peer per address handshaking or running, PeerNum = added - failed. Also: a peer that failed stays in the pool, so its address is never tried again."
  },
  {
   "property": "C62",
   "status": "partial",
   "theorems": [
    "Gotit.Props.C62_violated",
    "Gotit.Props.C62_partial"
   ],
   "note": "Violated for every limit: peerNum is stored and never read. Holds: no more peers than different addresses received, no more running than pooled."
  },
  {
   "property": "C63",
   "status": "partial",
   "theorems": [
    "Gotit.Props.C63_violated",
    "Gotit.Props.C63_violated_send",
    "Gotit.Props.C63_violated_close",
    "Gotit.Props.C63_violated_map",
    "Gotit.Props.C63_causes_partial",
    "Gotit.Props.C63_orderly_partial"
   ],
   "note": "Violated in three ways, each with a schedule. Holds: the exact cause of every possible panic (including that of Announce at the reply of a tracker, C148), and no panic if at the return of Download the trackers and peers have ended and no handshake failed."
  },
  {
   "property": "C64",
   "status": "partial",
   "theorems": [
    "Gotit.Props.C64_violated",
    "Gotit.Props.never_returns",
    "Gotit.Props.C64_partial",
    "Gotit.Props.C64_winds_partial",
    "Gotit.Props.C64_bound_partial",
    "Gotit.Props.C64_cancel_partial"
   ],
   "note": "Violated: whatever has been written, Download does not return unless the context is cancelled from outside. Holds: after cancellation, from every state, Download and Stop get to their end as the peers end, in at most running peers + pool + 10 steps unless further peers are connected."
  },
  {
   "property": "C65",
   "status": "partial",
   "theorems": [
    "Gotit.Props.C65_violated",
    "Gotit.Props.C65_partial",
    "Gotit.Props.C65_drains_partial"
   ],
   "note": "Violated: nothing waits for the writer. Holds: no loss or reordering, at most 1025 messages outstanding, everything written once the writer returned, which it can always reach."
  },
  {
   "property": "C66",
   "status": "proved",
   "theorems": [
    "Gotit.Props.C66_tracker",
    "Gotit.Props.C66_peer",
    "Gotit.Props.C66_attempts",
    "Gotit.Props.C66_limit",
    "Gotit.Props.C66_requests",
    "Gotit.Props.C66_udp"
   ],
   "note": "For every outcome of every attempt and every cancellation point."
  },
  {
   "property": "C69",
   "status": "partial",
   "theorems": [
    "Gotit.Props.C69_tracker",
    "Gotit.Props.C69_peer_violated",
    "Gotit.Props.C69_peer_partial"
   ],
   "note": "Trackers: proved. Peers: violated, Delay(500) is 500 nanoseconds."
  },
  {
   "property": "C70",
   "status": "partial",
   "theorems": [
    "Gotit.Props.C70_violated",
    "Gotit.Props.C70_partial"
   ],
   "note": "Violated: WaitGroup reused before previous Wait has returned. Holds: it is the only panic of the manager before cancellation besides that at the reply of a tracker (C148; the display is apart: C137_shown_partial)."
  },
  {
   "property": "C67",
   "status": "partial",
   "theorems": [
    "Gotit.Props.C67_violated",
    "Gotit.Props.flags_ignored",
    "Gotit.Props.C67_names_violated",
    "Gotit.Props.C67_level_partial",
    "Gotit.Props.C67_partial",
    "Gotit.Props.C67_silent",
    "Gotit.Props.C67_format_partial"
   ],
   "note": "Violated for every documented level but info: the logger is built when the commands are constructed, from the defaults. Two documented names are unknown besides. Holds: what NewCommandLine does with every value."
  },
  {
   "property": "C71",
   "status": "partial",
   "theorems": [
    "Gotit.Props.C71_violated",
    "Gotit.Props.C71_partial",
    "Gotit.Props.C71_order_partial",
    "Gotit.Props.C71_init_partial",
    "Gotit.Props.startProgram_command"
   ],
   "note": "Violated for every path: the configuration is read before the flags are parsed. Holds: the default configuration is what is read; if it is unusable no command runs."
  },
  {
   "property": "C72",
   "status": "partial",
   "theorems": [
    "Gotit.Props.C72_violated",
    "Gotit.Props.C72_path_violated",
    "Gotit.Props.C72_panic_iff_partial"
   ],
   "note": "Violated: a file containing a list, or a torrent with an empty file path, crashes. Proved: the exact condition for a crash."
  },
  {
   "property": "C73",
   "status": "proved",
   "theorems": [
    "Gotit.Props.C73_roundtrip",
    "Gotit.Props.C73_open"
   ],
   "note": "For every document carrying a metainfo, in any key order."
  },
  {
   "property": "C74",
   "status": "partial",
   "theorems": [
    "Gotit.Props.C74_violated",
    "Gotit.Props.C74_first_message_violated",
    "Gotit.Props.C74_crash_iff_partial",
    "Gotit.Props.C74_download_partial"
   ],
   "note": "False of the code. Proved: any too short have/request/cancel/piece message, or a piece message with an index out of range, crashes the program whenever Run reads; and, while the write channel is open, no other message crashes the goroutine that handles it (exact condition over all traces). A peer can also crash the display by sending a right piece several times: C137_print_violated."
  },
  {
   "property": "C75",
   "status": "partial",
   "theorems": [
    "Gotit.Props.C75_violated",
    "Gotit.Props.C75_have_violated",
    "Gotit.Props.C75_alloc_partial"
   ],
   "note": "False of the code. Proved: four bytes make the client reserve any amount below 4 GiB; a have message makes the set of pieces as long as its index; upper bound and exact amount for messages that arrive."
  },
  {
   "property": "C76",
   "status": "proved",
   "theorems": [
    "Gotit.Props.C76_verified",
    "Gotit.Props.C76_stream"
   ],
   "note": "For every torrent opened by New whose piece positions fit in int64."
  },
  {
   "property": "C77",
   "status": "proved",
   "theorems": [
    "Gotit.Props.C77_once"
   ],
   "note": ""
  },
  {
   "property": "C78",
   "status": "partial",
   "theorems": [
    "Gotit.Props.C78_violated",
    "Gotit.Props.C78_pushed_partial",
    "Gotit.Props.C78_anywhere_partial"
   ],
   "note": "False of the code: as long as peers send blocks only on request nothing is ever written and Done stays false (the client never becomes interested, so it sends no request). Proved as partial: if a peer pushes all pieces unasked and the content fills its last piece, the download completes with the right content. Exact, from any state (C78_anywhere_partial): whatever happened before, including failed writes and stalled peers, a download that has not crashed or been cancelled can still be completed by one more peer that pushes the pieces, if and only if the content fills its last piece. That such a peer comes is not claimed."
  },
  {
   "property": "C79",
   "status": "partial",
   "theorems": [
    "Gotit.Props.C79_violated",
    "Gotit.Props.C79_done_partial"
   ],
   "note": "False of the code: for every single-file torrent with a short last piece beginning with a non-zero byte there is a download of verified blocks at whose end Done holds and a byte is wrong. Proved as partial: holds if blocks are sent with offset 0, no second preimages are found and there are no surplus hashes."
  },
  {
   "property": "C80",
   "status": "partial",
   "theorems": [
    "Gotit.Props.C80_determined_partial",
    "Gotit.Props.C80_violated",
    "Gotit.Props.C80_order_violated"
   ],
   "note": "False of the code for every element with a dictionary of two or more keys; proved that the text is determined exactly when no dictionary has two keys."
  },
  {
   "property": "C81",
   "status": "partial",
   "theorems": [
    "Gotit.Props.C81_violated",
    "Gotit.Props.C81_others_partial",
    "Gotit.Props.C81_built_partial"
   ],
   "note": "False of the code (the map is shared); proved that elements not holding the map keep their text and that a builder used once gives the dictionary of what was added."
  },
  {
   "property": "C82",
   "status": "partial",
   "theorems": [
    "Gotit.Props.C82_ends_iff_partial",
    "Gotit.Props.C82_violated"
   ],
   "note": "False of the code for a builder to which its own element is added; proved that Encode returns exactly for well-founded elements."
  },
  {
   "property": "C83",
   "status": "partial",
   "theorems": [
    "Gotit.Props.C83_partial",
    "Gotit.Props.C83_running_partial",
    "Gotit.Props.C83_violated"
   ],
   "note": "False of the code for Peer.conn: Stop closes the connections of the pool while a tracker goroutine may still be dialling. Proved that this is the only pair, using goroutine starts, mutexes and the channel only; hence none before Stop."
  },
  {
   "property": "C84",
   "status": "proved",
   "theorems": [
    "Gotit.Props.C84_one",
    "Gotit.Props.C84_blocked",
    "Gotit.Props.C84_release",
    "Gotit.Props.C84_no_deadlock"
   ],
   "note": "Closing a connection in Stop, logging and file operations are taken to return."
  },
  {
   "property": "C85",
   "status": "proved",
   "theorems": [
    "Gotit.Props.C85_started_iff",
    "Gotit.Props.C85_handover",
    "Gotit.Props.C85_written"
   ],
   "note": "Dialling, writing and the events on the connection are parameters; retry.Do as documented."
  },
  {
   "property": "C86",
   "status": "partial",
   "theorems": [
    "Gotit.Props.C86_leak_violated",
    "Gotit.Props.C86_open_partial",
    "Gotit.Props.C86_first_partial"
   ],
   "note": "False: connect overwrites p.conn without closing the previous connection; a silent peer leaves four open. Proved exactly which connections stay open, and that none does if the first attempt succeeds. Missing: the property itself."
  },
  {
   "property": "C87",
   "status": "partial",
   "theorems": [
    "Gotit.Props.C87_violated",
    "Gotit.Props.C87_figures_partial",
    "Gotit.Props.C87_every_partial",
    "Gotit.Props.C87_bound_partial",
    "Gotit.Props.C87_quiet_partial"
   ],
   "note": "False: two counters are changed and read one after the other. Proved exactly which pairs of figures occur (both directions), that the sum exceeds the size by at most one block, and that it is right when the writer stands still. Missing: the property itself."
  },
  {
   "property": "C88",
   "status": "proved",
   "theorems": [
    "Gotit.Props.C88_http",
    "Gotit.Props.C88_udp",
    "Gotit.Props.url_scheme_unique"
   ],
   "note": "What url.Parse makes of the part after the scheme, and dialling, are parameters."
  },
  {
   "property": "C89",
   "status": "partial",
   "theorems": [
    "Gotit.Props.C89_violated",
    "Gotit.Props.C89_but_strings_partial",
    "Gotit.Props.C89_same_partial",
    "Gotit.Props.C89_maps_partial",
    "Gotit.Props.C89_maps_same_partial",
    "Gotit.Props.C89_maps_violated",
    "Gotit.Props.C89_hash_partial"
   ],
   "note": "Violated: a dictionary with two keys stored in a string field (its text follows the iteration order). Proved: the outcome, all numbers, raw bytes and lengths never depend on the order; everything is the same if no text of a dictionary with two keys lands in a string; the torrent hash never depends on it. For target types with maps: the call succeeds in every order or in none and stores the same up to strings; but which failure it is, even error or panic, may depend on the order (map[string]map[int]int)."
  },
  {
   "property": "C90",
   "status": "proved",
   "theorems": [
    "Gotit.Props.C90_why",
    "Gotit.Props.C90_keepalive"
   ],
   "note": "Crashes are treated in C74 and C76."
  },
  {
   "property": "C91",
   "status": "partial",
   "theorems": [
    "Gotit.Props.C91_given_partial",
    "Gotit.Props.C91_partial",
    "Gotit.Props.C91_violated",
    "Gotit.Props.C91_retry_violated"
   ],
   "note": "Stated for peers that are interested (NewPeer makes none, so that the program sends no request at all, see C52). What holds: a request is for the piece Next gave last, and Next gives only announced pieces (bitfields read in the reversed order of C31); or it was put back by a peer with the same retry queue; or it is for piece 0 before Next was ever asked. Missing, because false: the two last cases do not look at what the peer has."
  },
  {
   "property": "C92",
   "status": "partial",
   "theorems": [
    "Gotit.Props.C92_some_order_partial",
    "Gotit.Props.C92_partial",
    "Gotit.Props.C92_violated",
    "Gotit.Props.C92_order_violated"
   ],
   "note": "Violated: i01e comes back as i1e; d1:ai1e1:bi2ee may come back as d1:bi2e1:ai1ee. Exact: some iteration order gives the text back iff the text is Plain (numbers without leading zeros and not above maxNumber, no repeated key); every order does iff moreover no dictionary has two keys."
  },
  {
   "property": "C93",
   "status": "partial",
   "theorems": [
    "Gotit.Props.C93_int_partial",
    "Gotit.Props.C93_uint_partial",
    "Gotit.Props.C93_violated"
   ],
   "note": "Violated: a string that is an integer literal of Go is accepted as well (\"0x10\" gives 16, \"077\" gives 63, \"-1_000\" gives -1000). Exact: a field is set to n iff the element is the integer n, or a string that is a Go literal (with a sign for signed fields) for n, and n fits. Lists, dictionaries and all other strings are refused."
  },
  {
   "property": "C94",
   "status": "proved",
   "theorems": [
    "Gotit.Props.C94_stored",
    "Gotit.Props.C94_zero"
   ],
   "note": "Both directions. StoredFields (Spec/Stored.lean) is a relation on types, old contents, elements and new contents that does not mention the code. Integer types have 8, 16, 32 or 64 bits; the target has the shape of its type."
  },
  {
   "property": "C95",
   "status": "partial",
   "theorems": [
    "Gotit.Props.C95_iff_partial",
    "Gotit.Props.C95_built_partial",
    "Gotit.Props.C95_parsed_partial",
    "Gotit.Props.C95_violated"
   ],
   "note": "Violated for parsed documents: nested lists and dictionaries start again at the margin. Exact: laid out by depth iff no non-empty parsed list or dictionary lies inside another one; a parsed document has no line deeper than one tab."
  },
  {
   "property": "C96",
   "status": "partial",
   "theorems": [
    "Gotit.Props.C96_violated",
    "Gotit.Props.C96_never_partial",
    "Gotit.Props.C96_unchoke"
   ],
   "note": "Violated in every execution: after the handshake a peer hears only interested messages and keep-alives. For every torrent of more than one piece there is a download in which a verified, stored piece is asked for by an interested peer and nothing is ever given."
  },
  {
   "property": "C97",
   "status": "partial",
   "theorems": [
    "Gotit.Props.C97_violated",
    "Gotit.Props.C97_iff_partial",
    "Gotit.Props.C97_opened_partial",
    "Gotit.Props.C97_any_partial"
   ],
   "note": "Violated: os.Create truncates. Exact: opening empties precisely the torrent's own files (up to the first that cannot be created), touches no other file, and loses nothing iff they were all empty; no piece counts as downloaded afterwards. A finished download started again is lost."
  },
  {
   "property": "C98",
   "status": "partial",
   "theorems": [
    "Gotit.Props.C98_violated",
    "Gotit.Props.C98_gone_partial",
    "Gotit.Props.C98_new_partial"
   ],
   "note": "Violated: the pool forgets no address. Exact: an address that was tried and is neither being tried nor connected stays so for ever; an address never tried before is tried as soon as it is named."
  },
  {
   "property": "C99",
   "status": "partial",
   "theorems": [
    "Gotit.Props.C99_violated",
    "Gotit.Props.C99_exact_partial"
   ],
   "note": "Violated: RemovePeer is only called when the handshake fails. Exact: the number is the peers being tried plus the connected ones plus all that were connected before; any number may be shown when no peer is left."
  },
  {
   "property": "C100",
   "status": "partial",
   "theorems": [
    "Gotit.Props.C100_violated",
    "Gotit.Props.C100_udp_violated",
    "Gotit.Props.C100_always_partial"
   ],
   "note": "Violated both ways: every request to an HTTP tracker says started, whatever was answered and downloaded (so completed and stopped are never said either); UDP trackers get event 0 (none) every time."
  },
  {
   "property": "C101",
   "status": "proved",
   "theorems": [
    "Gotit.Props.C101_sizes",
    "Gotit.Props.C101_exact",
    "Gotit.Props.C101_mono"
   ],
   "note": "Below 2^53 exactly the nearest tenth; up to 2^64 the error is at most 0.0501 units, as float64 rounds first."
  },
  {
   "property": "C102",
   "status": "proved",
   "theorems": [
    "Gotit.Props.C102_speed",
    "Gotit.Props.C102_start"
   ],
   "note": "Relative error of the value before rounding at most 2^-49."
  },
  {
   "property": "C103",
   "status": "partial",
   "theorems": [
    "Gotit.Props.C103_violated",
    "Gotit.Props.C103_iff_partial",
    "Gotit.Props.C103_line_partial",
    "Gotit.Props.C103_counts",
    "Gotit.Props.C103_removed"
   ],
   "note": "Violated: AddTracker is never called, so 0 is shown; right exactly when no tracker is in use. The other fields are right."
  },
  {
   "property": "C104",
   "status": "partial",
   "theorems": [
    "Gotit.Props.C104_violated",
    "Gotit.Props.C104_reads_partial",
    "Gotit.Props.C104_name_partial",
    "Gotit.Props.C104_size_partial"
   ],
   "note": "Violated: a name with a line break forges lines; several files are shown as 0B; an absent date is shown as 1970. Without line breaks every printed field can be read back, the info-hash by decoding base64; a name can be read exactly if it has no line break."
  },
  {
   "property": "C105",
   "status": "partial",
   "theorems": [
    "Gotit.Props.C105_violated",
    "Gotit.Props.C105_exit_partial"
   ],
   "note": "Violated for every file: the lines that print are commented out. The exit code and the logged error are right."
  },
  {
   "property": "C106",
   "status": "partial",
   "theorems": [
    "Gotit.Props.C106_violated",
    "Gotit.Props.C106_exit_partial"
   ],
   "note": "Violated: every error gives the same text, `error with the app`; the reason is dropped. The exit code is 1."
  },
  {
   "property": "C107",
   "status": "partial",
   "theorems": [
    "Gotit.Props.C107_violated",
    "Gotit.Props.C107_wrap_violated",
    "Gotit.Props.C107_partial",
    "Gotit.Props.C107_final"
   ],
   "note": "Violated: a file of negative length makes writePieceData cut the data at a negative place; a position of 2^63 wraps and has the same effect. If no file length is negative and no position a message can name exceeds 63 bits, the writer never panics. After a panic nothing happens any more."
  },
  {
   "property": "C108",
   "status": "partial",
   "theorems": [
    "Gotit.Props.C108_violated",
    "Gotit.Props.C108_bound_partial",
    "Gotit.Props.C108_partial",
    "Gotit.Props.C108_spacing",
    "Gotit.Props.keepAliveDue_iff",
    "Gotit.Props.timed_reachable",
    "Gotit.Props.timed_progress"
   ],
   "note": "Violated: handlePeerMessage sends a verified piece on a channel to the writer without a deadline; while the writer is busy no keep-alive is sent, however long. If a message waits at most w for the writer, the silence is at most 117 s + w + ten delays of the scheduler, hence below two minutes if w + 10 delays are at most 3 s. Keep-alives are at least 114 s apart. The floating point comparison Minutes() >= 1.9 is exactly 114 s."
  },
  {
   "property": "C109",
   "status": "partial",
   "theorems": [
    "Gotit.Props.C109_violated",
    "Gotit.Props.C109_partial"
   ],
   "note": "Violated: unchoke retries for ever (100 ms to 30 s between the attempts) while the connection is dead; only cancelling ends it. Outside unchoke, with a peer that has unchoked this client, Run ends within 117 s + w + ten delays of the scheduler, because the keep-alive fails."
  },
  {
   "property": "C110",
   "status": "proved",
   "theorems": [
    "Gotit.Props.C110_rest",
    "Gotit.Props.C110_growth",
    "Gotit.Props.C110_growth_sharp"
   ],
   "note": "The jitter of the back-off stays at or above its minimum of 100 ms. In one call of unchoke the wait after the k-th failure is at most 100 ms doubled k - 1 times and at most 30 s, and every wait within these bounds can happen. A keep-alive that fails ends Run."
  },
  {
   "property": "C111",
   "status": "proved",
   "theorems": [
    "Gotit.Props.C111_set",
    "Gotit.Props.C111_kept"
   ],
   "note": "Proved in the model of a whole download in which each write may fail after any number of bytes. C111_kept assumes, as C79_done_partial, that blocks come with offset 0 and that nobody finds other bytes with the hash of a piece."
  },
  {
   "property": "C112",
   "status": "partial",
   "theorems": [
    "Gotit.Props.C112_violated",
    "Gotit.Props.C112_counted_partial"
   ],
   "note": "Violated: WritePiece counts before it writes. On a full disk the whole content is counted, left is 0 and the bar is full although nothing was written. Exact: what is counted is the bytes of all blocks taken from the channel, whatever became of them."
  },
  {
   "property": "C113",
   "status": "partial",
   "theorems": [
    "Gotit.Props.C113_violated",
    "Gotit.Props.C113_never_partial"
   ],
   "note": "Violated: if New opens a metainfo, it also opens the same with any number of hashes. With fewer hashes than pieces no reachable state of the download is done."
  },
  {
   "property": "C114",
   "status": "partial",
   "theorems": [
    "Gotit.Props.C114_violated",
    "Gotit.Props.C114_multi_partial",
    "Gotit.Props.C114_single_partial"
   ],
   "note": "Violated for single-file torrents: a peer that sends a right piece with offset b makes the file i*pieceLength+b+length long. Proved for torrents with several files, with lengths within Go's int; a single file ends at the latest where some accepted block ends."
  },
  {
   "property": "C115",
   "status": "partial",
   "theorems": [
    "Gotit.Props.C115_violated",
    "Gotit.Props.C115_first_partial",
    "Gotit.Props.C115_in_time_partial"
   ],
   "note": "Violated: the handshake reads one datagram and compares its transaction id. After one late answer every later attempt reads the answer to the attempt before it and fails, though all are answered in time. Exact: an attempt succeeds if and only if the first datagram on the socket is the answer to it."
  },
  {
   "property": "C116",
   "status": "proved",
   "theorems": [
    "Gotit.Props.C116_message",
    "Gotit.Props.C116_others",
    "Gotit.Props.timed_untimed",
    "Gotit.Props.timed_untimed_all"
   ],
   "note": "The deadline is set once per call, not per Read. timed_untimed: the model with clock times gives the results of Model/Net for a deadline that passes at the right moment. The other three readers give the same bound; computing takes no time in the model."
  },
  {
   "property": "C117",
   "status": "partial",
   "theorems": [
    "Gotit.Props.C117_violated",
    "Gotit.Props.C117_iff_partial"
   ],
   "note": "Violated: the one deadline covers the whole message. A block of 128 KiB sent steadily at 100 kB/s is never received. Exact: a message is received if and only if its length and all its bytes arrive within one second of the start of the read."
  },
  {
   "property": "C118",
   "status": "partial",
   "theorems": [
    "Gotit.Props.C118_violated",
    "Gotit.Props.C118_one_partial",
    "Gotit.Props.C118_after_partial",
    "Gotit.Props.C118_exact_partial",
    "Gotit.Props.C118_reannounce_partial"
   ],
   "note": "Violated: the peers are contacted one after the other, an unreachable one taking ten seconds (five dials of two seconds). The last of fifty may wait 490 s, and the tracker is asked again that much later. Holds: at most 20 s (and microseconds, and timers that are late) per accepted peer before it in the list."
  },
  {
   "property": "C119",
   "status": "partial",
   "theorems": [
    "Gotit.Props.C119_violated",
    "Gotit.Props.C119_compact_partial",
    "Gotit.Props.C119_success_partial",
    "Gotit.Props.C119_failure_partial",
    "Gotit.Props.C119_again_partial"
   ],
   "note": "Violated by every compact reply, the form the client asks for: the announce fails (C17), its interval is ignored and the request is repeated after 1, 2, 4 and 8 seconds, five requests a minute. Holds after replies the announce succeeds with, intervals up to 292 years; after other failures than the fifth in a row at least a second passes."
  },
  {
   "property": "C120",
   "status": "partial",
   "theorems": [
    "Gotit.Props.C120_violated",
    "Gotit.Props.C120_only_violated",
    "Gotit.Props.C120_ignored_partial"
   ],
   "note": "Violated: the key is decoded and then not used (a TODO in the source). A response without IPv4 peers is an error. Exact: two responses that agree in failure reason, interval and peers have the same effect, whatever else they contain."
  },
  {
   "property": "C121",
   "status": "partial",
   "theorems": [
    "Gotit.Props.C121_violated",
    "Gotit.Props.C121_always_partial"
   ],
   "note": "Violated by every tracker that sets an id different from the random one the client made up. Exact: all requests of all rounds carry the id drawn when the tracker object was made."
  },
  {
   "property": "C122",
   "status": "partial",
   "theorems": [
    "Gotit.Props.C122_violated",
    "Gotit.Props.C122_exact_partial"
   ],
   "note": "Violated by every reply whose min interval is above its interval. Exact: the next request comes after the interval and the delay of the timer, whatever else is in the reply."
  },
  {
   "property": "C123",
   "status": "partial",
   "theorems": [
    "Gotit.Props.C123_violated",
    "Gotit.Props.C123_false_violated",
    "Gotit.Props.C123_lost_violated",
    "Gotit.Props.C123_iff_partial"
   ],
   "note": "Violated: while the torrent file is being opened or read (a pipe, a stalled disk) any number of signals has no effect, as they are caught and nobody looks at the context; between the construction of the two commands an interrupt of a download is forgotten. Exact: after a signal the program gets to its end unless it still needs something from the file. During a download it always does (C64_cancel_partial)."
  },
  {
   "property": "C124",
   "status": "partial",
   "theorems": [
    "Gotit.Props.C124_violated",
    "Gotit.Props.C124_interrupted_partial",
    "Gotit.Props.C124_forever_partial",
    "Gotit.Props.C124_status_partial"
   ],
   "note": "Violated: a download interrupted at once ends with status 0 and nothing written. Exact: status 0 occurs only after an interrupt, complete or not; without one a download that has begun goes on for ever or dies with status 2."
  },
  {
   "property": "C125",
   "status": "partial",
   "theorems": [
    "Gotit.Props.C125_violated",
    "Gotit.Props.C125_open_violated",
    "Gotit.Props.C125_exact_partial",
    "Gotit.Props.C125_bytes_partial"
   ],
   "note": "Violated: whatever the stack size, a well-formed document of nested lists (or just enough letters l) exhausts it. Exact: with room for k nested calls the parser dies exactly on the texts in which an element has to be read while k containers are open; otherwise the stack makes no difference. A text shorter than k bytes is always safe."
  },
  {
   "property": "C126",
   "status": "partial",
   "theorems": [
    "Gotit.Props.C126_violated",
    "Gotit.Props.C126_exact_partial",
    "Gotit.Props.C126_noseeds_partial"
   ],
   "note": "Violated: every web seed with an http(s) URL receives announces. Exact: announces go to precisely the usable URLs of announce, announce-list and url-list. Holds for torrents without such web seeds."
  },
  {
   "property": "C127",
   "status": "partial",
   "theorems": [
    "Gotit.Props.C127_violated",
    "Gotit.Props.C127_announce_violated",
    "Gotit.Props.C127_any_partial"
   ],
   "note": "Violated for every torrent with trackers in two tiers: any set of trackers may have begun to announce while the others have not. The announce URL is always used."
  },
  {
   "property": "C128",
   "status": "partial",
   "theorems": [
    "Gotit.Props.C128_violated",
    "Gotit.Props.C128_cut_partial",
    "Gotit.Props.C128_unbroken_partial",
    "Gotit.Props.C128_announced_partial",
    "Gotit.Props.C128_any",
    "Gotit.Props.C128_world_any"
   ],
   "note": "Violated for every message: bytes inside another message (say a block) are taken for it when the deadline passes while that message arrives, because Run goes on reading. Always: each message acted on stands in the arrived bytes after its length, in order and without overlap. If no deadline passes and no error happens inside a message, exactly the messages sent are acted on. C128_any and C128_world_any: the executions of the models PeerRun and World are exactly those some bytes on the connections lead to (messages below 4 GiB), so their theorems, positive and negative, are about remote peers that only send bytes."
  },
  {
   "property": "C129",
   "status": "proved",
   "theorems": [
    "Gotit.Props.C129_text",
    "Gotit.Props.C129_different",
    "Gotit.Props.C129_pieces"
   ],
   "note": ""
  },
  {
   "property": "C130",
   "status": "proved",
   "theorems": [
    "Gotit.Props.C130_set"
   ],
   "note": ""
  },
  {
   "property": "C131",
   "status": "proved",
   "theorems": [
    "Gotit.Props.C131_close"
   ],
   "note": "Close is never called by the program."
  },
  {
   "property": "C132",
   "status": "partial",
   "theorems": [
    "Gotit.Props.C132_violated",
    "Gotit.Props.C132_lost_partial",
    "Gotit.Props.C132_queue_partial",
    "Gotit.Props.C132_response_partial"
   ],
   "note": "False: every call of initPeers makes its own retry queue, and Next never gives a piece again. C132_queue_partial: once given by Next, a piece is only ever asked of peers of the same response. C132_lost_partial: when those have returned, it is never asked for again. C132_response_partial: in the whole program every response gets a queue that no peer of another response has. C132_violated: such executions exist for every torrent with pieces below 128 KiB. Stated for peers with the interest flag set (see C52)."
  },
  {
   "property": "C133",
   "status": "partial",
   "theorems": [
    "Gotit.Props.C133_exact_partial",
    "Gotit.Props.C133_connect",
    "Gotit.Props.C133_violated"
   ],
   "note": "False for announces: parseTrackerResponse looks at the action code of the answer only, not at what was asked; an announce answered with a connect answer succeeds with the peers of a former announce (C133_violated; stated for an answer that can be read, see C25). C133_connect: holds for connect requests, exactly. C133_exact_partial: what is accepted, exactly."
  },
  {
   "property": "C134",
   "status": "partial",
   "theorems": [
    "Gotit.Props.C134_violated",
    "Gotit.Props.C134_http_partial",
    "Gotit.Props.C134_udp_partial",
    "Gotit.Props.C134_tries_partial"
   ],
   "note": "False for HTTP trackers: http.DefaultClient has no timeout, so an answer can come arbitrarily late, and a body that never ends keeps Announce from returning (C134_violated); C134_http_partial: it returns exactly if there is an answer and its body ends. Holds for UDP trackers: two seconds for an announce (C134_udp_partial), 25 seconds for five attempts with their pauses (C134_tries_partial). Nothing is cancelled in these theorems."
  },
  {
   "property": "C135",
   "status": "partial",
   "theorems": [
    "Gotit.Props.C135_violated",
    "Gotit.Props.C135_told_partial",
    "Gotit.Props.C135_exact_partial"
   ],
   "note": "False: a peer is told before it has said anything, and one that has nothing is told again and again (C135_violated). C135_told_partial: nothing is heard from a peer that has not been told before. C135_exact_partial: once told, a peer takes the client to be interested for good; the client never says that it is not."
  },
  {
   "property": "C136",
   "status": "proved",
   "theorems": [
    "Gotit.Props.C136_provenance",
    "Gotit.Props.C136_file",
    "Gotit.Props.C136_bytes",
    "Gotit.Props.C136_parts",
    "Gotit.Props.C136_any"
   ],
   "note": "C136_file begins with the torrent file, given as the encoding of a metainfo, C136_bytes with any bytes the program opens. C136_provenance is the property, for the whole program: manager, trackers, connections, Run of all peers, writer in one model. C136_parts: every execution of the whole program is one of Model/Manager and one of Model/World, so their theorems hold for it. C136_any: conversely what peers, writer and disk can do in Model/World (each peer with its own retry queue, messages below 4 GiB, as many peers as trackers can name) they can do in the whole program. The hypothesis on the size (2^63 bytes) is that of C76."
  },
  {
   "property": "C137",
   "status": "partial",
   "theorems": [
    "Gotit.Props.C137_violated",
    "Gotit.Props.C137_send_violated",
    "Gotit.Props.C137_wait_violated",
    "Gotit.Props.C137_close_violated",
    "Gotit.Props.C137_map_violated",
    "Gotit.Props.C137_print_violated",
    "Gotit.Props.C148_violated",
    "Gotit.Props.C137_exact_partial",
    "Gotit.Props.C137_shown_partial",
    "Gotit.Props.C137_causes_partial",
    "Gotit.Props.C137_trackers_partial"
   ],
   "note": "False in seven ways, each shown by an execution of the whole program (Model/Program), for every torrent with an HTTP tracker: a malformed message of a peer (C137_violated); a verified piece that comes after an interrupt (C137_send_violated); a peer that ends while another is started, without any message or interrupt (C137_wait_violated); an interrupt after a peer could not be reached (C137_close_violated) or before a tracker answers (C137_map_violated); a peer that sends a verified piece again and again until the display panics at 105% (C137_print_violated, Model/Display); a reply of a tracker that is no dictionary (C148_violated). C137_exact_partial: before an interrupt the first, the third and the last are the only ones, exactly, of the goroutines other than the display; C137_shown_partial: with the display these and its panic, which needs more than 104% of the size received. C137_causes_partial: apart from the display there is no seventh. C137_trackers_partial: before an interrupt and without peers the replies of C148 are the only cause, exactly."
  },
  {
   "property": "C138",
   "status": "partial",
   "theorems": [
    "Gotit.Props.C138_violated",
    "Gotit.Props.C138_entries_partial",
    "Gotit.Props.C138_listed_partial",
    "Gotit.Props.C138_dialled_partial"
   ],
   "note": "C138_violated: in every execution in which trackers list peers by host names, no peer is ever connected to. C138_entries_partial: an entry is valid exactly if its ip is the text of an address in the sense of RFC 4291/4007 (specified on its own, Spec/Netip) and its port a number, and then is that address. C138_listed_partial: a response listing addresses in whatever forms of text is answered with exactly these addresses. C138_dialled_partial: the text dialled for an address is understood by net.Dial exactly if its zone has no brackets, and then as this address and port."
  },
  {
   "property": "C139",
   "status": "partial",
   "theorems": [
    "Gotit.Props.C139_violated",
    "Gotit.Props.C139_exact_partial"
   ],
   "note": "C139_violated: for every IPv4 address and port, a tracker that lists it once as dotted quad and once IPv4-mapped makes the client hold two connections to the same endpoint (an execution of the whole program). C139_exact_partial: that is the only way; any two running peers have different addresses, since AddrPort.String is injective."
  },
  {
   "property": "C140",
   "status": "proved",
   "theorems": [
    "Gotit.Props.C140_new",
    "Gotit.Props.C140_from",
    "Gotit.Props.C140_model",
    "Gotit.Props.C140_model_new",
    "Gotit.Props.C140_model_from",
    "Gotit.Props.C140_room"
   ],
   "note": "About the library bitset v1.2.2 on its words (BitVec 64), as gotit calls it. C140_new, C140_from: every result of every sequence of calls, against a specification in terms of the calls before. C140_model\u2026: the word algorithms give the same results as Model/BitSet, which the other properties use, so these do not depend on that abstraction."
  },
  {
   "property": "C141",
   "status": "proved",
   "theorems": [
    "Gotit.Props.C141_goes_on",
    "Gotit.Props.C141_again"
   ],
   "note": "C141_goes_on: safety, in every continuation without cancellation. C141_again: in every endless execution without cancellation in which the goroutine leaves each of its calls; that announces, handshakes and waits return is the matter of C134, C110 and C21."
  },
  {
   "property": "C142",
   "status": "partial",
   "theorems": [
    "Gotit.Props.C142_partial",
    "Gotit.Props.C142_violated",
    "Gotit.Props.C142_honest_violated"
   ],
   "note": "Holds when the content fills its last piece (C142_partial). With a shorter last piece a torrent of several files never counts as done, whatever peers send (C142_violated: no hypothesis on them); any torrent does not as long as the peers send whole pieces (C142_honest_violated)."
  },
  {
   "property": "C143",
   "status": "partial",
   "theorems": [
    "Gotit.Props.C143_body",
    "Gotit.Props.C143_files",
    "Gotit.Props.C143_new_partial",
    "Gotit.Props.C143_never_partial",
    "Gotit.Props.C143_violated"
   ],
   "note": "Holds for response bodies (C143_body). Fails for the rest: torrent file, files of the download and UDP sockets are never closed (C143_never_partial), also when New fails half-way (C143_new_partial, exact; C143_violated). Close of a torrent would close exactly what is open (C143_files); nothing calls it."
  },
  {
   "property": "C144",
   "status": "partial",
   "theorems": [
    "Gotit.Props.C144_flat_partial",
    "Gotit.Props.C144_nested_violated"
   ],
   "note": "C144_flat_partial: for single files and directories without directories inside, whether or not the last piece is full, with exact file lengths, and the program ends normally. Fails for directories inside directories (C144_nested_violated): only the first name of a path is used, so the file is never at its place, whatever peers and trackers do."
  },
  {
   "property": "C145",
   "status": "proved",
   "theorems": [
    "Gotit.Props.C145_dials",
    "Gotit.Props.C145_response"
   ],
   "note": "For every run of the program. Time does not occur here (see C118 for how long it takes)."
  },
  {
   "property": "C146",
   "status": "partial",
   "theorems": [
    "Gotit.Props.C146_violated",
    "Gotit.Props.C146_intact_partial",
    "Gotit.Props.C146_broken_partial"
   ],
   "note": "False: unchoke writes interested again after a write that failed in the middle of the message; the other side then hears choke (or a keep-alive) and takes the rest for the beginning of a long message: for up to 52 repetitions nothing else is heard. C146_intact_partial: exactly what was said is heard if only the last write was cut. C146_broken_partial: whenever a cut message is followed by a whole one, what is heard is not what was said. (Between the two: several cut writes after each other and nothing more.)"
  },
  {
   "property": "C147",
   "status": "partial",
   "theorems": [
    "Gotit.Props.C147_violated",
    "Gotit.Props.C147_lines_partial",
    "Gotit.Props.C147_bound_partial"
   ],
   "note": "False: for every torrent there is an execution that prints a line with nothing downloaded and yet a piece less left. C147_lines_partial: what the figures of every line are, exactly in terms of blocks: the percentage not newer than downloaded, downloaded at most one block ahead of left, the speed the newest. C147_bound_partial: in bytes, while no more than the size was received: downloaded and left exceed the size by at most one block."
  },
  {
   "property": "C148",
   "status": "partial",
   "theorems": [
    "Gotit.Props.C148_violated",
    "Gotit.Props.C148_reply_partial",
    "Gotit.Props.C148_udp_partial",
    "Gotit.Props.C137_trackers_partial"
   ],
   "note": "False: a reply with status 200 whose body begins with an element other than a dictionary, e.g. le, ends the program before there is any peer (C148_violated, for every torrent with an HTTP tracker). C148_reply_partial: exactly these replies, and those in which a string with a length gotit takes for negative is reached, make Announce panic. C148_udp_partial: no datagrams of a UDP tracker do. C137_trackers_partial: in the whole program, before an interrupt and without peers, nothing else crashes. (Stack overflow by nesting is C125.)"
  },
  {
   "property": "C149",
   "status": "partial",
   "theorems": [
    "Gotit.Props.C149_violated",
    "Gotit.Props.C149_partial",
    "Gotit.Props.C149_moves_partial",
    "Gotit.Props.C149_late_partial",
    "Gotit.Props.C56_time_partial"
   ],
   "note": "Violated: a Run that waits for the writer has no time limit, and Download waits for it, interrupt or not (C149_violated). Holds if the writer takes every piece within w: over within 4 s + 2w + (16 + trackers + peers in the pool) delays of the scheduler, whatever trackers and dialled peers do (C149_partial). The times in the model can always be kept (C149_moves_partial); its limits for Run are C56_time_partial and C149_late_partial."
  },
  {
   "property": "C150",
   "status": "partial",
   "theorems": [
    "Gotit.Props.C150_violated",
    "Gotit.Props.C150_http_partial",
    "Gotit.Props.C150_flag_partial",
    "Gotit.Props.C150_udp_violated",
    "Gotit.Props.C150_udp_partial"
   ],
   "note": "False: every integer of 64 bits is accepted and announced as it is, so that outside 0 to 65535 no tracker can read it (C150_violated). UDP trackers never find the port: the datagram ends before its place (C150_udp_violated); it stands modulo 2^32 in the last four bytes (C150_udp_partial). HTTP, exactly: one port in decimal, read back as given iff it is between 0 and 65535 (C150_http_partial). Nothing listens on the port: there is no call of net.Listen in the repository (see C96)."
  },
  {
   "property": "C151",
   "status": "partial",
   "theorems": [
    "Gotit.Props.C151_violated",
    "Gotit.Props.C151_format_violated",
    "Gotit.Props.C151_exact_partial",
    "Gotit.Props.C151_commands_partial"
   ],
   "note": "False on every machine where the program starts and for every level but info (C151_violated). Exactly: the program does not start iff the search for .gotit finds a file that is not usable (this holds for every command, with or without --config); otherwise the logger is info and color, although viper holds what is in the environment or else in the file (C151_exact_partial). viper is modelled by its documented behaviour."
  },
  {
   "property": "C152",
   "status": "partial",
   "theorems": [
    "Gotit.Props.C152_violated",
    "Gotit.Props.C152_false_violated",
    "Gotit.Props.C152_iff_partial"
   ],
   "note": "False in every case: NotifyContext stays registered until the command returns, so that after the first signal any number of further ones changes nothing (C152_violated). Exactly: a signal ends the process at once iff it comes before the first NotifyContext (C152_iff_partial). With C123_violated: a program that waits for the torrent file can only be ended with SIGKILL."
  },
  {
   "property": "C153",
   "status": "partial",
   "theorems": [
    "Gotit.Props.C153_bencode_partial",
    "Gotit.Props.C153_exact_partial",
    "Gotit.Props.C153_violated",
    "Gotit.Props.C153_iff_partial",
    "Gotit.Props.C153_crash_partial",
    "Gotit.Props.C153_false_violated"
   ],
   "note": "Holds for bencode in every execution. False for download: if one of several files cannot be created, the ones before it have been truncated already and the command fails (C153_violated, C153_false_violated). C153_iff_partial says exactly when a file can be lost, C153_exact_partial what the disk looks like after a failure; a crash at the start touches nothing (C153_crash_partial). Empty files and directories that are left behind are not seen by the model of the disk."
  }
 ]
}