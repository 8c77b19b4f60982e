{
 "claims": [
  {
   "property": "C01",
   "status": "partial",
   "theorems": [
    "Verif.Bencode.C01_roundtrip_partial",
    "Verif.Bencode.C01_roundtrip_iff",
    "Verif.Bencode.C01_refuted_minInt64",
    "Verif.Bencode.C01_encode_succeeds_iff"
   ],
   "note": "The statement is false at the int64 minimum (encoded, not decodable): C01_refuted_minInt64. C01_roundtrip_iff is the exact characterisation: the round trip works iff the value contains no int64 minimum."
  },
  {
   "property": "C02",
   "status": "proved",
   "theorems": [
    "Verif.Bencode.C02_canonical_reencode"
   ],
   "note": "Canonical documents are described by the inductive grammar Spec.Canon."
  },
  {
   "property": "C03",
   "status": "proved",
   "theorems": [
    "Verif.Bencode.C03_map_order_irrelevant",
    "Verif.Bencode.C03_keys_sorted"
   ],
   "note": "Any two values equal up to map order at any depth encode identically (bytes and error); output is canonical (strictly increasing keys)."
  },
  {
   "property": "C04",
   "status": "proved",
   "theorems": [
    "Verif.Bencode.C04_unambiguous"
   ],
   "note": "Includes prefix-freeness; no restriction on integers."
  },
  {
   "property": "C05",
   "status": "proved",
   "theorems": [
    "Verif.Bencode.C05_decode_total",
    "Verif.Bencode.C05_strings_from_input"
   ],
   "note": "Fuel 2*len+1 is always enough and more fuel changes nothing. The call stack has no limit here; with a limit see C84."
  },
  {
   "property": "C06",
   "status": "partial",
   "theorems": [
    "Verif.Bencode.C06_refuted_string",
    "Verif.Bencode.C06_visible_bytes_only_partial",
    "Verif.Bencode.C06_deviation_only_for_strings",
    "Verif.Bencode.C06_iff_partial"
   ],
   "note": "False for a top-level string (slice expressions are bounded by capacity): C06_refuted_string. C06_iff_partial: memory behind the slice matters if and only if the slice is a string whose announced length ends behind the slice and within its capacity; otherwise the claim holds."
  },
  {
   "property": "C07",
   "status": "partial",
   "theorems": [
    "Verif.Bencode.C07_truncation_rejected_partial",
    "Verif.Bencode.C07_truncation_rejected_any_capacity",
    "Verif.Bencode.C07_refuted_resliced_string",
    "Verif.Bencode.C07_iff_partial"
   ],
   "note": "Proved for slices of exact capacity, and for any capacity when the value is not a string; refuted for re-sliced string encodings. C07_iff_partial: a re-sliced string is rejected if and only if its colon is cut off."
  },
  {
   "property": "C08",
   "status": "proved",
   "theorems": [
    "Verif.Bencode.C08_suffix_ignored",
    "Verif.Bencode.C08_suffix_ignored_any_capacity"
   ],
   "note": "Proved for slices without spare capacity, and with spare capacity for every non-string result."
  },
  {
   "property": "C09",
   "status": "partial",
   "theorems": [
    "Verif.Bencode.C09_getString",
    "Verif.Bencode.C09_getInt",
    "Verif.Bencode.C09_getDict",
    "Verif.Bencode.C09_getList",
    "Verif.Bencode.C09_getUint_partial",
    "Verif.Bencode.C09_refuted_getUint",
    "Verif.Bencode.C09_last_duplicate_wins",
    "Verif.Bencode.C09_getUint_exact_partial"
   ],
   "note": "Exact for GetString/GetInt/GetDict/GetList and duplicates; GetUint is refuted for negative integers and characterised exactly. C09_getUint_exact_partial: GetUint returns exactly the number below 2^64 that differs from the stored integer by a multiple of 2^64."
  },
  {
   "property": "C10",
   "status": "partial",
   "theorems": [
    "Verif.P2P.C10_exact_partial",
    "Verif.P2P.C10_encode_wire_partial",
    "Verif.P2P.C10_refuted_request"
   ],
   "note": "Proved for every message kind except request (any index, block, bitfield); for requests refuted for all arguments: Encode always yields reqlen followed by type byte 6. C10_exact_partial: a message that a constructor built is encoded as specified if and only if it is not a request."
  },
  {
   "property": "C11",
   "status": "partial",
   "theorems": [
    "Verif.P2P.C11_iff_partial",
    "Verif.P2P.C11_roundtrip_partial",
    "Verif.P2P.C11_encode_decode_partial",
    "Verif.P2P.C11_refuted_piece",
    "Verif.P2P.C11_piece_payload",
    "Verif.P2P.C11_refuted_empty_bitfield"
   ],
   "note": "Proved for all decodable messages with arbitrary trailing bytes (total below 2^32, as lengths are compared in uint32); piece messages always panic, the empty bitfield message is rejected with Read 0. C11_iff_partial: these two are the only exceptions."
  },
  {
   "property": "C12",
   "status": "partial",
   "theorems": [
    "Verif.P2P.C12_iff_partial",
    "Verif.P2P.C12_stream_partial",
    "Verif.P2P.C12_refuted_piece"
   ],
   "note": "Proved for all streams of decodable messages; refuted for streams with a piece message. C12_iff_partial: a stream comes back in full if and only if it has neither a piece message nor an empty bitfield message."
  },
  {
   "property": "C13",
   "status": "partial",
   "theorems": [
    "Verif.P2P.C13_buffer_panics_iff",
    "Verif.P2P.C13_panic_iff",
    "Verif.P2P.C13_no_panic_partial",
    "Verif.P2P.C13_refuted_length_overflow",
    "Verif.P2P.C13_refuted_piece"
   ],
   "note": "Exact characterisation of the panicking inputs (iff), also for whole buffers (C13_buffer_panics_iff), and two refutations."
  },
  {
   "property": "C14",
   "status": "partial",
   "theorems": [
    "Verif.P2P.C14_loops_iff",
    "Verif.P2P.C14_finishes_partial",
    "Verif.P2P.C14_refuted_empty_bitfield"
   ],
   "note": "Terminates within one iteration per byte unless the bytes 0,0,0,1,5 occur; with such a frame behind any valid prefix it never terminates. C14_loops_iff is exact, in terms of how the bytes are taken apart (Spec/Framing.lean)."
  },
  {
   "property": "C15",
   "status": "proved",
   "theorems": [
    "Verif.P2P.C15_decode_read_exact",
    "Verif.P2P.C15_decodeAll_read_exact"
   ],
   "note": "Soundness: on success the consumed bytes are exactly the wire form of the returned message; DecodeAll's count is the total wire length and the wire forms are a subsequence of the input."
  },
  {
   "property": "C16",
   "status": "partial",
   "theorems": [
    "Verif.P2P.C16_iff_partial",
    "Verif.P2P.C16_boundary_chunks_partial",
    "Verif.P2P.C16_refuted_every_cut"
   ],
   "note": "Refuted for every message and every cut strictly inside it; C16_iff_partial: the reads give the messages of the stream if and only if every read ends on a message boundary."
  },
  {
   "property": "C17",
   "status": "proved",
   "theorems": [
    "Verif.Bf.C17_bit_map",
    "Verif.Bf.C17_bit_map_received"
   ],
   "note": "Any history of Set/Fill on new or received bitfields, including the padding of the last byte."
  },
  {
   "property": "C18",
   "status": "partial",
   "theorems": [
    "Verif.Bf.C18_counter_exact_partial",
    "Verif.Bf.C18_refuted_padding_set",
    "Verif.Bf.C18_refuted_setNbits",
    "Verif.Bf.C18_setNbits"
   ],
   "note": "Exact for all histories with Set below Nbits and SetNbits that needs the last byte; two refutations outside of that."
  },
  {
   "property": "C19",
   "status": "partial",
   "theorems": [
    "Verif.Bf.C19_fromBytes_accepts_iff",
    "Verif.Bf.C19_msb_first",
    "Verif.Bf.C19_out_of_range_panics_partial",
    "Verif.Bf.C19_refuted_padding_readable"
   ],
   "note": "Acceptance and bit order exact; out-of-range is decided by allocated bytes (exact iff), padding bits are readable (refuted)."
  },
  {
   "property": "C20",
   "status": "partial",
   "theorems": [
    "Verif.MsgHandler.C20_iff_partial",
    "Verif.MsgHandler.C20_exchange_partial",
    "Verif.MsgHandler.C20_refuted_no_pieces",
    "Verif.P2P.C20_sender"
   ],
   "note": "Encode, DecodeAll and handleBitfield composed, for every reachable bitfield with at least one piece, as long as no piece gets a 64th peer. Refuted for torrents without pieces: the receiver loops for ever. C20_sender: encoding leaves the sender's own bits and counts as they were. C20_iff_partial: apart from that, torrents without pieces are the only exception."
  },
  {
   "property": "C21",
   "status": "proved",
   "theorems": [
    "Verif.Files.C21_positions",
    "Verif.Files.C21_empty_files"
   ],
   "note": "MakeFileList is total for these inputs; entries in order, exact start and end positions, and the convention for empty files."
  },
  {
   "property": "C22",
   "status": "proved",
   "theorems": [
    "Verif.Files.C22_get_files"
   ],
   "note": "Any piece index in Z. Empty files are listed exactly if the piece length exceeds 1 and they start in that piece."
  },
  {
   "property": "C23",
   "status": "proved",
   "theorems": [
    "Verif.Files.C23_piece_map",
    "Verif.Files.C23_out_of_range",
    "Verif.Files.C23_in_order"
   ],
   "note": "(Exact arithmetic, see C73.) Holds whenever NewTorInfo accepts (non-negative lengths, positive piece length); quantified over all file contents; ranges stay inside their files; other indices are errors."
  },
  {
   "property": "C24",
   "status": "partial",
   "theorems": [
    "Verif.Files.C24_accept_iff_partial",
    "Verif.Files.C24_panic_iff_partial",
    "Verif.Files.C24_refuted_extra_hash",
    "Verif.Files.C24_refuted_negative_length",
    "Verif.Files.C24_refuted_panics",
    "Verif.Files.C24_fields",
    "Verif.Numbers.C24_single",
    "Verif.Numbers.C24_single_panic"
   ],
   "note": "(Exact arithmetic; C73 says for which lengths int64 makes no difference.) Refuted: extra hashes and negative lengths can be accepted, too few hashes or piece length 0 can panic. Exact iff for acceptance and for panics under non-negative lengths and positive piece length; for a single file an exact iff for all numbers, negative ones too (C24_single, C24_single_panic)."
  },
  {
   "property": "C25",
   "status": "proved",
   "theorems": [
    "Verif.Files.C25_last_piece",
    "Verif.Files.C25_count",
    "Verif.Files.C25_piece_hash"
   ],
   "note": "(Exact arithmetic, see C73.) Includes the empty torrent (0 pieces); also the exact value of PieceHash."
  },
  {
   "property": "C26",
   "status": "proved",
   "theorems": [
    "Verif.FileIO.C26_read",
    "Verif.FileIO.C26_write",
    "Verif.FileIO.C26_array",
    "Verif.FileIO.C26_prepared"
   ],
   "note": "For every accepted torrent with distinct local paths, after OCATAll (C26_prepared): reads are exact, a write of piece-sized data with the recorded hash changes only that piece, and any history of writes refines an array of pieces. Concurrent calls are modelled one after the other."
  },
  {
   "property": "C27",
   "status": "proved",
   "theorems": [
    "Verif.FileIO.C27_no_bad_data",
    "Verif.FileIO.C27_only_torrent_files"
   ],
   "note": "All constructible torrents (no assumption on lengths or paths); the whole file system is unchanged. Also: no call, successful or not, changes a file that is not an opened file of the torrent."
  },
  {
   "property": "C28",
   "status": "partial",
   "theorems": [
    "Verif.FileIO.C28_exact_partial",
    "Verif.FileIO.C28_ocat_partial",
    "Verif.FileIO.C28_can_succeed",
    "Verif.FileIO.C28_idempotent",
    "Verif.FileIO.C28_negative",
    "Verif.FileIO.C28_refuted_open_failure"
   ],
   "note": "Full statement for all prior states and all failures of system calls except a failing open of an existing file; with such a failure the data is lost (refuted). Negative lengths never succeed; OCAT can always succeed and never panics for n >= 0. C28_exact_partial: exactly the states a successful OCAT can leave, with and without such failures."
  },
  {
   "property": "C29",
   "status": "proved",
   "theorems": [
    "Verif.FileIO.C29_crash_recovery",
    "Verif.FileIO.C29_crash_recovery_all"
   ],
   "note": "Any number of interrupted or failed attempts, crash points also inside a write; also for OCATAll over all files of a torrent. Runs in which opening an existing file fails are excluded (see C28)."
  },
  {
   "property": "C30",
   "status": "partial",
   "theorems": [
    "Verif.Create.C30_succeeds_partial",
    "Verif.Create.C30_only_right_hashes_partial",
    "Verif.Create.C30_refuted_large_pieces",
    "Verif.Create.C30_refuted_zero",
    "Verif.Create.C30_iff_partial"
   ],
   "note": "Proved for all contents, all ways of splitting the reads and piece lengths 1 to 5 MiB; refuted above 5 MiB (the read buffer gets size 0) and for piece length 0. C30_iff_partial: success, and success with the right hashes, exactly for piece lengths from 1 to 5 MiB."
  },
  {
   "property": "C31",
   "status": "proved",
   "theorems": [
    "Verif.Create.C31_validate",
    "Verif.Create.C31_startup",
    "Verif.Create.C31_created",
    "Verif.Create.C31_created_startup"
   ],
   "note": "Any contents and prior bitfield; created torrents validate completely after start-up, and validation sets exactly the pieces whose bytes match."
  },
  {
   "property": "C32",
   "status": "partial",
   "theorems": [
    "Verif.Torrent.C32_iff_canonical_partial",
    "Verif.Torrent.C32_canonical_partial",
    "Verif.Torrent.C32_refuted_noncanonical",
    "Verif.Torrent.C32_refuted_collision"
   ],
   "note": "Exact: for an info value of the file below 2^63 bytes the info-hash is H of those bytes iff they are in canonical form (sorted keys, minimal numbers, nothing unencodable). Refuted for files with unsorted keys, and two different torrents get the same info-hash for every hash function."
  },
  {
   "property": "C33",
   "status": "partial",
   "theorems": [
    "Verif.Torrent.C33_single",
    "Verif.Torrent.C33_multi_partial",
    "Verif.Torrent.C33_same_infohash_partial",
    "Verif.Torrent.C33_refuted_one_file",
    "Verif.Torrent.C33_refuted_private",
    "Verif.Torrent.C33_refuted_slash",
    "Verif.Torrent.C33_exact",
    "Verif.Torrent.C33_infohash_exact",
    "Verif.Torrent.C33_refuted_keys"
   ],
   "note": "Holds for single files and for several files with non-empty components without slashes and private=0. Refuted for one file in a list, for private=1, for components with a slash, and for every dictionary without the optional key private or with any further key. C33_exact and C33_infohash_exact: exactly which dictionaries (and info-hashes) survive."
  },
  {
   "property": "C34",
   "status": "partial",
   "theorems": [
    "Verif.Torrent.C34_iff_partial",
    "Verif.Torrent.C34_location",
    "Verif.Torrent.C34_inside_partial",
    "Verif.Torrent.C34_no_dotdot_partial",
    "Verif.Torrent.C34_refuted_dotdot",
    "Verif.Torrent.C34_refuted_empty_wd"
   ],
   "note": "Exact location of every local path (walk of path components); inside if no component is '..' after walking; refuted for '..' and for an empty working directory. C34_iff_partial: for the current directory as working directory a file is inside wherever the program is started if and only if its path never leads above its beginning."
  },
  {
   "property": "C35",
   "status": "partial",
   "theorems": [
    "Verif.Torrent.C35_terminates",
    "Verif.Torrent.C35_panic_iff_partial",
    "Verif.Torrent.C35_no_panic_partial",
    "Verif.Torrent.C35_refuted_empty_path",
    "Verif.Torrent.C35_refuted_too_few_hashes",
    "Verif.Torrent.C35_refuted_zero_piece_length",
    "Verif.Numbers.C35_single"
   ],
   "note": "(Exact arithmetic, see C73.) Termination for all inputs; exact iff for panics under positive piece length and non-negative lengths; for torrents of a single file exact for all numbers (C35_single); refuted by three concrete files (empty path list, too few hashes, piece length 0)."
  },
  {
   "property": "C36",
   "status": "proved",
   "theorems": [
    "Verif.Tracker.C36_accept_iff",
    "Verif.Tracker.C36_peers",
    "Verif.Tracker.C36_roundtrip"
   ],
   "note": "Any byte string; offsets, address text and round trip for every list of addresses and ports."
  },
  {
   "property": "C37",
   "status": "partial",
   "theorems": [
    "Verif.Tracker.C37_failure",
    "Verif.Tracker.C37_accept_iff",
    "Verif.Tracker.C37_state_partial",
    "Verif.Tracker.C37_peers_partial",
    "Verif.Tracker.C37_no_panic",
    "Verif.Tracker.C37_refuted_negative",
    "Verif.Tracker.C37_refuted_port"
   ],
   "note": "Acceptance exact (iff) for every dictionary, no panics for any bytes sent. The reported numbers are exact when not negative and ports when below 65536; refuted otherwise (wrap-around)."
  },
  {
   "property": "C38",
   "status": "partial",
   "theorems": [
    "Verif.Tracker.C38_recovered_partial",
    "Verif.Tracker.C38_peer_id_iff_partial",
    "Verif.Tracker.C38_sent_partial",
    "Verif.Tracker.C38_numbers",
    "Verif.Tracker.C38_own_ids",
    "Verif.Tracker.C38_refuted_peer_id",
    "Verif.Tracker.C38_refuted_clash"
   ],
   "note": "Query string read back with an independent decoder; other parameters of the announce URL are kept. Peer ids arrive exactly if all bytes are unreserved (iff; true of all ids this client generates), otherwise they are escaped twice; also refuted when the announce URL has a parameter of the same name."
  },
  {
   "property": "C39",
   "status": "proved",
   "theorems": [
    "Verif.Tracker.C39_sums"
   ],
   "note": "Any history; 64-bit wrap-around of the sums, left saturates at zero."
  },
  {
   "property": "C40",
   "status": "proved",
   "theorems": [
    "Verif.Handshake.C40_valid_iff",
    "Verif.Handshake.C40_any_length",
    "Verif.Handshake.C40_made"
   ],
   "note": "All byte strings and all info-hashes and ids; exact (iff) against an independent definition of the handshake."
  },
  {
   "property": "C41",
   "status": "partial",
   "theorems": [
    "Verif.Handshake.C41_accept_iff_partial",
    "Verif.Handshake.C41_full_read_partial",
    "Verif.Handshake.C41_answer",
    "Verif.Handshake.C41_refuted_short",
    "Verif.Handshake.C41_refuted_incomplete",
    "Verif.Handshake.C41_short_first_segment"
   ],
   "note": "Acceptance exact (iff) in terms of the bytes the single Read delivers, padded with zero bytes; refuted: a valid handshake that arrives in two segments is rejected, and some incomplete ones are accepted."
  },
  {
   "property": "C42",
   "status": "partial",
   "theorems": [
    "Verif.MsgHandler.C42_first_buffer",
    "Verif.MsgHandler.C42_refuted_inside",
    "Verif.MsgHandler.C42_refuted_crash",
    "Verif.MsgHandler.C42_own_segment_partial",
    "Verif.MsgHandler.C42_sends",
    "Verif.MsgHandler.C42_refuted_lost",
    "Verif.MsgHandler.C42_refuted_no_handshake"
   ],
   "note": "Refuted: the answer is never checked, and everything behind the remote handshake in the same buffer is dropped, for all contents. What remains: a handshake alone in its buffer is ignored without consequences, and we send exactly our handshake. Which bytes are lost is exact (C42_first_buffer): the first buffer received is dropped, wherever it ends, and all others are taken for messages. So a handshake that is received in two parts can contain any message of at most 20 bytes (C42_refuted_inside), also ones that make the client panic or keep it busy for ever (C42_refuted_crash)."
  },
  {
   "property": "C43",
   "status": "partial",
   "theorems": [
    "Verif.MsgHandler.C43_served_exact_partial",
    "Verif.MsgHandler.C43_served_partial",
    "Verif.MsgHandler.C43_answered",
    "Verif.MsgHandler.C43_refuted_stale"
   ],
   "note": "What is written is characterised exactly for every request and state; right for every range inside the piece, refuted for ranges past the end of the short last piece (stale buffer bytes are sent)."
  },
  {
   "property": "C44",
   "status": "partial",
   "theorems": [
    "Verif.MsgHandler.C44_panic_iff_partial",
    "Verif.MsgHandler.C44_no_panic_partial",
    "Verif.MsgHandler.C44_refuted_index",
    "Verif.MsgHandler.C44_refuted_length"
   ],
   "note": "Panics characterised exactly (iff) for all requests; refuted for every incomplete client (index) and every client with a piece (length)."
  },
  {
   "property": "C45",
   "status": "partial",
   "theorems": [
    "Verif.MsgHandler.C45_iff_partial",
    "Verif.MsgHandler.C45_wrong_size",
    "Verif.MsgHandler.C45_right_size_partial",
    "Verif.MsgHandler.C45_first_partial",
    "Verif.MsgHandler.C45_refuted_second"
   ],
   "note": "Wrong size: nothing changes. Right size: exact effect on the peer's bitfield and the registrations of everybody, panic iff a piece gets a 64th peer; right for the first bitfield, refuted for a second one with fewer bits. C45_iff_partial: a bitfield of the right size leads to exactly the announced registrations precisely if the peer was registered for none but these and no piece has too many peers."
  },
  {
   "property": "C46",
   "status": "partial",
   "theorems": [
    "Verif.PieceTracker.C46_panic_iff_partial",
    "Verif.PieceTracker.C46_filed",
    "Verif.PieceTracker.C46_few_peers_partial",
    "Verif.PieceTracker.C46_refuted_64_peers"
   ],
   "note": "Exact (iff) for all histories of valid calls: a panic occurs iff some piece gets a 64th distinct peer; otherwise every bucket holds exactly the pieces with that many peers. Refuted for 64 peers on any torrent."
  },
  {
   "property": "C47",
   "status": "proved",
   "theorems": [
    "Verif.PieceTracker.C47_rarest"
   ],
   "note": "All histories, pieces, peers and contents of our bitfield (which may change between calls)."
  },
  {
   "property": "C48",
   "status": "partial",
   "theorems": [
    "Verif.PieceTracker.C48_refuted_again",
    "Verif.PieceTracker.C48_refuted_two_peers",
    "Verif.PieceTracker.C48_noted_partial"
   ],
   "note": "Refuted: NextPiece marks a copy of the piece, so the same piece is handed out again after every history. What holds: the tracker notes for each peer exactly the pieces it was handed, in order, marked until the peer is unregistered (C48_noted_partial); but NextPiece never looks at these notes."
  },
  {
   "property": "C49",
   "status": "proved",
   "theorems": [
    "Verif.PieceTracker.C49_unregister"
   ],
   "note": "All histories; Unregister itself never panics."
  },
  {
   "property": "C50",
   "status": "proved",
   "theorems": [
    "Verif.DS.C50_sequence",
    "Verif.DS.C50_remove_empty"
   ],
   "note": "All histories in which only detached nodes are added and only members removed."
  },
  {
   "property": "C51",
   "status": "partial",
   "theorems": [
    "Verif.DS.C51_set",
    "Verif.DS.C51_items_partial",
    "Verif.DS.C51_refuted_items",
    "Verif.DS.C51_iff_partial"
   ],
   "note": "Membership, size and results exact for all histories; Items is refuted (it starts with zero values) and characterised exactly. C51_iff_partial: Items is right if and only if the set is empty."
  },
  {
   "property": "C52",
   "status": "partial",
   "theorems": [
    "Verif.MsgHandler.C52_iff_partial",
    "Verif.MsgHandler.C52_refuted_never_ends",
    "Verif.MsgHandler.C52_refuted_all_pieces",
    "Verif.MsgHandler.C52_refuted_memory",
    "Verif.MsgHandler.C52_empty_partial"
   ],
   "note": "Refuted for every piece of every consistent torrent: the loop never advances the offset. Only pieces of length 0 terminate. After k rounds k messages are in memory (C52_refuted_memory). C52_iff_partial: requests are created if and only if the length of the piece is a multiple of 2^32."
  },
  {
   "property": "C53",
   "status": "proved",
   "theorems": [
    "Verif.RateLimit.C53_window"
   ],
   "note": "Transition system with any number of goroutines; every schedule of Write calls and ticks at a fixed limit; hypothesis: limit plus one write below 2^63."
  },
  {
   "property": "C54",
   "status": "partial",
   "theorems": [
    "Verif.RateLimit.C54_refuted_waiting",
    "Verif.RateLimit.C54_refuted_zero",
    "Verif.RateLimit.C54_refuted_lifted",
    "Verif.RateLimit.C54_takes_effect_partial",
    "Verif.RateLimit.C54_effect_iff",
    "Verif.RateLimit.C54_total"
   ],
   "note": "The totals are proved for all schedules and limits. Taking effect is refuted: never before the waiting write is admitted, and never at all with limit 0 or when the limit is lifted between a write's check and its locking. What remains: with a positive limit the new limit can be stored after the waiting write. C54_effect_iff: exactly when a waiting SetWriteRate can still store its limit."
  },
  {
   "property": "C55",
   "status": "partial",
   "theorems": [
    "Verif.ReadLoop.C55_intact",
    "Verif.ReadLoop.C55_once",
    "Verif.ReadLoop.C55_no_read",
    "Verif.ReadLoop.C55_refuted_with_error",
    "Verif.ReadLoop.C55_not_empty",
    "Verif.ReadLoop.C55_ready"
   ],
   "note": "All schedules of reader and consumer, all read sizes, arbitrary buffer contents during reads. Refuted only for data that comes together with an error, which is dropped. C55_ready and C55_not_empty: when the consumer may take a chunk, and that chunks are not empty."
  },
  {
   "property": "C56",
   "status": "partial",
   "theorems": [
    "Verif.ReadLoop.C56_exact_partial",
    "Verif.ReadLoop.C56_refuted_deadlock",
    "Verif.ReadLoop.C56_told_partial",
    "Verif.ReadLoop.C56_by_itself_partial",
    "Verif.ReadLoop.C56_refuted_leak"
   ],
   "note": "Exact (iff): ending is inevitable iff the reader holds a chunk not yet followed by Ready; refuted otherwise (deadlock with a silent peer), and the read loop leaks when recvLoop ends without Finish. A connection that fails or is closed lets the read loop end by itself if its last report is taken (C56_by_itself_partial)."
  },
  {
   "property": "C57",
   "status": "partial",
   "theorems": [
    "Verif.PeerLoop.C57_refuted_never_returns",
    "Verif.PeerLoop.C57_refuted_request",
    "Verif.PeerLoop.C57_refuted_two_errors",
    "Verif.PeerLoop.C57_refuted_finish",
    "Verif.PeerLoop.C57_refuted_quiet",
    "Verif.PeerLoop.C57_refuted_wait",
    "Verif.PeerLoop.C57_wait_partial",
    "Verif.PeerLoop.C57_recv_error_partial",
    "Verif.PeerLoop.C57_ping_error_partial",
    "Verif.PeerLoop.C57_ends_iff_partial",
    "Verif.PeerLoop.C57_ends_seed_iff_partial"
   ],
   "note": "Refuted: Loop never returns (its report goes to a nil channel); apart from that it deadlocks with two errors, with a blocked Finish and with a request being made. What remains: with one error and nothing to request all goroutines stop. Exactly in which states the goroutines come to rest: C57_ends_iff_partial (six ways, of which only the last is the one claimed), C57_ends_seed_iff_partial for a client that has everything."
  },
  {
   "property": "C58",
   "status": "partial",
   "theorems": [
    "Verif.Utils.C58_parse_partial",
    "Verif.Utils.C58_exact_partial",
    "Verif.Utils.C58_reject",
    "Verif.Utils.C58_refuted_overflow"
   ],
   "note": "Full grammar; exact result modulo 2^64 in general, exact value when the product fits in int64. Refuted: a product above 2^63 wraps silently (e.g. becomes unlimited)."
  },
  {
   "property": "C59",
   "status": "proved",
   "theorems": [
    "Verif.Utils.C59_segments",
    "Verif.Utils.C59_pieces",
    "Verif.Utils.C59_bad_size"
   ],
   "note": "All data and all positive sizes; zero or negative sizes characterised too."
  },
  {
   "property": "C60",
   "status": "proved",
   "theorems": [
    "Verif.Utils.C60_peer_id",
    "Verif.Utils.C60_terminates",
    "Verif.Utils.C60_source_matters"
   ],
   "note": "For every random source; termination exactly when the source keeps delivering usable indices."
  },
  {
   "property": "C61",
   "status": "proved",
   "theorems": [
    "Verif.NetIP.C61_key_six",
    "Verif.Peer.C61_key_injective",
    "Verif.Peer.C61_others_kept"
   ],
   "note": "All ids, ports, and IPv4 addresses in both representations; also stated for the tracker's Unregister. C61_key_six: for all addresses of sixteen bytes, IPv6 included (with the text of C120)."
  },
  {
   "property": "C62",
   "status": "partial",
   "theorems": [
    "Verif.FileIO.C62_refuted_other_size",
    "Verif.FileIO.C62_exact_partial",
    "Verif.FileIO.C62_refused_iff_partial"
   ],
   "note": "Refuted: short data panics or stores bytes behind the slice, long data is cut silently. C62_exact_partial says what happens for every length of the data, C62_refused_iff_partial that the recorded hash is the only thing that counts."
  },
  {
   "property": "C63",
   "status": "proved",
   "theorems": [
    "Verif.Utils.C63_remove_swap"
   ],
   "note": "All element types, slices and indices."
  },
  {
   "property": "C64",
   "status": "proved",
   "theorems": [
    "Verif.Bencode.C64_sound",
    "Verif.Bencode.C64_complete",
    "Verif.Bencode.C64_accepts_iff",
    "Verif.Bencode.C64_unambiguous",
    "Verif.Bencode.C64_values"
   ],
   "note": "Grammar given as the inductive predicate Spec.Parses; soundness, completeness (any suffix, any capacity), prefix-freeness."
  },
  {
   "property": "C65",
   "status": "partial",
   "theorems": [
    "Verif.Tracker.C65_panic_iff_partial",
    "Verif.Tracker.C65_refuted_bad_url",
    "Verif.UrlParse.C65_exact_partial",
    "Verif.UrlParse.C65_refuted_texts"
   ],
   "note": "Exact, with url.Parse (Go 1.18) modelled: a panic iff the announce text is not a URL in the sense of the grammar of C121 (C65_exact_partial); refuted by a loadable torrent file with a control character in its announce URL (C65_refuted_bad_url) and for texts that people write, such as 10.0.0.7:6969/announce (C65_refuted_texts). C65_panic_iff_partial is the same with url.Parse as a parameter."
  },
  {
   "property": "C66",
   "status": "partial",
   "theorems": [
    "Verif.Session.C66_any_partial",
    "Verif.Session.C66_any_outgoing_partial",
    "Verif.MsgHandler.C66_error_ends",
    "Verif.MsgHandler.C66_refuted_split",
    "Verif.Session.C66_exact",
    "Verif.Session.C66_exact_outgoing",
    "Verif.Session.C66_unique",
    "Verif.Session.C66_sent",
    "Verif.Session.C66_sent_outgoing",
    "Verif.Session.C66_seeding_partial",
    "Verif.Session.C66_outgoing_partial",
    "Verif.Session.C66_registered_partial"
   ],
   "note": "The whole session from the handshake on, for every layout, set of pieces and message sequence. Connections that we open likewise (C66_outgoing_partial); after an error nothing more is handled (C66_error_ends). Refuted for received buffers that end inside of a message (C66_refuted_split). Exactly, for all bytes in all buffers, all writes that fail and any number of peers (C66_exact, C66_exact_outgoing): what is sent and how the connection ends is given by Spec/Seeder.lean, on top of Spec/Framing.lean. Whatever is received, nothing but requested blocks of pieces we have is sent (C66_sent, C66_sent_outgoing). The specification determines everything (C66_unique). The theorems named partial are for polite peers or at most 63 peers (C46). Keep-alives and requests of our own are not part of the session model. For buffers that end anywhere (C66_any_partial, C66_any_outgoing_partial): the requests that can be read in one buffer on its own (Spec/Framing.lean, which describes what is read in arbitrary bytes) are answered, and nothing else is sent, also if a last buffer crashes the client or keeps it for ever."
  },
  {
   "property": "C67",
   "status": "partial",
   "theorems": [
    "Verif.Session.C67_refuted_crash",
    "Verif.Session.C67_refuted_ignored"
   ],
   "note": "Refuted for every piece message in every stream: decoding it panics. Even if it were decoded, it would be ignored."
  },
  {
   "property": "C68",
   "status": "partial",
   "theorems": [
    "Verif.Session.C68_iff_partial",
    "Verif.Session.C68_without_have_partial",
    "Verif.Session.C68_refuted_have",
    "Verif.Session.C68_refuted_gone"
   ],
   "note": "Refuted: have messages are ignored, so a peer without bitfield is never asked for anything; and nothing is unregistered when a connection ends. What holds: a peer that sends no have messages is registered for exactly what it has announced while its connection lasts (C68_without_have_partial; registrations = bitfields in general: C66_registered_partial). C68_iff_partial: the registrations are the announcements if and only if each piece of a have message is also in a bitfield."
  },
  {
   "property": "C69",
   "status": "partial",
   "theorems": [
    "Verif.Session.C69_refuted_initial",
    "Verif.Session.C69_uninterested_partial",
    "Verif.Session.C69_refuted_frozen",
    "Verif.Session.C69_refuted_choke"
   ],
   "note": "Refuted: the state has zero values instead of MakeState's as far as choking is concerned, no message changes it, Choke sends unchoke. What holds: a new connection is uninterested in both directions."
  },
  {
   "property": "C70",
   "status": "partial",
   "theorems": [
    "Verif.Torrent.C70_saves_iff",
    "Verif.Torrent.C70_roundtrip",
    "Verif.Torrent.C70_created_iff_partial",
    "Verif.Torrent.C70_refuted_renamed"
   ],
   "note": "C70_saves_iff says exactly which metadata can be written. Refuted part: a torrent of one file whose path differs from the torrent's name is looked for under the name (C70_refuted_renamed); C70_created_iff_partial says that this is the only exception. The program itself has no code that writes a torrent file; the file is Encode applied to announce URL and Bencode()."
  },
  {
   "property": "C71",
   "status": "partial",
   "theorems": [
    "Verif.Startup.C71_started",
    "Verif.Startup.C71_starts",
    "Verif.Startup.C71_rejected",
    "Verif.Startup.C71_in_order",
    "Verif.Startup.C71_announced",
    "Verif.Startup.C71_refuted_left",
    "Verif.Startup.C71_left_iff"
   ],
   "note": "Refuted part: the number of missing bytes is always announced as 0. Assumes metadata with positive piece length, non-negative lengths and distinct local paths (others are accepted as well, see C24, C35; C119 says that only the distinct paths are a restriction), fewer than 2^32 pieces, and that opening an existing file does not fail spuriously (see C28). C71_left_iff: the announced number of missing bytes is right exactly if every piece that is not empty is there."
  },
  {
   "property": "C72",
   "status": "partial",
   "theorems": [
    "Verif.Startup.C72_end_to_end_partial",
    "Verif.Startup.C72_refuted_renamed",
    "Verif.Startup.C72_single",
    "Verif.Startup.C72_single_iff"
   ],
   "note": "Refuted for a single file that is not called like the torrent (C72_refuted_renamed: another file is cut and the client has no piece). C72_end_to_end_partial covers all other torrents that can be created (creation does not finish for piece lengths above 5 MiB, C30) with what C66 covers of a session. For torrents of one file C72_single and C72_single_iff are exact, whatever the file is called: the client has the pieces whose hash is that of the original, and everything just when the file with the torrent's name is the original up to bytes behind its end and zeros missing at its end."
  },
  {
   "property": "C73",
   "status": "partial",
   "theorems": [
    "Verif.Files64.C73_exact_partial",
    "Verif.Files64.C73_consistent_partial",
    "Verif.Files64.C73_refuted_overflow"
   ],
   "note": "Refuted: three files of together 2^64 bytes are accepted as a torrent of length 0 without hashes. For totals below 2^63 bytes everything agrees, with surplus hashes up to the length of the last piece modulo 2^64."
  },
  {
   "property": "C74",
   "status": "partial",
   "theorems": [
    "Verif.FileConc.C74_bytes",
    "Verif.FileConc.C74_written",
    "Verif.FileConc.C74_stable",
    "Verif.FileConc.C74_all_return",
    "Verif.FileConc.C74_results",
    "Verif.FileConc.C74_no_panic",
    "Verif.FileConc.C74_alone_read",
    "Verif.FileConc.C74_alone_write",
    "Verif.FileConc.C74_reads_iff",
    "Verif.FileConc.C74_torn",
    "Verif.FileConc.C74_parts",
    "Verif.FileConc.C74_whole_partial",
    "Verif.FileConc.C74_refuted_torn"
   ],
   "note": "Assumes what Sized says: read buffers hold the piece, accepted data has the length of the piece (otherwise see C26, C27), and distinct local paths. Refuted for the last part: locks are per file, so a read of a piece that crosses files can return half of the old and half of the new piece (C74_refuted_torn); C74_whole_partial: reads and writes of pieces inside one file are atomic; C74_alone_read and C74_alone_write: a call that is alone does exactly what the sequential model (C26, C27) says, with no assumption. C74_parts: for every piece, also of several files, the part in each file is read and written as a whole. C74_reads_iff: what a successful ReadPiece can deliver is exactly the set of these mixtures (each file from the beginning or from one of the writes), so every mixture has a schedule. C74_torn: the torn read for every piece that goes over the end of a file. While files are closed: C127."
  },
  {
   "property": "C75",
   "status": "partial",
   "theorems": [
    "Verif.Flags.C75_number",
    "Verif.Flags.C75_swarm_partial",
    "Verif.Flags.C75_info_partial",
    "Verif.Flags.C75_otherwise",
    "Verif.Flags.C75_refuted_wd",
    "Verif.Flags.C75_refuted_port",
    "Verif.Flags.C75_refuted_octal",
    "Verif.Flags.C75_refuted_ignored"
   ],
   "note": "Exact: which command lines run which command with which values (grammar of command lines in Spec/Args, sizes as in C58); everything else ends in flag.Parse or with a panic in initOpts. Refuted: no working directory is needed, ports above 65535 are taken modulo 65536, a leading zero means octal, options behind a word are ignored. The flag package and ParseUint of Go 1.18 are part of the model."
  },
  {
   "property": "C76",
   "status": "partial",
   "theorems": [
    "Verif.Peers.C76_asked",
    "Verif.Peers.C76_served_partial",
    "Verif.Peers.C76_next_partial",
    "Verif.Peers.C76_only",
    "Verif.Peers.C76_registered",
    "Verif.Peers.C76_no_crash_partial",
    "Verif.Peers.C76_refuted_crash",
    "Verif.Peers.C76_next_exact",
    "Verif.Peers.C76_receive",
    "Verif.Peers.C76_over",
    "Verif.Peers.C76_crash"
   ],
   "note": "Interleaving of messages, tracker calls and keep-alives of arbitrarily many connections (Model/Peers). Refuted: a handshake and 13 bytes of one peer end the process for all. Holds otherwise: correct answers for every peer whose received buffers end on message boundaries (C16), exact registrations, blocks only in answer to requests of the same connection and in their order (C76_asked), nothing else sent to anybody; no crash with at most 63 peers that keep to the protocol. Blocks may contain older bytes of the buffer (C43), but only of pieces that we have. A connection whose receiving loop has ended or hangs receives and handles nothing any more (C76_over). C76_crash: the process only crashes of bytes whose decoding panics or of a message whose handling does; connecting, asking and keep-alives never crash it. C76_next_exact: what the next message of a connection leads to, whatever it is and whatever all peers did: the step of the seeder of Spec/Seeder.lean; C76_receive: the same for the next buffer."
  },
  {
   "property": "C77",
   "status": "partial",
   "theorems": [
    "Verif.Handles.C77_closeAll_iff_partial",
    "Verif.Handles.C77_moves_invisible",
    "Verif.Handles.C77_move",
    "Verif.Handles.C77_refuted_move_again",
    "Verif.Handles.C77_refuted_target_lost",
    "Verif.Handles.C77_close",
    "Verif.Handles.C77_close_ok",
    "Verif.Handles.C77_closeAll_partial",
    "Verif.Handles.C77_refuted_closeAll",
    "Verif.Handles.C77_refuted_leak",
    "Verif.Handles.C77_pieces",
    "Verif.Handles.C77_start",
    "Verif.Handles.C77_ocat",
    "Verif.Handles.C77_survives_moves"
   ],
   "note": "Refuted: a moved file cannot be moved or closed under its new name nor moved under its old one; a move onto the path of another open file detaches that file from the disk; CloseAll may close nothing once a single file is closed; OCAT for an open path leaves the first handle open for ever. Holds: moves are invisible to all other calls, closed files refuse everything, CloseAll closes everything if nothing was closed before. One call after the other; names without links. C77_closeAll_iff_partial: when closing all files succeeds, exactly."
  },
  {
   "property": "C78",
   "status": "partial",
   "theorems": [
    "Verif.Human.C78_number",
    "Verif.Human.C78_exact_partial",
    "Verif.Human.C78_refuted_rounding",
    "Verif.Human.C78_refuted_negative",
    "Verif.Human.C78_ties",
    "Verif.Human.C78_lines",
    "Verif.Human.C78_refuted_1024"
   ],
   "note": "Refuted above 2^53 bytes (2^60-1 is shown as 1 EiB), for negative sizes (always B), and for the rounded line (1048575 is shown as 1024.00 KiB). Holds: never a panic or overflow, number off by at most one part in 2^53, exact up to 2^53. Floating point is modelled by its only rounding step; formatting of %v numbers is not modelled."
  },
  {
   "property": "C79",
   "status": "partial",
   "theorems": [
    "Verif.Dial.C79_ipv4",
    "Verif.Dial.C79_contacted",
    "Verif.Dial.C79_dialable_iff",
    "Verif.Dial.C79_refuted_ipv6",
    "Verif.Dial.C79_refuted_nil",
    "Verif.Dial.C79_compact_partial",
    "Verif.Dial.C79_dotted_injective",
    "Verif.Dial.C79_with_brackets"
   ],
   "note": "Exact: the address of a peer can be taken apart iff it is an IPv4 address (as 4 bytes or as IPv4-mapped 16 bytes); refuted for IPv6, which is written without brackets, so net.Dial always fails, and for texts that are no address, where the host <nil> is looked up. Assumed of the text of IPv6 addresses: it contains a colon and no brackets; C120_dial proves this for the text that net.IP.String makes. net.SplitHostPort is part of the model; resolving and connecting are the parameter reach."
  },
  {
   "property": "C80",
   "status": "partial",
   "theorems": [
    "Verif.Listener.C80_complete_partial",
    "Verif.Listener.C80_refuted_leak",
    "Verif.Listener.C80_refuted_limit",
    "Verif.Listener.C80_refuted_over",
    "Verif.Listener.C80_refuted_one_by_one",
    "Verif.Listener.C80_refuted_lost",
    "Verif.Listener.C80_refuted_memory",
    "Verif.Listener.C80_given_back_partial"
   ],
   "note": "Refuted: no connection with a good handshake is ever closed, and its handler stays reachable in phs, so after as many peers as there are descriptors Accept fails and the process panics, even if every peer leaves before the next one comes; appends of two goroutines at the same time lose a handler (C80_refuted_lost) or write beyond the end of an array (C80_refuted_memory). Holds if no two appends overlap: the list is exact. The append is modelled by the memory accesses that the compiler emits."
  },
  {
   "property": "C81",
   "status": "partial",
   "theorems": [
    "Verif.RateRead.C81_buffers_partial",
    "Verif.RateRead.C81_total_partial",
    "Verif.RateRead.C81_refuted_window",
    "Verif.RateRead.C81_refuted_total",
    "Verif.RateRead.C81_refuted_stop",
    "Verif.RateRead.C81_stop",
    "Verif.RateRead.C81_refuted_stopped"
   ],
   "note": "Refuted: buffers are counted, not bytes: any number of bytes can be read between two ticks, because a read that was admitted may happen much later; a read that gives nothing counts as a whole buffer; after Stop nothing resets the budget, so that readers wait for ever with the lock, and a second Stop waits for ever. Holds: the buffers admitted between two ticks are bounded, the total is exact if all buffers are filled, Stop returns exactly if somebody is in Run. By a simulation of the read half by the write half (C53, C54)."
  },
  {
   "property": "C82",
   "status": "partial",
   "theorems": [
    "Verif.Show.C82_info_partial",
    "Verif.Show.C82_unambiguous",
    "Verif.Show.C82_distinct_partial",
    "Verif.Show.C82_refuted_forged",
    "Verif.Show.C82_state_partial",
    "Verif.Show.C82_response_partial",
    "Verif.Show.C82_peers",
    "Verif.Show.C82_client_partial",
    "Verif.Show.C82_command_partial"
   ],
   "note": "Refuted: names, announce URL and paths are printed as they are, so two torrents with different info-hashes can have the same output (C82_refuted_forged, for every way to print numbers). Holds if each of them is on one line: every fact can be read from the output, and the output is unambiguous. The text of a float64 (%v) is a parameter; assumed of it: no line break and no colon. C82_response_partial: the same for the text of a tracker's answer."
  },
  {
   "property": "C83",
   "status": "partial",
   "theorems": [
    "Verif.Peers.C83_refuted_no_request",
    "Verif.Peers.C83_chosen_partial",
    "Verif.Peers.C83_refuted_hangs",
    "Verif.Peers.C83_refuted_silent",
    "Verif.Peers.C83_refuted_forever",
    "Verif.Peers.C83_refuted_transfer"
   ],
   "note": "The choice is right: in every state of every execution the tracker gives a connection a piece precisely if one is missing here and announced (in a bitfield) under the text of the peer, and it is one announced by the fewest (C83_chosen_partial). Everything after the choice is refuted, for every execution: no request is ever sent (C83_refuted_no_request); as soon as a piece is chosen the connection's requestLoop does not end (C83_refuted_hangs, C83_refuted_forever, and C52_refuted_memory for the memory it needs); of two such clients neither sends a block to the other (C83_refuted_transfer), which uses the new C76_asked: blocks are only sent in answer to requests received on the same connection. For a piece whose length is 0 modulo 2^32 (more hashes than pieces) making the requests ends, but there are none, and the piece counts as asked for (C83_refuted_silent)."
  },
  {
   "property": "C84",
   "status": "partial",
   "theorems": [
    "Verif.Stack.C84_refuted",
    "Verif.Stack.C84_same_partial",
    "Verif.Stack.C84_small_partial",
    "Verif.Stack.C84_exact_partial",
    "Verif.Stack.C84_refuted_torrent",
    "Verif.Stack.C84_refuted_response"
   ],
   "note": "Refuted: for every size of the stack there is a well-formed document with two bytes per call that exhausts it (C84_refuted; in Go a fatal error that recover does not catch, at 1 GB of stack), and every torrent file and every response can be changed into one that means the same and does so (C84_refuted_torrent, C84_refuted_response). What holds: whenever the stack suffices the result is that of the decoder without a limit (C84_same_partial); it suffices for arbitrary bytes with at most as many opening bytes as calls fit (C84_small_partial), and for canonical documents exactly if their nesting fits (C84_exact_partial)."
  },
  {
   "property": "C85",
   "status": "partial",
   "theorems": [
    "Verif.Torrent.C85_same_iff_partial",
    "Verif.Torrent.C85_distinct_partial",
    "Verif.Torrent.C85_refuted_accepted",
    "Verif.Torrent.C85_refuted_complete",
    "Verif.Torrent.C85_refuted_overwritten"
   ],
   "note": "Refuted: with any lengths, names and hashes (if there are enough) a torrent is accepted with the same path for all its files (C85_refuted_accepted). Such a torrent with two files of the same length and different contents is never complete, whatever is on disk (C85_refuted_complete), although all of its pieces are written with success (C85_refuted_overwritten). What holds, exactly: files whose paths stay below the torrent's directory get the same local path precisely if their paths lead to the same place, and if they do not, they are at different places for every current directory (C85_same_iff_partial, C85_distinct_partial; this gives the hypothesis 'distinct' of C71 and C72). That a file cannot be inside of another file is a fact of the file system that is not modelled."
  },
  {
   "property": "C86",
   "status": "proved",
   "theorems": [
    "Verif.Startup.C86_restart"
   ],
   "note": "Proved for a crash of the process (what a write has returned is in the file afterwards; loss of the operating system's cache is not modelled). WritePiece has no caller in the program as it is (C83); the theorem is about the code that is there for the purpose."
  },
  {
   "property": "C87",
   "status": "partial",
   "theorems": [
    "Verif.Idle.C87_kept_partial",
    "Verif.Idle.C87_between_partial",
    "Verif.Idle.C87_exact_partial",
    "Verif.Idle.C87_refuted_two_minutes",
    "Verif.Idle.C87_noticed_partial",
    "Verif.Idle.C87_sent_partial",
    "Verif.Idle.C87_harmless_partial"
   ],
   "note": "Refuted: the timeout is two minutes, so that a peer with a message every two minutes is dropped even without any delay (C87_refuted_two_minutes). What holds, exactly: reads never time out if the peer's period and all delays are together shorter than the timeout (C87_kept_partial, C87_exact_partial); hence between two clients of this kind if the delays are below a minute (C87_between_partial). Keep-alive messages in pieces of any length are received without effect (C87_harmless_partial), the client sends them every minute (C87_sent_partial), and a read without data ends by its deadline (C87_noticed_partial; that the end of a read does not tear the connection down is C57). Bounded delays and a connection without failures are assumptions of the model."
  },
  {
   "property": "C88",
   "status": "partial",
   "theorems": [
    "Verif.DirFS.C88_storable_iff_partial",
    "Verif.DirFS.C88_torrent_partial",
    "Verif.DirFS.C88_refuted"
   ],
   "note": "Refuted: a torrent with the files a and a/b (any names, lengths, hashes) is accepted and can be prepared on no disk, so that the client never starts (C88_refuted). What holds, exactly: preparing succeeds, the operating system permitting, precisely if nothing is in the way (C88_storable_iff_partial); for a torrent whose paths stay in its directory and an empty place on the disk this means that no file of the torrent is inside of another (C88_torrent_partial). Directories are those of Model/DirFS.lean (no symbolic links); its executions are executions of Model/FS.lean, so that C28, C29 and C71 hold for them."
  },
  {
   "property": "C89",
   "status": "partial",
   "theorems": [
    "Verif.HeadRace.C89_head_harmless_partial",
    "Verif.Races.C89_race_free_partial",
    "Verif.Races.C89_room_partial",
    "Verif.Races.C89_refuted_list",
    "Verif.Races.C89_refuted_head",
    "Verif.Races.C89_refuted_count",
    "Verif.Races.C89_refuted_wait",
    "Verif.Races.C89_exact_partial",
    "Verif.Races.C89_every_line"
   ],
   "note": "Refuted: exactly three locations have data races (C89_exact_partial): the listener's list of handlers (what follows is C80), the head of the bitfield message, which Encode writes into the bitfield that all connections share, and the rate limiter's count of written bytes, which Run sets by an assignment and Write reads in a loop without synchronisation. What holds: everything else is race free for any number of connections (C89_race_free_partial), mutexes are unlocked only when locked and the sends to the read loop's buffered channels never wait (C89_room_partial), and the race on the head of the bitfield message is harmless: what is sent is always the right message (C89_head_harmless_partial). The control flow of the goroutines is a graph (Model/Races.lean) with all decisions left open; connections, files, log and WaitGroup are taken as synchronised by themselves."
  },
  {
   "property": "C90",
   "status": "proved",
   "theorems": [
    "Verif.RateLimit.C90_used_fully",
    "Verif.RateLimit.C90_settles",
    "Verif.RateLimit.C90_drained",
    "Verif.RateLimit.C90_written",
    "Verif.RateLimit.C90_throughput"
   ],
   "note": "The counterpart of C53, for positive limits that are not changed meanwhile (for limit 0 and changed limits see C54). That goroutines are faster than the ticker (a tick once a second) is part of the definition of Drain; new calls during the drain are excluded since nothing is assumed about the fairness of the mutex."
  },
  {
   "property": "C91",
   "status": "partial",
   "theorems": [
    "Verif.Memory.C91_value",
    "Verif.Memory.C91_messages",
    "Verif.Memory.C91_peers",
    "Verif.Memory.C91_torrent",
    "Verif.Memory.C91_refuted_paths",
    "Verif.Memory.C91_buffer_partial",
    "Verif.Memory.C91_handlers_iff_partial",
    "Verif.Memory.C91_refuted_buffer"
   ],
   "note": "Refuted twice: every peer's handler and the check of the files allocate a buffer of the torrent's piece length, which nothing bounds by the size of the files, so a torrent file of 150 bytes ends the process for any amount of memory (C91_refuted_buffer); and the path of every file contains the torrent's name, so F files take F times the name (C91_refuted_paths: a file of one megabyte, paths of one gigabyte). What holds: decoded values, messages, peers and all other metadata are linear in what was received (C91_value, C91_messages, C91_peers, C91_torrent), and the buffers are the only further need, exactly (C91_buffer_partial, C91_handlers_iff_partial). Counted are bytes of text, numbers, lists, entries and files, not the constant overhead of Go's data structures; for DecodeAll only calls that return (C14)."
  },
  {
   "property": "C92",
   "status": "partial",
   "theorems": [
    "Verif.Races.C92_released",
    "Verif.Races.C92_one_holder",
    "Verif.Races.C92_waiting",
    "Verif.RateLimit.C92_refuted_zero",
    "Verif.RateLimit.C92_write_partial",
    "Verif.RateLimit.C92_write_iff_partial"
   ],
   "note": "Refuted with a write limit of 0 (-u 0): the first Write that locks never unlocks, and all others wait for ever (C92_refuted_zero, in the model of the rate limiter). With a positive limit a Write that waits gets the mutex after a tick and steps of the holder alone (C92_write_partial; C90 for all schedules). Who may hold what is proved on the graph of Model/Races.lean, in which the choice between edges is open (the loop of Write may be left at any time there, C92_write_partial is about when it is): the holder is never waiting for a mutex or a channel, and some path of its own leads to the unlocking. RegisterBF and NextPiece run over finite lists inside of the lock (C63, C68). Waiting for channels is the subject of C57. Of the RWMutexes of the files a running client only takes the shared side (fileio.go:136; nobody calls what locks them exclusively), which never waits; they are left out. C92_write_iff_partial says exactly when a Write waiting for the mutex of the rate limiter can still get it (as long as less than 2^63 bytes are written): unless the Write that has it waits for budget with a limit that is 0 or was lifted."
  },
  {
   "property": "C93",
   "status": "partial",
   "theorems": [
    "Verif.Startup.C93_again_partial",
    "Verif.Startup.C93_restarts_partial",
    "Verif.Startup.C93_own_file",
    "Verif.Startup.C93_refuted"
   ],
   "note": "Refuted for a torrent file that bears the name of one of the files it describes, in the working directory (C93_refuted; C93_own_file says exactly when the torrent is lost). The positive part is for all other torrent files. Paths are compared as texts; that existing files can be opened is assumed in the first and later starts (otherwise see C28_refuted_open_failure); crashes during the first start are C29 and C86."
  },
  {
   "property": "C94",
   "status": "partial",
   "theorems": [
    "Verif.P2P.C94_exact_partial",
    "Verif.P2P.C94_before_partial",
    "Verif.P2P.C94_refuted_smuggled",
    "Verif.P2P.C94_refuted_swallowed",
    "Verif.P2P.C94_refuted_unknown"
   ],
   "note": "Exact for all buffers of less than 2^32 bytes: Spec/Framing.lean describes how bytes are taken apart, and C94_exact_partial says that all bytes can be and that DecodeAll does just this. The property itself is refuted in three ways, each for all arguments: a have message that is too long has its payload read as messages, one that is too short swallows bytes of the next message, and a message of unknown type takes everything received with it along. What holds: the messages before are delivered."
  },
  {
   "property": "C95",
   "status": "partial",
   "theorems": [
    "Verif.MsgHandler.C95_exact_partial",
    "Verif.MsgHandler.C95_survives_iff",
    "Verif.MsgHandler.C95_connection_partial",
    "Verif.MsgHandler.C95_refuted"
   ],
   "note": "Refuted: five bytes end the process and five others hang the connection's goroutine, in every state (C95_refuted). What holds, exactly: Spec/Framing.lean says how any bytes are taken apart and Spec/Fate.lean what becomes of client and connection for any messages (crash: a piece message, an overflowing length, a request that ends beyond the piece length, an index beyond the bitfield's bytes, a piece with 63 other peers; endless loop: an empty bitfield; end of the connection: bitfield of another size, failed write, index beyond the pieces of a complete client); C95_exact_partial and C95_survives_iff: the code does just this; C95_connection_partial: also over a whole connection. Assumes a client that has started up normally (Running) and buffers below 2^32 bytes (the code's buffers have 16384 bytes)."
  },
  {
   "property": "C96",
   "status": "partial",
   "theorems": [
    "Verif.Peers.C96_found_iff_partial",
    "Verif.Peers.C96_short_partial",
    "Verif.Peers.C96_refuted_registered",
    "Verif.Peers.C96_refuted_block",
    "Verif.Peers.C96_refuted_honest"
   ],
   "note": "Refuted: buffers have 16384 bytes and are decoded one by one. For torrents with more than 131032 pieces no bitfield is ever registered, in any execution (C96_refuted_registered), and from 131072 pieces on the bitfield of an honest peer can end the process (C96_refuted_honest). Of a message with a block of 16 KiB the last 13 bytes are obeyed as messages (C96_refuted_block). What holds, exactly: a message can be found iff it has at most 16384 bytes (C96_found_iff_partial), and such messages are all handled if the buffers consist of whole messages (C96_short_partial; for other buffers see C16)."
  },
  {
   "property": "C97",
   "status": "partial",
   "theorems": [
    "Verif.MsgHandler.C97_exact_partial",
    "Verif.MsgHandler.C97_no_crash",
    "Verif.MsgHandler.C97_refuted"
   ],
   "note": "Refuted: the hash is looked at when the client starts and never again, so any bytes put in place of a piece are sent (C97_refuted). What holds, exactly: requests are answered from what is in the files now if all bytes of the piece are there, otherwise the connection ends and nothing is sent (C97_exact_partial); no request crashes the client that would not have crashed it anyway (C97_no_crash). The change happens between two requests; for changes during a read see C128, for the client's own writes C74. Files that are removed remain readable through the open handles on the systems the client runs on and are not modelled."
  },
  {
   "property": "C98",
   "status": "partial",
   "theorems": [
    "Verif.Peers.C98_counted_partial",
    "Verif.Peers.C98_refuted_twice",
    "Verif.Peers.C98_refuted_both_ways",
    "Verif.Peers.C98_refuted_crash",
    "Verif.Peers.C98_refuted_self",
    "Verif.Peers.C98_once_partial",
    "Verif.Peers.C98_once_iff_partial"
   ],
   "note": "What is counted, exactly and in every execution: the number of different texts (id, address, port) of connections on which a bitfield with the piece was handled (C98_counted_partial), which is the number of participants if everybody keeps to one text (C98_once_partial). Refuted: a participant with two ports counts twice (C98_refuted_twice), so does an honest peer that is in the tracker's list and connects to us as well (C98_refuted_both_ways); our own id is accepted and counted (C98_refuted_self); with at most 64 connections from one address and one id, each with nothing but a correct bitfield, anybody ends the process, in every state of every execution (C98_refuted_crash). Torrents with up to 131032 pieces, for which a bitfield fits into the receive buffer (C96). C98_once_iff_partial: as long as nobody uses the text of somebody else, the availability is never below the number of participants, and equal to it exactly if each used one text only."
  },
  {
   "property": "C99",
   "status": "partial",
   "theorems": [
    "Verif.Start.C99_calls",
    "Verif.Start.C99_port",
    "Verif.Start.C99_served_partial",
    "Verif.Start.C99_reaches",
    "Verif.Start.C99_guests",
    "Verif.Start.C99_refuted_twice",
    "Verif.Start.C99_refuted_retry",
    "Verif.Start.C99_refuted_listen",
    "Verif.Start.C99_crash"
   ],
   "note": "Refuted: an entry that is in the list twice gives two connections (C99_refuted_twice, for every such list); whoever cannot be reached once is never called again (C99_refuted_retry); a port that is taken ends the process with a panic after the files were changed and the tracker told (C99_refuted_listen). What holds: every entry of the tracker's answer is called exactly once and nobody else (C99_calls), the open port is the announced one (C99_port), all entries can be connected to (C99_reaches), and every peer that keeps to the protocol is served from the files found at start-up (C99_served_partial: C71 and C76 put together, so the hypotheses of the theorems about connections are met by every started client, started_ready). Whoever sends a handshake for the torrent is greeted and gets a connection of their own, while the process lives (C99_guests). C99_crash: after start-up the process crashes of a port that cannot be opened or of what a connection has received, and of nothing else."
  },
  {
   "property": "C100",
   "status": "partial",
   "theorems": [
    "Verif.MsgText.C100_lines",
    "Verif.MsgText.C100_base",
    "Verif.MsgText.C100_tells_partial",
    "Verif.MsgText.C100_refuted_bitfield"
   ],
   "note": "Refuted for bitfields, whose text does not show the bits (C100_refuted_bitfield). What holds, exactly: the lines of the text are the kind of the message and its fields (C100_lines), and two messages have the same text iff they are the same message or both are bitfields (C100_tells_partial). The length field of a message, which follows from its content for all messages the program makes, is not part of the text. The format %v of the package fmt for numbers and byte slices is part of the model."
  },
  {
   "property": "C101",
   "status": "partial",
   "theorems": [
    "Verif.Program.C101_serves_iff_partial",
    "Verif.Program.C101_options",
    "Verif.Program.C101_served_partial",
    "Verif.Program.C101_ends",
    "Verif.Program.C101_status",
    "Verif.Program.C101_info",
    "Verif.Program.C101_harmless",
    "Verif.Program.C101_refuted_silent",
    "Verif.Program.C101_refuted_tracker",
    "Verif.Program.C101_refuted_rest",
    "Verif.Program.C101_goes_on",
    "Verif.Program.C101_refused",
    "Verif.Program.C101_usage",
    "Verif.Program.C101_refuted_url"
   ],
   "note": "Refuted: a tracker that takes the connection and never answers keeps the program from serving and from ending (C101_refuted_silent), one that says no or cannot be reached ends it (C101_refuted_tracker), in both cases however complete the files are; the main goroutine goes around an empty loop for ever (C101_refuted_rest). What holds: exactly when the program comes to serve (C101_serves_iff_partial), that what serves is what was asked for (C101_options), the peers are served from the files found at the start (C101_served_partial), how it ends (C101_ends, C101_status), what info prints (C101_info), and that no other file is changed (C101_harmless). Assumes sensible metadata as C71 (positive piece length, non-negative 64-bit sizes, different local paths). The program never gets stuck except for a silent tracker and after its end (C101_goes_on); a torrent file that cannot be loaded ends it with the disk as it was (C101_refused), a wrong command line before anything was touched (C101_usage). Refuted: announce text that is no URL ends it with a panic after the files were prepared (C101_refuted_url)."
  },
  {
   "property": "C102",
   "status": "partial",
   "theorems": [
    "Verif.Limited.C102_blocks_partial",
    "Verif.Limited.C102_zero",
    "Verif.Limited.C102_not_held_up",
    "Verif.Limited.C102_served",
    "Verif.Limited.C102_refuted_greetings",
    "Verif.Limited.C102_refuted_download",
    "Verif.Limited.C102_download_ignored",
    "Verif.Limited.C102_refuted_burst"
   ],
   "note": "Proved: with the limit r for sending, in t+1 seconds no more than (t+1)(r + one message) bytes of blocks are sent, counted over all connections together; the answers are those of C76; with any limit but 0 a request can be answered without any other peer reading anything. Refuted in four ways, each for all clients, limits and times: greetings do not go through the limiter; the download limit is never consulted (a client with any other one can do exactly the same); blocks admitted in different seconds can all be sent in the same one; with the limit 0 no block is ever sent. Model: every step of every connection and every statement of RateLimitIO.Write; one recvLoop is in at most one Write."
  },
  {
   "property": "C103",
   "status": "partial",
   "theorems": [
    "Verif.Spinner.C103_running",
    "Verif.Spinner.C103_stopped_partial",
    "Verif.Spinner.C103_refuted",
    "Verif.Spinner.C103_waits",
    "Verif.Spinner.C103_returns"
   ],
   "note": "Refuted for every message: the last line is written over the frames before it, and nothing removes the dots, so one to three dots remain behind the message (C103_refuted); C103_stopped_partial: exactly then when at least one frame was shown. What holds: what is on the screen while it runs (C103_running), that it does not stop before it is told to (C103_waits), and that it stops when it is told to, whatever happens (C103_returns). The screen is a terminal of unlimited width with one cell per character; the message has no control characters among carriage return, line feed and backspace. The program itself does not call Spinner."
  },
  {
   "property": "C104",
   "status": "partial",
   "theorems": [
    "Verif.DecodeText.C104_same",
    "Verif.DecodeText.C104_wrong",
    "Verif.DecodeText.C104_first_partial",
    "Verif.DecodeText.C104_end_partial",
    "Verif.DecodeText.C104_number",
    "Verif.DecodeText.C104_refuted_caught",
    "Verif.DecodeText.C104_refuted_first",
    "Verif.DecodeText.C104_refuted_where"
   ],
   "note": "Proved: the texts belong to exactly the errors of C05's model; the byte that is named is wrong, whatever follows (C104_wrong), and it is the first one that is, unless there is a number of 19 digits or more in front of it that does not fit (C104_first_partial); data that could go on gets one of two texts, and only that data and data that ends with such a number does (C104_end_partial); all others are about a number that is named (C104_number). Refuted, each for all inputs of a kind: data that ends inside a string gets 'caught panic' (C104_refuted_caught); a number that is too long is not what is reported (C104_refuted_first); errors about numbers do not tell where (C104_refuted_where). All capacities of the slice."
  },
  {
   "property": "C105",
   "status": "partial",
   "theorems": [
    "Verif.LoadText.C105_exact",
    "Verif.LoadText.C105_same",
    "Verif.LoadText.C105_unreadable",
    "Verif.LoadText.C105_says",
    "Verif.LoadText.C105_single",
    "Verif.LoadText.C105_path",
    "Verif.LoadText.C105_directives",
    "Verif.LoadText.C105_shown",
    "Verif.LoadText.C105_tells",
    "Verif.LoadText.C105_refuted_missing",
    "Verif.LoadText.C105_refuted_which",
    "Verif.LoadText.C105_refuted_address",
    "Verif.LoadText.C105_refuted_format"
   ],
   "note": "Proved: for sensible numbers (positive piece length, no negative lengths) exactly which text is returned: that about the first fault in a fixed order (C105_exact); for all numbers, exactly which texts there are and that each is true of the torrent file in the sense given in C105_says (a key that is needed is missing or has another type, and which; `pieces` of a wrong length; for how many bytes there are hashes, and how many there should be); a single fault is reported with its key (C105_single); the texts tell the keys apart (C105_tells); what becomes of percent signs in a path, with verbs of any character, bytes that are no characters, and indices in brackets (C105_directives). Refuted: 'missing keys' is said of keys that are there with another type (C105_refuted_missing); which file it is about is not told (C105_refuted_which); a wrong `info` is said to be in the dictionary at 0x0 (C105_refuted_address; GetDict shadows its receiver); a path with a percent sign is not shown as it is (C105_refuted_format). Files that are not a dictionary, or without `length` and `files`, are called a 'tracker error' (C105_unreadable, C105_says)."
  },
  {
   "property": "C106",
   "status": "partial",
   "theorems": [
    "Verif.TrackText.C106_same",
    "Verif.TrackText.C106_exact",
    "Verif.TrackText.C106_reason",
    "Verif.TrackText.C106_unreadable",
    "Verif.TrackText.C106_tells",
    "Verif.TrackText.C106_refuted_status",
    "Verif.TrackText.C106_refuted_reason",
    "Verif.TrackText.C106_refuted_entry",
    "Verif.TrackText.C106_refuted_forged"
   ],
   "note": "Proved: exactly what is said about a dictionary, and when it is accepted (C106_exact: the text is that of the first fault in the order reason, numbers, peers, and there is no error if there is no fault); the reason of the tracker is passed on as it is, whatever else the answer contains (C106_reason); what is not a dictionary is shown byte by byte and can be read from the text (C106_unreadable); the texts tell which key it is (C106_tells). Refuted: the status of the answer is never looked at, so an error page is reported as bad bencoding (C106_refuted_status), and an answer with a reason that is not a text is taken for a success (C106_refuted_reason); a wrong element of the list of peers is not shown, but those in front of it (C106_refuted_entry); a reason can look like another error (C106_refuted_forged)."
  },
  {
   "property": "C107",
   "status": "proved",
   "theorems": [
    "Verif.OptsText.C107_same",
    "Verif.OptsText.C107_exact",
    "Verif.OptsText.C107_numbers",
    "Verif.OptsText.C107_help",
    "Verif.OptsText.C107_usage",
    "Verif.OptsText.C107_quoted",
    "Verif.OptsText.C107_value"
   ],
   "note": "Proved as stated. C107_same: the model with the texts and the model without them (C75) agree. C107_exact: the line that is printed, exactly. C107_numbers, C107_help, C107_usage, C107_quoted, C107_value: the parts. Package flag is modelled as in Go 1.18; the quoting of texts that are not ASCII is a parameter."
  },
  {
   "property": "C108",
   "status": "partial",
   "theorems": [
    "Verif.OptsText.C108_exact",
    "Verif.OptsText.C108_validate",
    "Verif.OptsText.C108_sizes",
    "Verif.OptsText.C108_refuted_wd",
    "Verif.OptsText.C108_refuted_which",
    "Verif.OptsText.C108_refuted_shown",
    "Verif.OptsText.C108_refuted_lines"
   ],
   "note": "Proved: exactly when Validate refuses a command line and what is said then (C108_exact; C108_sizes for sizes, including characters that are not ASCII). Refuted: a missing working directory is never reported, the text for it is unreachable (C108_refuted_wd, opts.go:64 looks at the input again); it is not said which of the two limits is wrong (C108_refuted_which); nothing of a size that does not start with a digit or a minus sign is shown, the empty string is said to be wrong (C108_refuted_shown); the command is shown as it is, so the message can have several lines and look like another message (C108_refuted_lines)."
  },
  {
   "property": "C109",
   "status": "partial",
   "theorems": [
    "Verif.Log.C109_starts_iff",
    "Verif.Log.C109_lines_partial",
    "Verif.Log.C109_safe_partial",
    "Verif.Log.C109_refuted_peer",
    "Verif.Log.C109_refuted_date",
    "Verif.Log.C109_refuted_tracker",
    "Verif.Log.C109_refuted_torrent",
    "Verif.Log.C109_refuted_fragment",
    "Verif.UrlParse.C109_refuted_fragment_parsed"
   ],
   "note": "Proved: if the ids of the peers and the fragment of the announce URL have no line ends, the log is one dated line for each call (C109_lines_partial); ids of up to 20 bytes, like those of everybody who connects, cannot make up a line that begins with a date, except for a line with nothing but `@` and an address behind the date (C109_safe_partial). The rest of the announce URL has no line ends in the log of a start that succeeds (it was parsed). The executions with a log are those without (C109_starts_iff). Refuted: whoever connects can have any line of 18 bytes written (C109_refuted_peer) and a line that begins with any date (C109_refuted_date); the tracker can have any lines written, with any dates (C109_refuted_tracker); so can the torrent file, before the program panics on its URL (C109_refuted_torrent), and also without a panic, in the fragment of a URL that works (C109_refuted_fragment; C109_refuted_fragment_parsed with url.Parse as modelled for C121). Texts of errors from the operating system and of floating point numbers are parameters without line ends."
  },
  {
   "property": "C110",
   "status": "partial",
   "theorems": [
    "Verif.Log.C110_done",
    "Verif.Log.C110_story",
    "Verif.Log.C110_true",
    "Verif.Log.C110_keepalive_partial",
    "Verif.Log.C110_start",
    "Verif.Log.C110_refuted_keepalive",
    "Verif.Log.C110_refuted_lost",
    "Verif.Log.C110_refuted_done",
    "Verif.Log.C110_refuted_killed",
    "Verif.Log.C110_buffer",
    "Verif.Log.C110_requests",
    "Verif.Log.C110_refuses"
   ],
   "note": "Proved: the order of the entries (C110_story); handshakes, bitfields, buffers and registrations (C110_true); keep-alive messages as long as none is lost, and the exact difference when one is (C110_keepalive_partial); the pieces on the disk at the start (C110_start). Refuted: 'sent keep alive' is logged for a message that could not be written (C110_refuted_keepalive); a keep-alive message that fails while reading fails is never reported, and neither is the end of pingLoop (C110_refuted_lost); behind the line that kills a connection keep-alive messages can still be written (C110_refuted_killed); the end of a connection is never reported, as nobody receives from the channel of errors (C110_refuted_done). Each of these lines can come: a buffer gives one line about its bytes and one for each bitfield (C110_buffer), requestLoop says that it ends exactly if all pieces are there (C110_requests), and who sends something else than a handshake is refused, and nothing more is said of them (C110_refuses). A connection that is reported as done was reported before as killed, and both of its goroutines as ended (C110_done)."
  },
  {
   "property": "C111",
   "status": "partial",
   "theorems": [
    "Verif.MsgErr.C111_same",
    "Verif.MsgErr.C111_exact",
    "Verif.MsgErr.C111_tells",
    "Verif.MsgErr.C111_refuted_payload",
    "Verif.MsgErr.C111_refuted_piece",
    "Verif.MsgErr.C111_refuted_ignored",
    "Verif.MsgErr.C111_bits",
    "Verif.MsgErr.C111_piece_short"
   ],
   "note": "Proved: the texts belong to the errors of Decode (C111_same); which text is returned and how many bytes are skipped, exactly, for all inputs below 4 GiB (C111_exact); the texts tell the errors apart with all their numbers (C111_tells). Refuted: what is called the payload length is five more than the payload (C111_refuted_payload); the text about a piece message says that four bytes are required whatever is required, and no error about a piece message is ever returned, as the program stops (C111_refuted_piece); nobody is told: DecodeAll drops the error, and handling the bytes succeeds (C111_refuted_ignored)."
  },
  {
   "property": "C112",
   "status": "partial",
   "theorems": [
    "Verif.MsgErr.C112_same",
    "Verif.MsgErr.C112_exact",
    "Verif.MsgErr.C112_not_negative",
    "Verif.MsgErr.C112_refuted_which",
    "Verif.MsgErr.C112_refuted_beyond",
    "Verif.MsgErr.C112_refuted_eof",
    "Verif.MsgErr.C112_not_open"
   ],
   "note": "Proved: the texts belong to the errors of handleMessage (C112_same); over which messages a connection is given up and with which text, exactly, for all sequences of messages that can be decoded (C112_exact); 'negative index' is never said (C112_not_negative); with files that are not open, exactly which requests end the connection and with which path (C112_not_open). Refuted: the text is the same for all pieces that do not exist (C112_refuted_which); a client that lacks a piece ignores such a request or crashes (C112_refuted_beyond); when our own file is too short, the connection is given up with 'EOF' (C112_refuted_eof). The texts of the operating system are parameters."
  },
  {
   "property": "C113",
   "status": "partial",
   "theorems": [
    "Verif.EncErr.C113_same",
    "Verif.EncErr.C113_exact",
    "Verif.EncErr.C113_order",
    "Verif.EncErr.C113_refuted_where"
   ],
   "note": "Proved: the texts belong to the errors of Encode, and the same bytes come with them (C113_same); which text is returned, exactly: that about the first fault in the order of the document (C113_exact); it does not depend on the order of maps (C113_order). Refuted: it is not said where in the value the fault is (C113_refuted_where). The text about a panic inside the encoder (encode.go:26) is not modelled: nothing there panics."
  },
  {
   "property": "C114",
   "status": "proved",
   "theorems": [
    "Verif.EncErr.C114_beginning",
    "Verif.EncErr.C114_refused",
    "Verif.EncErr.C114_no_document"
   ],
   "note": "Proved for all values: what comes with an error is a proper beginning of a document (C114_beginning), is refused by Decode for any spare capacity (C114_refused; strings shorter than 2^63 bytes), and neither is nor begins with an encoding (C114_no_document)."
  },
  {
   "property": "C115",
   "status": "partial",
   "theorems": [
    "Verif.WriteErr.C115_same",
    "Verif.WriteErr.C115_exact",
    "Verif.WriteErr.C115_not_open",
    "Verif.WriteErr.C115_refuted_part",
    "Verif.WriteErr.C115_refuted_which",
    "Verif.WriteErr.C115_piece_info"
   ],
   "note": "Proved: the texts belong to the errors of WritePiece (C115_same); with all files open, an error with its text is returned exactly if the index does not exist or the hash is wrong, and nothing has been written (C115_exact); with files that are not open, exactly if a range of the piece is in such a file, with the path of the first (C115_not_open); the error of PieceInfo has the index (C115_piece_info). Refuted: the text does not say which piece (C115_refuted_which); if a file is not open, earlier parts of the piece have been written when the error is returned (C115_refuted_part). The texts of the operating system are a parameter."
  },
  {
   "property": "C116",
   "status": "partial",
   "theorems": [
    "Verif.Props.C116_same",
    "Verif.Props.C116_exact",
    "Verif.Props.C116_every",
    "Verif.Props.C116_linear_partial",
    "Verif.Props.C116_canonical_partial",
    "Verif.Props.C116_square",
    "Verif.Props.C116_refuted_square",
    "Verif.Props.C116_refuted"
   ],
   "note": "Refuted: the digits of a length are put together with `strLen += string(...)`, and leading zeros are accepted, so there are accepted documents of n + 3 bytes for which more than n²/2 bytes are copied, and no constant is enough (C116_refuted_square, C116_refuted). Proved: the counting decoder has the results of the decoder (C116_same); the exact work for every accepted document, read off the document (C116_exact, C116_every); in proportion to the length, with the factor m + 4 if no numeral has more than m digits (C116_linear_partial); at most 23 for every byte of a canonical document (C116_canonical_partial); for arbitrary bytes at most (n + 6)·n and twice the spare capacity (C116_square). Allocation and strconv are not counted."
  },
  {
   "property": "C117",
   "status": "partial",
   "theorems": [
    "Verif.ReadWork.C117_same",
    "Verif.ReadWork.C117_per_request",
    "Verif.ReadWork.C117_message",
    "Verif.ReadWork.C117_exact",
    "Verif.ReadWork.C117_total",
    "Verif.ReadWork.C117_refuted"
   ],
   "note": "Refuted for every torrent: k requests for no bytes at all of a piece we have are answered, and the whole piece is read k times (C117_refuted). Exact: a request for a piece we have takes reading the piece, any other nothing (C117_exact), messages take the sum of this (C117_total). For arbitrary bytes, files and bitfields: only requests make the client read (C117_per_request), and for every 17 bytes received not more than the buffer of one piece (C117_message). C117_same: the handler that counts does what the handler does."
  },
  {
   "property": "C118",
   "status": "partial",
   "theorems": [
    "Verif.Rest.C118_few_partial",
    "Verif.Rest.C118_complete_partial",
    "Verif.Rest.C118_refuted",
    "Verif.Rest.C118_refuted_stop",
    "Verif.Rest.C118_iff_partial"
   ],
   "note": "Refuted: while a piece is missing requestLoop goes round without waiting for anything, from every state in which it has started, also after the connection was lost (C118_refuted); it stops only if the torrent is complete or in making requests, which does not end (C118_refuted_stop). What holds: apart from that, a connection does at most eleven things, which is the exact bound (C118_few_partial), and once the torrent is complete the loop takes at most one more step (C118_complete_partial). Exactly: what is left to do is bounded precisely if every piece is there, or requestLoop is stuck in making requests or has ended (C118_iff_partial). Messages handled and keep-alives sent are no steps of this model."
  },
  {
   "property": "C119",
   "status": "partial",
   "theorems": [
    "Verif.Startup.C119_started",
    "Verif.Startup.C119_sensible",
    "Verif.Startup.C119_piece_length",
    "Verif.Startup.C119_file_length",
    "Verif.Startup.C119_never",
    "Verif.Startup.C119_refuted_cut"
   ],
   "note": "First sentence proved for every failure of system calls (C119_started; the only exception is piece length zero without any file), and with it most of what C71, C72, C83 and others assume follows from the start-up itself (C119_sensible). Second sentence refuted: three bytes in pieces of minus five are accepted, the file is cut to three bytes, then the program panics (C119_refuted_cut). What happens with a negative piece length and with a negative file length, exactly: C119_piece_length, C119_file_length, C119_never. (Exact arithmetic, see C73.)"
  },
  {
   "property": "C120",
   "status": "partial",
   "theorems": [
    "Verif.NetIP.C120_parse",
    "Verif.NetIP.C120_nil",
    "Verif.NetIP.C120_unambiguous",
    "Verif.NetIP.C120_text",
    "Verif.NetIP.C120_roundtrip",
    "Verif.NetIP.C120_injective",
    "Verif.NetIP.C120_other",
    "Verif.NetIP.C120_dial",
    "Verif.NetIP.C120_list",
    "Verif.NetIP.C120_refuted_others"
   ],
   "note": "All but the last part proved, with `net.ParseIP` and `net.IP.String` (Go 1.18) as part of the model: exactly which texts are understood and as what (C120_parse, C120_nil, C120_unambiguous, against a grammar of RFC 4291 texts and dotted quads), exactly which text an address gets (C120_text, the rules of RFC 5952), and that it is understood again (C120_roundtrip, C120_injective). The last part is exact too: C120_list. It is refuted for IPv6 addresses and host names, which BEP 3 allows: the former are never dialled, instead of the latter the host `<nil>` is looked up (C120_refuted_others). Slices of other lengths than 0, 4 and 16 are shown with a question mark and hexadecimal digits, which no address is (C120_other)."
  },
  {
   "property": "C121",
   "status": "partial",
   "theorems": [
    "Verif.UrlParse.C121_parse",
    "Verif.UrlParse.C121_unambiguous",
    "Verif.UrlParse.C121_params",
    "Verif.UrlParse.C121_kept_partial",
    "Verif.UrlParse.C121_sent",
    "Verif.UrlParse.C121_refused",
    "Verif.UrlParse.C121_refuted_dropped"
   ],
   "note": "Proved, with `url.Parse`, `URL.Query` and the part of the HTTP client that decides where a request goes (Go 1.18) as part of the model: which texts are URLs and what they mean, exactly (C121_parse, against a grammar), and that they mean one thing (C121_unambiguous); which parameters are found in a query, exactly (C121_params); where the announcement is sent and with which path, exactly (C121_sent), and that other URLs, udp:// for example, end in an error without anything being sent (C121_refused). Refuted is the last part: parameters with a semicolon or with a percent sign that is no escape are dropped silently (C121_refuted_dropped); without these all parameters reach the tracker (C121_kept_partial). Redirections are the subject of C124. Proxies, the Host and Authorization headers, and the resolution of names are not modelled."
  },
  {
   "property": "C122",
   "status": "partial",
   "theorems": [
    "Verif.PeerWork.C122_same",
    "Verif.PeerWork.C122_same_next",
    "Verif.PeerWork.C122_apart_partial",
    "Verif.PeerWork.C122_refuted_empty_bitfield",
    "Verif.PeerWork.C122_prices",
    "Verif.PeerWork.C122_handle_partial",
    "Verif.PeerWork.C122_no_empty_bitfield_partial",
    "Verif.PeerWork.C122_register",
    "Verif.PeerWork.C122_handled",
    "Verif.PeerWork.C122_next"
   ],
   "note": "Refuted by the empty bitfield: five bytes are enough for any amount of work (C122_refuted_empty_bitfield; C14 says for exactly which buffers this happens). For all other buffers taking them apart costs at most 10 times their length (C122_apart_partial) and handling them, in any state, at most 34 times (C122_handle_partial, C122_no_empty_bitfield_partial). NextPiece looks at each piece that some peer has offered at most once, and at all of them if it finds nothing (C122_next). C122_same, C122_same_next: the functions that count do what the functions do. C122_handled is exact for complete messages that are all handled."
  },
  {
   "property": "C123",
   "status": "partial",
   "theorems": [
    "Verif.Descriptors.C123_same",
    "Verif.Descriptors.C123_kept_partial",
    "Verif.Descriptors.C123_exact_partial",
    "Verif.Descriptors.C123_iff_partial",
    "Verif.Descriptors.C123_refuted_duplicates"
   ],
   "note": "True for files with different paths: C123_kept_partial (no data is lost and other files are not touched, with any faults and crashes), C123_exact_partial (without other faults: the files in front of the first that cannot be opened are prepared and open, the others as they were, and the result is an error unless all were opened), C123_iff_partial (success iff enough descriptors and nothing forbidden). Refuted for torrents that name a file twice: C123_refuted_duplicates – the first handle becomes garbage, opening the next file fails for want of a descriptor, the collector closes the garbage, and the second attempt empties the file; start-up succeeds with zeros in place of the data. C123_same: the runs are runs of the file system model of C28. Missing from the partial theorems: torrents with repeated paths."
  },
  {
   "property": "C124",
   "status": "partial",
   "theorems": [
    "Verif.Redirect.C124_followed_partial",
    "Verif.Redirect.C124_plain",
    "Verif.Redirect.C124_refuted_segments",
    "Verif.Redirect.C124_refuted_elsewhere"
   ],
   "note": "Proved, with the redirections of the HTTP client (Go 1.18, default policy) as part of the model: at most ten requests; the first is that of C121; each other one follows from an answer to the one before with status 301, 302, 303, 307 or 308 and a location, and goes to the host and path that RFC 3986 (5.2.2-5.2.4, as rules in Spec/Redirect.lean; dots_unique says that they give one result) says; the result is the body of the last answer, and there is none exactly for the reasons listed (C124_followed_partial, against the structure Chain). Without redirections it is the result of C121 (C124_plain). Paths with empty segments are characterised exactly as well, by what Go does segment by segment (`walked` in the spec). Partial: for them the RFC's path is not proved, because Go's result is another (C124_refuted_segments). Refuted is the last part: a tracker can send the client to any other host, away from TLS, without the parameters, and the answer of that host counts (C124_refuted_elsewhere). Headers, cookies and proxies are not modelled."
  },
  {
   "property": "C125",
   "status": "partial",
   "theorems": [
    "Verif.Links.C125_only",
    "Verif.Links.C125_stable",
    "Verif.Links.C125_no_links",
    "Verif.Links.C125_inside_partial",
    "Verif.Links.C125_same_partial",
    "Verif.Links.C125_prepared_partial",
    "Verif.Links.C125_refuted_outside",
    "Verif.Links.C125_refuted_shared",
    "Verif.Links.C125_chain",
    "Verif.Links.C125_loop"
   ],
   "note": "Refuted: with a link below the working directory the files elsewhere that it leads to are cut off or extended (C125_refuted_outside), and if two of the paths lead to the same place, preparing the second destroys the first, without an error (C125_refuted_shared). Proved, with the resolution of paths of Linux (links to files and directories, relative and absolute, chains of up to 40, `..` behind links) as part of the model, for all failures and crashes: nothing is deleted, links are never changed or made, and a place that has changed is a new directory on the way to a file of the torrent or the file that its path leads to (C125_only); what a path leads to never changes (C125_stable); everything that has changed is below the working directory if there are no links below it and the names of the torrent stay there, even if the working directory is itself behind links (C125_inside_partial); if the paths lead to different places and the targets of links have `..` only in front, the execution is one of those on plain paths to which C28 and C29 apply (C125_same_partial), so that each file has the recorded length and its old contents (C125_prepared_partial); without links paths lead where C34 says (C125_no_links). A chain of n links in one directory leads to what the last of them names if n is at most 40, and otherwise nowhere (C125_chain, C125_loop)."
  },
  {
   "property": "C126",
   "status": "partial",
   "theorems": [
    "Verif.Body.C126_body_iff",
    "Verif.Body.C126_close_iff",
    "Verif.Body.C126_incomplete",
    "Verif.Body.C126_arrives",
    "Verif.Body.C126_head",
    "Verif.Body.C126_cut",
    "Verif.Body.C126_refuted_status",
    "Verif.Body.C126_no_body",
    "Verif.Body.C126_refuted_silent",
    "Verif.Body.C126_waits"
   ],
   "note": "Refuted: the client never looks at the status, an answer with status 404 or 500 is taken like any other (C126_refuted_status), and if the tracker falls silent in the middle of its answer the client waits for ever, as it has no time limit (C126_refuted_silent). Proved: an answer that arrives whole is taken as the body that was sent, whichever way it is sent and whatever follows it (C126_arrives); exactly which bytes are taken for which body (C126_body_iff, C126_close_iff); a part of a body that is sent with its length or in chunks is an error when the connection ends (C126_incomplete); in all cases, what is taken of an answer that is cut off is what would have been taken of the whole (C126_cut), as a part of a bencoded dictionary is no dictionary; unless the connection is silent there is always an end (C126_waits). The readers of `net/http` of Go 1.18 are part of the model; the head of the answer, compression and HTTP/2 are not."
  },
  {
   "property": "C127",
   "status": "proved",
   "theorems": [
    "Verif.FileClose.C127_all_return",
    "Verif.FileClose.C127_closed",
    "Verif.FileClose.C127_reads",
    "Verif.FileClose.C127_disk",
    "Verif.FileClose.C127_written",
    "Verif.FileClose.C127_results",
    "Verif.FileClose.C127_refused",
    "Verif.FileClose.C127_close_result",
    "Verif.FileClose.C127_once",
    "Verif.FileClose.C127_half_written"
   ],
   "note": "C127_half_written: the property does not say that a failed write changes nothing, and it would be false. C127_all_return (no deadlock), C127_closed (a closed file stays closed and is not changed), C127_refused (nothing succeeds through a file that was closed before), C127_reads, C127_disk and C127_written (the data, file by file), C127_results (for an existing piece only a closed file of this piece makes an error), C127_close_result and C127_once (the results of Close and CloseAll)."
  },
  {
   "property": "C128",
   "status": "proved",
   "theorems": [
    "Verif.FileEnv.C128_read",
    "Verif.FileEnv.C128_write",
    "Verif.FileEnv.C128_results",
    "Verif.FileEnv.C128_return",
    "Verif.FileEnv.C128_torn"
   ],
   "note": "C128_read and C128_write (each byte was in its place at some moment after the call began, and the moments come in the order of the bytes), C128_results (no panic; errors have a reason), C128_return (bounded number of steps, somebody can always go on, so every fair schedule ends). C128_torn: more cannot be said, for all bytes a mixture can be delivered that never was in the files. Whether others remove a file is not modelled (the client reads through its open handles)."
  },
  {
   "property": "C129",
   "status": "partial",
   "theorems": [
    "Verif.Announce.C129_requests",
    "Verif.Announce.C129_response_iff",
    "Verif.Announce.C129_panic_iff",
    "Verif.Announce.C129_waits",
    "Verif.Announce.C129_refuted_silent",
    "Verif.Announce.C129_same"
   ],
   "note": "C129_requests (at most ten, each caused by a redirection as RFC 3986 says, the first that of C121), C129_response_iff (exactly when there is a response), C129_panic_iff (exactly for announce URLs that are none, see C65), C129_waits (the only ways not to come to an end), C129_same (otherwise requests and result are those of C124 and of the model of Get in the rest of the properties). Refuted for the end: C129_refuted_silent, among others a redirection of at most 2048 bytes whose end does not come makes the client wait for ever, although it does not need it. Announce URLs that are no URLs make it panic (C129_panic_iff)."
  }
 ]
}