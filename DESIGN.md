# Formal model of smigii/gotor in Lean 4 — design

Sections: 1 layout, 2 how Go is modelled, 3 properties one by one, 4 trusted base (with the axioms of every theorem), 5 what
is modelled and what is not, function by function, 6 simplifications, 7 defects found, 8 tests of the theorems and of the model.

## 1. Layout

| directory | content |
|---|---|
| `lean/Verif/Model/` | executable model of the Go code, function by function, each definition citing file and lines of `/repo` |
| `lean/Verif/Spec/`  | small specifications written without the model's functions (wire format, bencode grammar, layout of pieces, finite maps, paths, query strings, transition systems …) |
| `lean/Verif/Lemmas/`| helper lemmas |
| `lean/Verif/Props/` | the property theorems (`Cnn_…`), each with an `example` beside it that meets its hypotheses in a concrete case |
| `lean/Verif/Tests/` | tests of the model, not proofs: the cases of the repository's own test files, evaluated while building (`#guard`) |
| `properties.jsonl`, `MANIFEST.json` | the properties in English; which theorems belong to which property |
| `seeded/LOG.jsonl` | log of the wrong programs the theorems were tested against |

Naming: `Cnn_name` proves (a clause of) property Cnn in full; `Cnn_name_partial` proves a restricted form (the restriction is in the doc
comment and in the note); `Cnn_refuted_…` proves, with a concrete witness or for all inputs of a class, that the code violates the English
statement.  A property with a refutation has status "partial" in the manifest, even if the rest is an exact
characterisation (`↔`) of when the code does what the property says, which is what we aim at.

## 2. How Go is modelled

* `byte` = `UInt8`, `string`/`[]byte` = `List UInt8` (`Bytes`).  A slice whose spare capacity can be observed (`bencode.Decode`,
  `WritePiece`: Go slice expressions are bounded by *capacity*) carries the bytes behind its end as a second list.
* `int64`/`int` arithmetic is on `Int` with Go's truncated division (`Int.tdiv`/`Int.tmod`).  Wrap-around is
  explicit wherever a property depends on it (uint32 message lengths and request offsets, unsigned accessors, limits,
  statistics, sizes on the command line); elsewhere values are unbounded and the comment says so.
* `(value, error)` returns and panics are one type `Res α = ok a | err e | panic | timeout`.  `timeout` is only
  produced by loops that take fuel; "terminates" means that from some bound on the fuel is never exhausted, "does not terminate" that
  every amount of fuel is exhausted.
* maps: association lists in arbitrary order (`range` order is unspecified in Go); pointer structures: an explicit heap.
* goroutines, channels, locks: labelled transition systems; a property quantifies over all reachable states or all
  schedules.  `Spec/Lts.lean` defines "reachable", "inevitable" (whatever the schedule, no fairness) and "stuck".
* SHA-1 is a parameter `H : Bytes → Bytes` (with `|H x| = 20` where needed).  No collision-freeness is assumed anywhere.
  `Model/Sha1.lean` has SHA-1 itself, for the tests of the model.
* file system: a map from paths to contents; programs that make system calls are trees of calls (`FS.Prog`) whose
  execution may fail or be interrupted at every call and inside of writes.
* the network: what a `Read` delivers, the body of an HTTP response and `url.Parse`, `net.ParseIP` and the text of IPv6 addresses are parameters, so theorems hold for all of them (for C120 the last two are modelled, for C121 `url.Parse`).

## 3. Properties

### C01 Bencode decode inverts encode — partial

For every value made of non-empty strings, 64-bit integers, lists and dictionaries with distinct non-empty keys, bencode.Encode succeeds and bencode.Decode of the produced bytes returns the same value (dictionaries compared as maps).

*Model:* Bencode. *Specification:* Bencode. *File:* Props/Bencode.lean.
*Proof:* Encode is shown to produce the canonical form of the sorted value (`encode_canon`, mutual induction on values), and Decode to read canonical forms back (`decode_canon`, induction on the grammar); sorting keeps the value up to map order (`same_norm`).
*Result:* The statement is false at the int64 minimum (encoded, not decodable): C01_refuted_minInt64. C01_roundtrip_iff is the exact characterisation: the round trip works iff the value contains no int64 minimum.
*Theorems:* `C01_roundtrip_partial`, `C01_roundtrip_iff`, `C01_refuted_minInt64`, `C01_encode_succeeds_iff`

### C02 Canonical documents re-encode to the same bytes — proved

For every byte string that is a canonical bencoding (keys strictly increasing, minimal integers, non-empty strings, nothing left over), Decode accepts it and Encode of the result reproduces exactly the same bytes. A torrent's info-hash therefore does not depend on the decode/encode detour.

*Model:* Bencode. *Specification:* Bencode. *File:* Props/Bencode.lean.
*Proof:* Both directions of the canonical grammar: `decode_canon` (Decode reads it) and `encode_of_canon` (Encode writes the same bytes), induction on the grammar.
*Result:* Canonical documents are described by the inductive grammar Spec.Canon.
*Theorems:* `C02_canonical_reencode`

### C03 Encoding does not depend on map order — proved

Encode yields the same result (same bytes, same success or failure) for two dictionaries holding the same key/value pairs whatever the iteration order of the underlying maps at any depth, and emits dictionary keys in strictly increasing byte order.

*Model:* Bencode. *Specification:* Bencode. *File:* Props/Bencode.lean.
*Proof:* `encode_same`: insertion sort by key gives the same list for every permutation of pairs with distinct keys, lifted through the value by mutual induction; sortedness from `encode_canon`.
*Result:* Any two values equal up to map order at any depth encode identically (bytes and error); output is canonical (strictly increasing keys).
*Theorems:* `C03_map_order_irrelevant`, `C03_keys_sorted`

### C04 Encoding is unambiguous — proved

Two values that Encode to the same bytes are the same value, and no encoding is a proper prefix of another one.

*Model:* Bencode. *Specification:* Bencode. *File:* Props/Bencode.lean.
*Proof:* Two values with the same encoding have the same canonical form (`canon_unique`: the grammar is prefix-free), hence are equal up to map order.
*Result:* Includes prefix-freeness; no restriction on integers.
*Theorems:* `C04_unambiguous`

### C05 Decode is total on arbitrary bytes — proved

For every byte slice (any length, any spare capacity) Decode finishes and returns either a value or an error; it never lets a panic escape, and every string it returns inside a dictionary or list is a contiguous part of the input.

*Model:* Bencode. *Specification:* Bencode. *File:* Props/Bencode.lean.
*Proof:* Well-founded measure: every call consumes at least one byte, so the fuel-free definition equals the fuelled one (`decodeFuel_eq`), and every branch ends in a value or an error (`decodeValue_total`). Strings are infixes of the input by induction over the successful derivation.
*Result:* Fuel 2*len+1 is always enough and more fuel changes nothing. The call stack has no limit here; with a limit see C84.
*Theorems:* `C05_decode_total`, `C05_strings_from_input`

### C06 Decode depends only on the bytes it was given — partial

The result of Decode is a function of the slice's visible bytes: memory behind the slice's length (its spare capacity) never influences the result.

*Model:* Bencode. *Specification:* Bencode, Doc, Size. *File:* Props/Bencode.lean, Props/ExactBencode.lean.
*Proof:* Only the slice expression of decodeString can reach behind the length (`decode_spare`, `decode_spare_eq`); the refutation is evaluated.
*Result:* False for a top-level string (slice expressions are bounded by capacity): C06_refuted_string. C06_iff_partial: memory behind the slice matters if and only if the slice is a string whose announced length ends behind the slice and within its capacity; otherwise the claim holds.
*Theorems:* `C06_refuted_string`, `C06_visible_bytes_only_partial`, `C06_deviation_only_for_strings`, `C06_iff_partial`

### C07 Truncated documents are rejected — partial

Every proper prefix of the encoding of a value makes Decode return an error.

*Model:* Bencode. *Specification:* Bencode, Doc, Size. *File:* Props/Bencode.lean, Props/ExactBencode.lean.
*Proof:* `canon_prefix_rejected`: no proper prefix of a canonical document is accepted (induction on the grammar); spare capacity is dealt with by C06.
*Result:* Proved for slices of exact capacity, and for any capacity when the value is not a string; refuted for re-sliced string encodings. C07_iff_partial: a re-sliced string is rejected if and only if its colon is cut off.
*Theorems:* `C07_truncation_rejected_partial`, `C07_truncation_rejected_any_capacity`, `C07_refuted_resliced_string`, `C07_iff_partial`

### C08 Decode looks at one value only — proved

If Decode succeeds on a byte string then it succeeds with the same value when arbitrary further bytes are appended.

*Model:* Bencode. *Specification:* Bencode. *File:* Props/Bencode.lean.
*Proof:* `decode_append`: the decoder never looks behind the first value (mutual induction).
*Result:* Proved for slices without spare capacity, and with spare capacity for every non-string result.
*Theorems:* `C08_suffix_ignored`, `C08_suffix_ignored_any_capacity`

### C09 Typed dictionary access is exact — partial

For every dictionary and key: GetString/GetInt/GetList/GetDict return the stored value exactly when the key is present with that type, a missing-key error exactly when the key is absent and a bad-type error otherwise; GetUint returns the stored integer; decoding a dictionary with repeated keys keeps the last one.

*Model:* Bencode. *Specification:* Bencode. *File:* Props/Bencode.lean, Props/ExactSmall.lean.
*Proof:* Case analysis on the association list (`lookup_some_iff`); the last duplicate wins by induction over the fold that builds the map.
*Result:* Exact for GetString/GetInt/GetDict/GetList and duplicates; GetUint is refuted for negative integers and characterised exactly. C09_getUint_exact_partial: GetUint returns exactly the number below 2^64 that differs from the stored integer by a multiple of 2^64.
*Theorems:* `C09_getString`, `C09_getInt`, `C09_getDict`, `C09_getList`, `C09_getUint_partial`, `C09_refuted_getUint`, `C09_last_duplicate_wins`, `C09_getUint_exact_partial`

### C10 Messages are encoded in the BEP 3 wire format — partial

For every peer message (keep-alive, choke, unchoke, interested, not-interested, have, bitfield, request, piece) Encode yields the 4-byte big-endian length, the type byte and the payload fields in order.

*Model:* Bitfield, P2P. *Specification:* Wire. *File:* Props/ExactMsgs.lean, Props/P2P.lean.
*Proof:* Computation with buffers: `putAt`/`putU32` write disjoint ranges of a buffer of the right size, compared with the wire form of the specification.
*Result:* Proved for every message kind except request (any index, block, bitfield); for requests refuted for all arguments: Encode always yields reqlen followed by type byte 6. C10_exact_partial: a message that a constructor built is encoded as specified if and only if it is not a request.
*Theorems:* `C10_exact_partial`, `C10_encode_wire_partial`, `C10_refuted_request`

### C11 Messages round-trip through the wire format — partial

For every well-formed message, Decode of its wire form followed by arbitrary further bytes returns that message and reports having read exactly the length of the wire form.

*Model:* Bitfield, P2P. *Specification:* Bits, Wire. *File:* Props/ExactMsgs.lean, Props/P2P.lean.
*Proof:* `decode_wire`: Decode applied to the wire form followed by anything, by cases on the message.
*Result:* Proved for all decodable messages with arbitrary trailing bytes (total below 2^32, as lengths are compared in uint32); piece messages always panic, the empty bitfield message is rejected with Read 0. C11_iff_partial: these two are the only exceptions.
*Theorems:* `C11_iff_partial`, `C11_roundtrip_partial`, `C11_encode_decode_partial`, `C11_refuted_piece`, `C11_piece_payload`, `C11_refuted_empty_bitfield`

### C12 A stream of complete messages decodes to that stream — partial

For every sequence of well-formed messages, DecodeAll of the concatenated wire forms returns exactly these messages in order and reports every byte as read.

*Model:* Bitfield, P2P. *Specification:* Bits, Wire. *File:* Props/ExactMsgs.lean, Props/P2P.lean.
*Proof:* Induction over the list of messages with `loop_stream` (one iteration of the loop consumes one message).
*Result:* Proved for all streams of decodable messages; refuted for streams with a piece message. C12_iff_partial: a stream comes back in full if and only if it has neither a piece message nor an empty bitfield message.
*Theorems:* `C12_iff_partial`, `C12_stream_partial`, `C12_refuted_piece`

### C13 Decoding network bytes never crashes — partial

For every byte string received from a peer, p2p.Decode returns (a message or an error) without panicking.

*Model:* Bitfield, P2P. *Specification:* Bits, Framing, Wire. *File:* Props/Framing.lean, Props/P2P.lean.
*Proof:* Every input is split into prefix and rest (`split_frame`); each slice expression is compared with the bounds the prefix guarantees.
*Result:* Exact characterisation of the panicking inputs (iff), also for whole buffers (C13_buffer_panics_iff), and two refutations.
*Theorems:* `C13_buffer_panics_iff`, `C13_panic_iff`, `C13_no_panic_partial`, `C13_refuted_length_overflow`, `C13_refuted_piece`

### C14 Decoding network bytes always finishes — partial

For every byte string received from a peer, DecodeAll finishes.

*Model:* Bitfield, P2P. *Specification:* Bits, Framing, Wire. *File:* Props/Framing.lean, Props/P2P.lean.
*Proof:* The unread suffix gets shorter in every iteration except for an empty bitfield (`loop_finishes`); for the refutation no amount of fuel suffices (induction on fuel).
*Result:* Terminates within one iteration per byte unless the bytes 0,0,0,1,5 occur; with such a frame behind any valid prefix it never terminates. C14_loops_iff is exact, in terms of how the bytes are taken apart (Spec/Framing.lean).
*Theorems:* `C14_loops_iff`, `C14_finishes_partial`, `C14_refuted_empty_bitfield`

### C15 Reported read counts are exact — proved

Whenever Decode succeeds, Read equals 4 plus the announced length, is between 4 and the input length, and the message depends only on those bytes; whenever DecodeAll returns, its Read is the total wire length of the returned messages and never exceeds the input length.

*Model:* Bitfield, P2P. *Specification:* Bits, Wire. *File:* Props/P2P.lean.
*Proof:* `decode_sound`: what Decode reports as read is the length of the wire form it recognised.
*Result:* Soundness: on success the consumed bytes are exactly the wire form of the returned message; DecodeAll's count is the total wire length and the wire forms are a subsequence of the input.
*Theorems:* `C15_decode_read_exact`, `C15_decodeAll_read_exact`

### C16 Message boundaries do not depend on TCP segmentation — partial

Decoding a byte stream chunk by chunk yields the same messages as decoding it in one piece.

*Model:* Bitfield, P2P. *Specification:* Bits, Wire. *File:* Props/ExactMsgs.lean, Props/P2P.lean.
*Proof:* Induction over chunks cut at message boundaries; for cuts inside a message both calls are computed.
*Result:* Refuted for every message and every cut strictly inside it; C16_iff_partial: the reads give the messages of the stream if and only if every read ends on a message boundary.
*Theorems:* `C16_iff_partial`, `C16_boundary_chunks_partial`, `C16_refuted_every_cut`

### C17 A bitfield is a map from index to bit — proved

After any sequence of Set and Fill calls, Get(i) returns the value most recently given to bit i (false if never set); operations on one index never change another index.

*Model:* Bitfield. *Specification:* Bits. *File:* Props/Bitfield.lean.
*Proof:* Invariant over any sequence of calls (`calls_bits`), byte/bit arithmetic in `get_nat`, `set_nat`.
*Result:* Any history of Set/Fill on new or received bitfields, including the padding of the last byte.
*Theorems:* `C17_bit_map`, `C17_bit_map_received`

### C18 The set-bit counter is exact — partial

After any sequence of operations, Nset equals the number of indices below Nbits whose bit is set, and Complete is true exactly when all of them are.

*Model:* Bitfield. *Specification:* Bits. *File:* Props/Bitfield.lean.
*Proof:* Invariant: counter = number of set bits below Nbits (`reachable_exact`), by induction over call sequences.
*Result:* Exact for all histories with Set below Nbits and SetNbits that needs the last byte; two refutations outside of that.
*Theorems:* `C18_counter_exact_partial`, `C18_refuted_padding_set`, `C18_refuted_setNbits`, `C18_setNbits`

### C19 Received bitfields are interpreted most significant bit first — partial

FromBytes accepts a buffer exactly when the number of bits fits its byte count, and then bit i is bit 7-(i mod 8) of payload byte i/8; out-of-range access panics rather than returning a value.

*Model:* Bitfield. *Specification:* Bits. *File:* Props/Bitfield.lean.
*Proof:* `fromBytes_ok_iff`/`fromBytes_spec` by bit arithmetic; out-of-range indices computed.
*Result:* Acceptance and bit order exact; out-of-range is decided by allocated bytes (exact iff), padding bits are readable (refuted).
*Theorems:* `C19_fromBytes_accepts_iff`, `C19_msb_first`, `C19_out_of_range_panics_partial`, `C19_refuted_padding_readable`

### C20 Bitfield exchange is lossless — partial

If one client encodes its own bitfield as a message and another client of the same torrent decodes and registers it, the receiver sees the same bit for every piece and the same count.

*Model:* Bitfield, DS, FS, FileIO, Files, MsgHandler, P2P, PieceTracker. *Specification:* Avail, Bits, Wire. *File:* Props/ExactFiles.lean, Props/MsgHandler.lean, Props/SendBitfield.lean.
*Proof:* Composition of C10 (bytes sent), C12 (decoding) and the handler's SetNbits (`bitfield_right_size`); the sender's bitfield by evaluating the masked last byte (`C20_sender`).
*Result:* Encode, DecodeAll and handleBitfield composed, for every reachable bitfield with at least one piece, as long as no piece gets a 64th peer. Refuted for torrents without pieces: the receiver loops for ever. C20_sender: encoding leaves the sender's own bits and counts as they were. C20_iff_partial: apart from that, torrents without pieces are the only exception.
*Theorems:* `C20_iff_partial`, `C20_exchange_partial`, `C20_refuted_no_pieces`, `C20_sender`

### C21 File positions in the piece space are right — proved

For every list of file lengths and every piece length, the start piece/offset and inclusive end piece/offset computed for each file are those of its first and last byte in the concatenation of all files.

*Model:* Files. *Specification:* Layout. *File:* Props/Layout.lean.
*Proof:* The loop of MakeFileList equals the recursive specification of positions (`makeFileList_eq`).
*Result:* MakeFileList is total for these inputs; entries in order, exact start and end positions, and the convention for empty files.
*Theorems:* `C21_positions`, `C21_empty_files`

### C22 Looking up the files of a piece is exact — proved

GetFiles(p) returns, in order, exactly the files that own at least one byte of piece p (and possibly empty files located there), for every piece index including out-of-range ones.

*Model:* Files. *Specification:* Layout. *File:* Props/Layout.lean.
*Proof:* Loop invariant with early exit (`getFilesLoop_inv`); the files hit by an index are contiguous because positions are monotone (`hit_convex`).
*Result:* Any piece index in Z. Empty files are listed exactly if the piece length exceeds 1 and they start in that piece.
*Theorems:* `C22_get_files`

### C23 The piece map partitions the torrent — proved

For consistent metadata, concatenating the byte ranges that PieceLookup(i) returns, in order, gives exactly bytes [i*pieceLen, min((i+1)*pieceLen, length)) of the concatenated files: no byte is missing, doubled or misplaced.

*Model:* Files. *Specification:* Layout. *File:* Props/Layout.lean.
*Proof:* The double loop of MakePieceMap covers [0, total) consecutively (`consec_fetch`), which determines every byte's place.
*Result:* (Exact arithmetic, see C73.) Holds whenever NewTorInfo accepts (non-negative lengths, positive piece length); quantified over all file contents; ranges stay inside their files; other indices are errors.
*Theorems:* `C23_piece_map`, `C23_out_of_range`, `C23_in_order`

### C24 Only consistent metadata is accepted — partial

NewTorInfo succeeds only if the number of piece hashes equals the number of pieces needed for the total length, and all file lengths are non-negative; otherwise it returns an error.

*Model:* Files. *Specification:* Layout, Numbers. *File:* Props/Layout.lean, Props/Numbers.lean.
*Proof:* Number of pieces produced by the loop compared with the number of hashes (`needed_le_iff`), both for success and for the index-out-of-range panic. C24_single and C24_single_panic, for all numbers: the loop of `MakePieceMap` over one file is computed for each combination of signs (`pieceMapInner_back` is the induction over pieces of negative length).
*Result:* (Exact arithmetic; C73 says for which lengths int64 makes no difference.) Refuted: extra hashes and negative lengths can be accepted, too few hashes or piece length 0 can panic. Exact iff for acceptance and for panics under non-negative lengths and positive piece length; for a single file an exact iff for all numbers, negative ones too (C24_single, C24_single_panic).
*Theorems:* `C24_accept_iff_partial`, `C24_panic_iff_partial`, `C24_refuted_extra_hash`, `C24_refuted_negative_length`, `C24_refuted_panics`, `C24_fields`, `C24_single`, `C24_single_panic`

### C25 Last piece length is right — proved

For consistent metadata LastPieceLen is between 1 and the piece length and full pieces plus the last piece add up to the total length.

*Model:* Files. *Specification:* Layout. *File:* Props/Layout.lean.
*Proof:* Arithmetic on the last piece from `needed_eq_iff`; hashes by slicing.
*Result:* (Exact arithmetic, see C73.) Includes the empty torrent (0 pieces); also the exact value of PieceHash.
*Theorems:* `C25_last_piece`, `C25_count`, `C25_piece_hash`

### C26 Written pieces are read back, other pieces are untouched — proved

After files are prepared, WritePiece(i, d) with d of the piece's size and matching hash, followed by any reads: ReadPiece(i) returns d, and every other piece reads as before. Over any history of accepted writes the store behaves like an array of pieces.

*Model:* FS, FileIO, Files. *Specification:* Layout. *File:* Props/FileIO.lean.
*Proof:* `readLoop_eq`/`writeLoop_eq`: the loops equal reading and splicing the concatenation of the files; then list algebra of splices. Array behaviour by induction over the writes.
*Result:* For every accepted torrent with distinct local paths, after OCATAll (C26_prepared): reads are exact, a write of piece-sized data with the recorded hash changes only that piece, and any history of writes refines an array of pieces. Concurrent calls are modelled one after the other.
*Theorems:* `C26_read`, `C26_write`, `C26_array`, `C26_prepared`

### C27 Data with a wrong hash never reaches disk — proved

WritePiece with data whose SHA-1 differs from the recorded piece hash returns an error and leaves every file unchanged; same for an out-of-range index.

*Model:* FS, FileIO, Files. *Specification:* Layout. *File:* Props/FileIO.lean.
*Proof:* Case analysis of WritePiece (hash test before the first write) and induction over the loop for the frame property.
*Result:* All constructible torrents (no assumption on lengths or paths); the whole file system is unchanged. Also: no call, successful or not, changes a file that is not an opened file of the torrent.
*Theorems:* `C27_no_bad_data`, `C27_only_torrent_files`

### C28 Preparing a file sets its size and keeps its data — partial

After OCAT(path, n) succeeds the file is n bytes long, its first min(n, old size) bytes are the old ones, the rest is zero, other files are unchanged, and repeating it changes nothing.

*Model:* FS. *Specification:* in the statement. *File:* Props/ExactFiles.lean, Props/FileIO.lean.
*Proof:* Big-step relation `Exec` over system calls; inversion of each call gives the end state (`ocat_end`), construction gives existence (`ocat_run`).
*Result:* Full statement for all prior states and all failures of system calls except a failing open of an existing file; with such a failure the data is lost (refuted). Negative lengths never succeed; OCAT can always succeed and never panics for n >= 0. C28_exact_partial: exactly the states a successful OCAT can leave, with and without such failures.
*Theorems:* `C28_exact_partial`, `C28_ocat_partial`, `C28_can_succeed`, `C28_idempotent`, `C28_negative`, `C28_refuted_open_failure`

### C29 Preparing a file is crash-recoverable — proved

If the process dies at any point while OCAT runs, running OCAT again ends in the same state as an undisturbed run.

*Model:* FS, FileIO, Files. *Specification:* in the statement. *File:* Props/FileIO.lean.
*Proof:* Invariant of a crashed attempt (a prefix of the kept file followed by zeros), preserved by every further attempt; induction over attempts.
*Result:* Any number of interrupted or failed attempts, crash points also inside a write; also for OCATAll over all files of a torrent. Runs in which opening an existing file fails are excluded (see C28).
*Theorems:* `C29_crash_recovery`, `C29_crash_recovery_all`

### C30 Created torrents carry the right piece hashes — partial

CreateTorInfo over readable files yields, for every piece length, the concatenated SHA-1 hashes of the consecutive pieces of the concatenated file contents, however the operating system splits the reads.

*Model:* Create, FS, Files, Path, Utils. *Specification:* Layout. *File:* Props/Create.lean, Props/ExactFiles.lean.
*Proof:* Loop invariant over reads and files: the hashes so far are those of the complete pieces of the bytes so far and the buffer holds the rest (`fileLoop_spec`). Large pieces: induction on fuel.
*Result:* Proved for all contents, all ways of splitting the reads and piece lengths 1 to 5 MiB; refuted above 5 MiB (the read buffer gets size 0) and for piece length 0. C30_iff_partial: success, and success with the right hashes, exactly for piece lengths from 1 to 5 MiB.
*Theorems:* `C30_succeeds_partial`, `C30_only_right_hashes_partial`, `C30_refuted_large_pieces`, `C30_refuted_zero`, `C30_iff_partial`

### C31 A created torrent validates against its own files — proved

Start-up validation of a torrent created from files marks every piece as present and the bitfield complete; in general bit i is set exactly if the bytes on disk of piece i hash to the recorded hash.

*Model:* Bitfield, Create, FS, FileIO, Files, Path, Swarm, Utils. *Specification:* Bits, Layout. *File:* Props/Create.lean.
*Proof:* Induction over the pieces (`validateLoop_spec`) with C26 for the data read and C17 for the bits.
*Result:* Any contents and prior bitfield; created torrents validate completely after start-up, and validation sets exactly the pieces whose bytes match.
*Theorems:* `C31_validate`, `C31_startup`, `C31_created`, `C31_created_startup`

### C32 The info-hash is the hash of the info dictionary in the file — partial

For a torrent file, the info-hash equals SHA-1 of the bytes of the info dictionary's value as they appear in the file.

*Model:* Bencode, Files, Path, Torrent. *Specification:* Bencode, Doc, Size. *File:* Props/Torrent.lean.
*Proof:* A dictionary's sub-document is unique (`valueBytes_unique`), and re-encoding gives it back iff it is canonical (`reencode_iff`).
*Result:* Exact: for an info value of the file below 2^63 bytes the info-hash is H of those bytes iff they are in canonical form (sorted keys, minimal numbers, nothing unencodable). Refuted for files with unsorted keys, and two different torrents get the same info-hash for every hash function.
*Theorems:* `C32_iff_canonical_partial`, `C32_canonical_partial`, `C32_refuted_noncanonical`, `C32_refuted_collision`

### C33 Info dictionary survives a load/save cycle — partial

For an info dictionary with exactly the keys this client writes, loading it with FromDict and converting back with Bencode gives the same dictionary, so NewTorrent and FromTorrentFile agree on the info-hash.

*Model:* Bencode, Files, Path, Torrent. *Specification:* Bencode, Doc, Info, Size. *File:* Props/Info.lean, Props/InfoExact.lean.
*Proof:* Both directions computed field by field over maps up to order; path components by `split_join`; exactness because `Bencode` itself only produces the two forms, info-hash by C03/C04.
*Result:* Holds for single files and for several files with non-empty components without slashes and private=0. Refuted for one file in a list, for private=1, for components with a slash, and for every dictionary without the optional key private or with any further key. C33_exact and C33_infohash_exact: exactly which dictionaries (and info-hashes) survive.
*Theorems:* `C33_single`, `C33_multi_partial`, `C33_same_infohash_partial`, `C33_refuted_one_file`, `C33_refuted_private`, `C33_refuted_slash`, `C33_exact`, `C33_infohash_exact`, `C33_refuted_keys`

### C34 Torrent files stay inside the working directory — partial

Every local path derived from a torrent lies below the working directory.

*Model:* Bencode, Files, Path, Torrent. *Specification:* Dirs, Info. *File:* Props/ExactFiles.lean, Props/Paths.lean.
*Proof:* filepath.Join resolved as a walk in a tree (`resolve_join`, `walk_append`).
*Result:* Exact location of every local path (walk of path components); inside if no component is '..' after walking; refuted for '..' and for an empty working directory. C34_iff_partial: for the current directory as working directory a file is inside wherever the program is started if and only if its path never leads above its beginning.
*Theorems:* `C34_iff_partial`, `C34_location`, `C34_inside_partial`, `C34_no_dotdot_partial`, `C34_refuted_dotdot`, `C34_refuted_empty_wd`

### C35 Loading hostile torrent metadata never crashes — partial

FromTorrentFile returns a torrent or an error, without panicking, for every file content.

*Model:* Bencode, Files, Path, Torrent. *Specification:* Bencode, Info, Layout, Numbers. *File:* Props/Hostile.lean, Props/Numbers.lean.
*Proof:* Case analysis over all stages of loading (`fromTorrentFile_cases`) combined with C24.
*Result:* (Exact arithmetic, see C73.) Termination for all inputs; exact iff for panics under positive piece length and non-negative lengths; for torrents of a single file exact for all numbers (C35_single); refuted by three concrete files (empty path list, too few hashes, piece length 0).
*Theorems:* `C35_terminates`, `C35_panic_iff_partial`, `C35_no_panic_partial`, `C35_refuted_empty_path`, `C35_refuted_too_few_hashes`, `C35_refuted_zero_piece_length`, `C35_single`

### C36 Compact peer lists are decoded exactly — proved

A compact peer string is accepted exactly when its length is a multiple of 6, and then peer k has the four address bytes and big-endian port at offset 6k; encoding peers compactly and decoding gives them back.

*Model:* Bencode, Peer, Tracker. *Specification:* Bencode, Query. *File:* Props/Tracker.lean.
*Proof:* Induction over groups of six bytes (`compactLoop_cases`).
*Result:* Any byte string; offsets, address text and round trip for every list of addresses and ports.
*Theorems:* `C36_accept_iff`, `C36_peers`, `C36_roundtrip`

### C37 Tracker responses are accepted or rejected for stated reasons — partial

A response carrying a failure reason is always rejected; otherwise it is accepted exactly when interval, complete and incomplete are integers and peers is a valid compact or dictionary peer list; the accepted state reports those numbers; processing never panics.

*Model:* Bencode, Peer, Tracker. *Specification:* Bencode, Info. *File:* Props/Tracker.lean.
*Proof:* Case analysis of each access in the order of the code, with C05 for totality.
*Result:* Acceptance exact (iff) for every dictionary, no panics for any bytes sent. The reported numbers are exact when not negative and ports when below 65536; refuted otherwise (wrap-around).
*Theorems:* `C37_failure`, `C37_accept_iff`, `C37_state_partial`, `C37_peers_partial`, `C37_no_panic`, `C37_refuted_negative`, `C37_refuted_port`

### C38 The tracker can recover the announced parameters — partial

Percent-decoding the announce query string gives back exactly the 20 raw info-hash bytes, peer id, port and counters.

*Model:* Bencode, Peer, Torrent, Tracker, Url, Utils. *Specification:* Bencode, Query. *File:* Props/Tracker.lean.
*Proof:* Query parsing of the specification applied to the produced text; QueryEscape is the identity exactly on unreserved bytes (`escape_eq_iff`).
*Result:* Query string read back with an independent decoder; other parameters of the announce URL are kept. Peer ids arrive exactly if all bytes are unreserved (iff; true of all ids this client generates), otherwise they are escaped twice; also refuted when the announce URL has a parameter of the same name.
*Theorems:* `C38_recovered_partial`, `C38_peer_id_iff_partial`, `C38_sent_partial`, `C38_numbers`, `C38_own_ids`, `C38_refuted_peer_id`, `C38_refuted_clash`

### C39 Transfer statistics add up — proved

After any sequence of updates, uploaded and downloaded are the sums of the increments (modulo 2^64) and left is the initial amount minus the sum of decrements, never going below zero.

*Model:* Tracker. *Specification:* Query. *File:* Props/Tracker.lean.
*Proof:* Induction over the history of updates (each under the mutex, hence atomic), arithmetic modulo 2^64.
*Result:* Any history; 64-bit wrap-around of the sums, left saturates at zero.
*Theorems:* `C39_sums`

### C40 Handshakes are valid exactly when they should be — proved

ValidHandshake accepts exactly the 68-byte strings with the protocol header and the given info-hash at their positions; MakeHandshake output is accepted for the same 20-byte info-hash, rejected for any other, and yields the peer id back.

*Model:* Handshake, P2P. *Specification:* Handshake. *File:* Props/Handshake.lean.
*Proof:* Arithmetic of slices of a 68-byte buffer, both directions.
*Result:* All byte strings and all info-hashes and ids; exact (iff) against an independent definition of the handshake.
*Theorems:* `C40_valid_iff`, `C40_any_length`, `C40_made`

### C41 Incoming peers are accepted only after a full handshake — partial

FromIncoming registers a peer only if the peer has sent 68 handshake bytes with our info-hash, and the recorded peer id is the one it sent.

*Model:* Bencode, Bitfield, Handshake, P2P, Peer. *Specification:* Handshake, Wire. *File:* Props/Handshake.lean.
*Proof:* Computation of the single read into a 68-byte zeroed buffer, then C40.
*Result:* Acceptance exact (iff) in terms of the bytes the single Read delivers, padded with zero bytes; refuted: a valid handshake that arrives in two segments is rejected, and some incomplete ones are accepted.
*Theorems:* `C41_accept_iff_partial`, `C41_full_read_partial`, `C41_answer`, `C41_refuted_short`, `C41_refuted_incomplete`, `C41_short_first_segment`

### C42 Outgoing connections are bound to the right torrent — partial

On a connection this client opens, messages are processed only after the remote side has answered with a handshake carrying our info-hash, and nothing that follows that handshake is lost.

*Model:* Bitfield, DS, FS, FileIO, Files, Handshake, MsgHandler, P2P, Peer, PieceTracker. *Specification:* Bits, Handshake, Layout, Wire. *File:* Props/HandshakeCut.lean, Props/MsgHandler.lean.
*Proof:* Case analysis of the first buffer received.
*Result:* Refuted: the answer is never checked, and everything behind the remote handshake in the same buffer is dropped, for all contents. What remains: a handshake alone in its buffer is ignored without consequences, and we send exactly our handshake. Which bytes are lost is exact (C42_first_buffer): the first buffer received is dropped, wherever it ends, and all others are taken for messages. So a handshake that is received in two parts can contain any message of at most 20 bytes (C42_refuted_inside), also ones that make the client panic or keep it busy for ever (C42_refuted_crash).
*Theorems:* `C42_first_buffer`, `C42_refuted_inside`, `C42_refuted_crash`, `C42_own_segment_partial`, `C42_sends`, `C42_refuted_lost`, `C42_refuted_no_handshake`

### C43 Served blocks are the requested torrent bytes — partial

Whenever a piece message is sent in answer to a request, its block is exactly the bytes of the torrent at index*pieceLen+begin of the requested length, and only pieces we have are served.

*Model:* Bitfield, DS, FS, FileIO, Files, MsgHandler, P2P, PieceTracker. *Specification:* Bits, Layout, Wire. *File:* Props/MsgWire.lean.
*Proof:* Computation of handleRequest with C26 for the data; the reused buffer explains the refutation.
*Result:* What is written is characterised exactly for every request and state; right for every range inside the piece, refuted for ranges past the end of the short last piece (stale buffer bytes are sent).
*Theorems:* `C43_served_exact_partial`, `C43_served_partial`, `C43_answered`, `C43_refuted_stale`

### C44 Requests from peers never crash the client — partial

For every request message a peer can send, handling it either sends a block, ignores it or reports an error, without panicking.

*Model:* Bitfield, DS, FS, FileIO, Files, MsgHandler, P2P, PieceTracker. *Specification:* Bits, Layout, Wire. *File:* Props/MsgWire.lean.
*Proof:* Every index and slice expression of handleRequest compared with its bounds.
*Result:* Panics characterised exactly (iff) for all requests; refuted for every incomplete client (index) and every client with a piece (length).
*Theorems:* `C44_panic_iff_partial`, `C44_no_panic_partial`, `C44_refuted_index`, `C44_refuted_length`

### C45 A received bitfield registers exactly the announced pieces — partial

Handling a bitfield message of the right size registers the peer for exactly the pieces whose bit is set among the torrent's pieces, replaces the peer's bitfield, and a message of the wrong size changes nothing and is an error.

*Model:* Bitfield, DS, FS, FileIO, Files, MsgHandler, P2P, PieceTracker. *Specification:* Avail, Bits, Wire. *File:* Props/ExactSmall.lean, Props/MsgWire.lean.
*Proof:* `bitfield_wrong_size`, `bitfield_right_size`: by the number of bytes needed for the torrent's pieces.
*Result:* Wrong size: nothing changes. Right size: exact effect on the peer's bitfield and the registrations of everybody, panic iff a piece gets a 64th peer; right for the first bitfield, refuted for a second one with fewer bits. C45_iff_partial: a bitfield of the right size leads to exactly the announced registrations precisely if the peer was registered for none but these and no piece has too many peers.
*Theorems:* `C45_iff_partial`, `C45_wrong_size`, `C45_right_size_partial`, `C45_first_partial`, `C45_refuted_second`

### C46 Availability tracking survives any number of peers — partial

For every history of Register, RegisterBF, Unregister and NextPiece calls (in any interleaving of goroutines, since each call holds the lock), no call panics, and each piece is filed under the number of distinct peers registered for it.

*Model:* Bitfield, DS, PieceTracker. *Specification:* Avail, Bits, Seq. *File:* Props/PieceTracker.lean.
*Proof:* Invariant between the tracker and the list of peers who announced (`performAll_spec`), induction over announcements.
*Result:* Exact (iff) for all histories of valid calls: a panic occurs iff some piece gets a 64th distinct peer; otherwise every bucket holds exactly the pieces with that many peers. Refuted for 64 peers on any torrent.
*Theorems:* `C46_panic_iff_partial`, `C46_filed`, `C46_few_peers_partial`, `C46_refuted_64_peers`

### C47 NextPiece returns a rarest needed piece of that peer — proved

NextPiece(peer) returns a piece we do not have, that this peer has, and that has the fewest registered peers among such pieces; it reports none exactly if there is no such piece.

*Model:* Bitfield, DS, PieceTracker. *Specification:* Avail, Bits. *File:* Props/PieceTracker.lean.
*Proof:* Invariant of C46, and the scan from the lowest availability upwards (`nextPiece_spec`).
*Result:* All histories, pieces, peers and contents of our bitfield (which may change between calls).
*Theorems:* `C47_rarest`

### C48 A piece is handed to one peer at a time — partial

Once NextPiece has returned index i to some peer, no NextPiece call returns i again until that peer is unregistered.

*Model:* Bitfield, DS, PieceTracker. *Specification:* Avail, Bits. *File:* Props/PieceTracker.lean.
*Proof:* Witnesses are computed; the bookkeeping of asked pieces is shown to have no effect for every sequence.
*Result:* Refuted: NextPiece marks a copy of the piece, so the same piece is handed out again after every history. What holds: the tracker notes for each peer exactly the pieces it was handed, in order, marked until the peer is unregistered (C48_noted_partial); but NextPiece never looks at these notes.
*Theorems:* `C48_refuted_again`, `C48_refuted_two_peers`, `C48_noted_partial`

### C49 Unregistering a peer removes every trace of its availability — proved

After Unregister(peer) the peer is registered for no piece, every other peer's registrations are unchanged, and NextPiece(peer) reports none.

*Model:* Bitfield, DS, PieceTracker. *Specification:* Avail, Bits, Seq. *File:* Props/PieceTracker.lean.
*Proof:* Invariant of C46 kept by Unregister (`unregister_spec`).
*Result:* All histories; Unregister itself never panics.
*Theorems:* `C49_unregister`

### C50 The linked list behaves like a sequence — proved

Any sequence of AddDataFront, AddNodeFront (of detached nodes), Remove (of member nodes) and Clear leaves a list whose forward traversal is the expected sequence, whose backward links are the reverse, and whose size is its length; removing from an empty list panics.

*Model:* DS. *Specification:* Seq. *File:* Props/DS.lean.
*Proof:* Representation relation between the heap of nodes and a list, both link directions (`isList`, `seg_forward`, `seg_backward`).
*Result:* All histories in which only detached nodes are added and only members removed.
*Theorems:* `C50_sequence`, `C50_remove_empty`

### C51 The keyed set behaves like a finite set — partial

After any sequence of Add/Remove, Has and Size agree with the mathematical set of keys, Add/Remove report whether they changed it, and Items lists exactly the members.

*Model:* DS. *Specification:* Seq. *File:* Props/DS.lean, Props/ExactFiles.lean.
*Proof:* Invariant: keys of the map are the distinct elements (`setRun_spec`); item order as a permutation.
*Result:* Membership, size and results exact for all histories; Items is refuted (it starts with zero values) and characterised exactly. C51_iff_partial: Items is right if and only if the set is empty.
*Theorems:* `C51_set`, `C51_items_partial`, `C51_refuted_items`, `C51_iff_partial`

### C52 Block requests cover a piece exactly once — partial

The request messages created for a piece are finitely many, at most 16384 bytes each, and tile [0, piece length) without gap or overlap.

*Model:* Files, MsgHandler, P2P. *Specification:* Layout. *File:* Props/ExactFiles.lean, Props/MsgHandler.lean.
*Proof:* Arithmetic modulo 2^32 of the loop counter; non-termination by induction on fuel.
*Result:* Refuted for every piece of every consistent torrent: the loop never advances the offset. Only pieces of length 0 terminate. After k rounds k messages are in memory (C52_refuted_memory). C52_iff_partial: requests are created if and only if the length of the piece is a multiple of 2^32.
*Theorems:* `C52_iff_partial`, `C52_refuted_never_ends`, `C52_refuted_all_pieces`, `C52_refuted_memory`, `C52_empty_partial`

### C53 The write rate limit is respected under concurrency — proved

With a limit r, in every schedule of concurrent Write calls and timer ticks, the bytes admitted between two consecutive ticks are less than r plus the size of one write.

*Model:* RateLimit. *Specification:* Rate. *File:* Props/RateLimit.lean.
*Proof:* Invariant of the limiter's runs: bytes admitted since the last refill never exceed the limit (`limited_run`).
*Result:* Transition system with any number of goroutines; every schedule of Write calls and ticks at a fixed limit; hypothesis: limit plus one write below 2^63.
*Theorems:* `C53_window`

### C54 Rate limits can be changed while writers wait — partial

SetWriteRate takes effect also while a Write is waiting for budget, and total counters equal the sum of admitted sizes.

*Model:* RateLimit. *Specification:* Rate. *File:* Props/RateLimit.lean.
*Proof:* Invariants for mutual exclusion and accounting (`excl_run`, `counted_run`); the starvation runs are constructed explicitly for every length.
*Result:* The totals are proved for all schedules and limits. Taking effect is refuted: never before the waiting write is admitted, and never at all with limit 0 or when the limit is lifted between a write's check and its locking. What remains: with a positive limit the new limit can be stored after the waiting write. C54_effect_iff: exactly when a waiting SetWriteRate can still store its limit.
*Theorems:* `C54_refuted_waiting`, `C54_refuted_zero`, `C54_refuted_lifted`, `C54_takes_effect_partial`, `C54_effect_iff`, `C54_total`

### C55 The read buffer is never overwritten while in use — partial

In every schedule, ReadLoop does not read into its buffer between handing it out and the consumer's Ready, and chunks are delivered in order, each exactly once.

*Model:* ReadLoop. *Specification:* ReadLoop. *File:* Props/ReadLoop.lean.
*Proof:* Invariant of the handler's transition system (`inv_run`).
*Result:* All schedules of reader and consumer, all read sizes, arbitrary buffer contents during reads. Refuted only for data that comes together with an error, which is dropped. C55_ready and C55_not_empty: when the consumer may take a chunk, and that chunks are not empty.
*Theorems:* `C55_intact`, `C55_once`, `C55_no_read`, `C55_refuted_with_error`, `C55_not_empty`, `C55_ready`

### C56 Finish stops the read loop — partial

After Finish is called the read loop terminates and Finish returns.

*Model:* ReadLoop. *Specification:* Lts, ReadLoop. *File:* Props/ReadLoop.lean.
*Proof:* The states from which the end is inevitable are characterised; the others contain a constructed stuck state.
*Result:* Exact (iff): ending is inevitable iff the reader holds a chunk not yet followed by Ready; refuted otherwise (deadlock with a silent peer), and the read loop leaks when recvLoop ends without Finish. A connection that fails or is closed lets the read loop end by itself if its last report is taken (C56_by_itself_partial).
*Theorems:* `C56_exact_partial`, `C56_refuted_deadlock`, `C56_told_partial`, `C56_by_itself_partial`, `C56_refuted_leak`

### C57 A failed peer connection is torn down — partial

When any of a peer's goroutines reports an error, all its goroutines stop and the peer loop returns.

*Model:* PeerLoop. *Specification:* Lts. *File:* Props/PeerLoop.lean, Props/PeerLoopEnds.lean.
*Proof:* Stuck and endless runs constructed step by step; inevitability by case analysis of successors.
*Result:* Refuted: Loop never returns (its report goes to a nil channel); apart from that it deadlocks with two errors, with a blocked Finish and with a request being made. What remains: with one error and nothing to request all goroutines stop. Exactly in which states the goroutines come to rest: C57_ends_iff_partial (six ways, of which only the last is the one claimed), C57_ends_seed_iff_partial for a client that has everything.
*Theorems:* `C57_refuted_never_returns`, `C57_refuted_request`, `C57_refuted_two_errors`, `C57_refuted_finish`, `C57_refuted_quiet`, `C57_refuted_wait`, `C57_wait_partial`, `C57_recv_error_partial`, `C57_ping_error_partial`, `C57_ends_iff_partial`, `C57_ends_seed_iff_partial`

### C58 Size arguments are parsed exactly — partial

A limit argument of the form [-]digits[B|K|M|G] (any case) is accepted and denotes the number times the unit; everything else is rejected.

*Model:* Bencode, Utils. *Specification:* Size. *File:* Props/Utils.lean.
*Proof:* Induction over digits with wrap-around (`sizeBody_spec`).
*Result:* Full grammar; exact result modulo 2^64 in general, exact value when the product fits in int64. Refuted: a product above 2^63 wraps silently (e.g. becomes unlimited).
*Theorems:* `C58_parse_partial`, `C58_exact_partial`, `C58_reject`, `C58_refuted_overflow`

### C59 Splitting data into segments is a partition — proved

SegmentData returns consecutive segments whose concatenation is the data, all of the requested size except a possibly shorter non-empty last one.

*Model:* Utils. *Specification:* Layout. *File:* Props/Utils.lean.
*Proof:* Loop of SegmentData equals splitting into chunks (`segLoop_spec`).
*Result:* All data and all positive sizes; zero or negative sizes characterised too.
*Theorems:* `C59_segments`, `C59_pieces`, `C59_bad_size`

### C60 Peer ids are well-formed — proved

Whatever the random source delivers, a generated peer id is the 8-byte client prefix followed by 12 ASCII letters: 20 bytes, unaffected by percent-escaping.

*Model:* Url, Utils. *Specification:* in the statement. *File:* Props/Utils.lean.
*Proof:* Induction over the random source; termination by the number of usable 6-bit groups.
*Result:* For every random source; termination exactly when the source keeps delivering usable indices.
*Theorems:* `C60_peer_id`, `C60_terminates`, `C60_source_matters`

### C61 Distinct peers are never confused — proved

Two peers are treated as the same by the availability tracker only if peer id, address and port all agree.

*Model:* Bencode, Bitfield, DS, NetIP, Peer, PieceTracker. *Specification:* Avail, Bencode, Bits, NetIP, Seq. *File:* Props/NetIP.lean, Props/Peer.lean.
*Proof:* The textual key determines address and port: separators cannot occur in the digits (`natDec_sep`).
*Result:* All ids, ports, and IPv4 addresses in both representations; also stated for the tracker's Unregister. C61_key_six: for all addresses of sixteen bytes, IPv6 included (with the text of C120).
*Theorems:* `C61_key_six`, `C61_key_injective`, `C61_others_kept`

### C62 Data of the wrong size is never stored as a piece — partial

WritePiece with data whose size differs from the size of the piece returns an error and changes no file, even if the torrent records the hash of that data.

*Model:* FS, FileIO, Files. *Specification:* Layout. *File:* Props/FileIO.lean.
*Proof:* Splicing with a shorter or longer piece computed file by file (`writeLoop_short`).
*Result:* Refuted: short data panics or stores bytes behind the slice, long data is cut silently. C62_exact_partial says what happens for every length of the data, C62_refused_iff_partial that the recorded hash is the only thing that counts.
*Theorems:* `C62_refuted_other_size`, `C62_exact_partial`, `C62_refused_iff_partial`

### C63 Removing by swapping keeps all other elements — proved

RemoveSwap(slice, i) with a valid index returns the slice without element i: one shorter, every other element exactly as often as before; an invalid index panics.

*Model:* Utils. *Specification:* in the statement. *File:* Props/Utils.lean.
*Proof:* Index arithmetic.
*Result:* All element types, slices and indices.
*Theorems:* `C63_remove_swap`

### C64 The decoder's language — proved

Decode accepts exactly the inputs that start with a bencode document, where beyond BEP 3 only leading zeros in string lengths, -0, unsorted or repeated keys (the last value counts) and empty strings are tolerated, and returns the value of that document; input determines the document and its value.

*Model:* Bencode. *Specification:* Bencode, Doc, Size. *File:* Props/Doc.lean.
*Proof:* Equivalence of the decoder with an inductive grammar: soundness and completeness by mutual induction.
*Result:* Grammar given as the inductive predicate Spec.Parses; soundness, completeness (any suffix, any capacity), prefix-freeness.
*Theorems:* `C64_sound`, `C64_complete`, `C64_accepts_iff`, `C64_unambiguous`, `C64_values`

### C65 Announcing never crashes the client — partial

tracker.Get returns a response or an error, without panicking, for every torrent that can be loaded and everything the tracker sends back.

*Model:* Bencode, Files, Path, Peer, Torrent, Tracker, Url, UrlParse. *Specification:* Bencode, Info, Query, UrlParse. *File:* Props/Tracker.lean, Props/UrlParse.lean.
*Proof:* Case analysis of NewSwarm's stages.
*Result:* Exact, with url.Parse (Go 1.18) modelled: a panic iff the announce text is not a URL in the sense of the grammar of C121 (C65_exact_partial); refuted by a loadable torrent file with a control character in its announce URL (C65_refuted_bad_url) and for texts that people write, such as 10.0.0.7:6969/announce (C65_refuted_texts). C65_panic_iff_partial is the same with url.Parse as a parameter.
*Theorems:* `C65_panic_iff_partial`, `C65_refuted_bad_url`, `C65_exact_partial`, `C65_refuted_texts`

### C66 Seeding, end to end — partial

A peer that connects with a handshake for the torrent and then only sends valid messages of a downloader is sent exactly: our handshake, our bitfield, unchoke, and for each request for a piece that we have, in the order of the requests, one piece message with the requested bytes of the torrent; and the availability tracker afterwards holds exactly what the peer announced.

*Model:* Bencode, Bitfield, DS, FS, FileIO, Files, Handshake, MsgHandler, P2P, Peer, PieceTracker, Session. *Specification:* Avail, Bits, Framing, Handshake, Layout, Seeder, Session, Wire. *File:* Props/AnyBuffers.lean, Props/MsgWire.lean, Props/Seeder.lean, Props/SeederSent.lean, Props/Session.lean.
*Proof:* Sessions as a fold over received buffers; invariant that nothing but the announced pieces and the transfer state changes (`loop_polite`). For all bytes: the specification machine of Spec/Seeder.lean, whose steps are matched with those of the handlers (`handleOne_serve`), on top of the taking apart of buffers of C94.
*Result:* The whole session from the handshake on, for every layout, set of pieces and message sequence. Connections that we open likewise (C66_outgoing_partial); after an error nothing more is handled (C66_error_ends). Refuted for received buffers that end inside of a message (C66_refuted_split). Exactly, for all bytes in all buffers, all writes that fail and any number of peers (C66_exact, C66_exact_outgoing): what is sent and how the connection ends is given by Spec/Seeder.lean, on top of Spec/Framing.lean. Whatever is received, nothing but requested blocks of pieces we have is sent (C66_sent, C66_sent_outgoing). The specification determines everything (C66_unique). The theorems named partial are for polite peers or at most 63 peers (C46). Keep-alives and requests of our own are not part of the session model. For buffers that end anywhere (C66_any_partial, C66_any_outgoing_partial): the requests that can be read in one buffer on its own (Spec/Framing.lean, which describes what is read in arbitrary bytes) are answered, and nothing else is sent, also if a last buffer crashes the client or keeps it for ever.
*Theorems:* `C66_any_partial`, `C66_any_outgoing_partial`, `C66_error_ends`, `C66_refuted_split`, `C66_exact`, `C66_exact_outgoing`, `C66_unique`, `C66_sent`, `C66_sent_outgoing`, `C66_seeding_partial`, `C66_outgoing_partial`, `C66_registered_partial`

### C67 Received blocks are stored — partial

When a peer sends a block in a piece message, the data ends up in the torrent's files once the piece is complete and has the recorded hash.

*Model:* Bitfield, DS, FS, FileIO, Files, MsgHandler, P2P, PieceTracker. *Specification:* Bits, Wire. *File:* Props/Session.lean.
*Proof:* Witness computed from C12.
*Result:* Refuted for every piece message in every stream: decoding it panics. Even if it were decoded, it would be ignored.
*Theorems:* `C67_refuted_crash`, `C67_refuted_ignored`

### C68 Availability follows what peers announce — partial

A connected peer is registered for exactly the pieces it has announced in bitfield and have messages, and for none after its connection has ended.

*Model:* Bitfield, DS, FS, FileIO, Files, MsgHandler, P2P, Peer, PieceTracker, Session. *Specification:* Avail, Bits, Layout, Session, Wire. *File:* Props/ExactFiles.lean, Props/Session.lean.
*Proof:* Witnesses for all torrents: the handler's answer is computed and compared with the availability specification.
*Result:* Refuted: have messages are ignored, so a peer without bitfield is never asked for anything; and nothing is unregistered when a connection ends. What holds: a peer that sends no have messages is registered for exactly what it has announced while its connection lasts (C68_without_have_partial; registrations = bitfields in general: C66_registered_partial). C68_iff_partial: the registrations are the announcements if and only if each piece of a have message is also in a bitfield.
*Theorems:* `C68_iff_partial`, `C68_without_have_partial`, `C68_refuted_have`, `C68_refuted_gone`

### C69 Choking state — partial

A new connection starts choked and uninterested in both directions, choke, unchoke, interested and not interested messages are reflected in the state of the connection, and Choke sends a choke message.

*Model:* Bitfield, DS, FS, FileIO, Files, MsgHandler, P2P, Peer, PieceTracker, Session. *Specification:* Wire. *File:* Props/Session.lean.
*Proof:* Computed; the peer state is never written, by case analysis of all handlers.
*Result:* Refuted: the state has zero values instead of MakeState's as far as choking is concerned, no message changes it, Choke sends unchoke. What holds: a new connection is uninterested in both directions.
*Theorems:* `C69_refuted_initial`, `C69_uninterested_partial`, `C69_refuted_frozen`, `C69_refuted_choke`

### C70 Metadata survives saving and loading — partial

Metadata that the library accepts, written with the library's own encoder as a torrent file and loaded again, comes back unchanged: same announce URL, name, piece length, hashes, lengths and files, and the info-hash that NewTorrent computed for the original. For a torrent created from files and loaded with the same working directory the files are looked for where they are.

*Model:* Bencode, Create, FS, Files, Path, Torrent, Utils. *Specification:* Bencode, Dirs, Layout. *File:* Props/Saved.lean.
*Proof:* Composition of Bencode of the metainfo (C01, C33) with FromTorrentFile; the conditions are those under which each encoder call succeeds.
*Result:* C70_saves_iff says exactly which metadata can be written. Refuted part: a torrent of one file whose path differs from the torrent's name is looked for under the name (C70_refuted_renamed); C70_created_iff_partial says that this is the only exception. The program itself has no code that writes a torrent file; the file is Encode applied to announce URL and Bencode().
*Theorems:* `C70_saves_iff`, `C70_roundtrip`, `C70_created_iff_partial`, `C70_refuted_renamed`

### C71 Start-up — partial

NewSwarm, if it succeeds, leaves a client with the torrent of the input file, the torrent's files at their recorded lengths with their old contents, no other file changed, a bitfield that says for each piece whether its contents have the recorded hash, no registered peers, and the peers the tracker returned to a request with the torrent's info-hash, the client's port and id and the true number of missing bytes. It succeeds if the torrent file is good, the tracker answers and no system call fails; it never panics for good torrent files; a rejected torrent file leaves all files alone.

*Model:* Bencode, Bitfield, DS, FS, FileIO, Files, MsgHandler, Path, Peer, PieceTracker, Startup, Swarm, Torrent, Tracker, Url. *Specification:* Avail, Bencode, Bits, Layout, Query. *File:* Props/Startup.lean, Props/StartupSingle.lean.
*Proof:* Inversion of the start-up relation, C26 for prepared files, C31 for the check, C37 for the tracker.
*Result:* Refuted part: the number of missing bytes is always announced as 0. Assumes metadata with positive piece length, non-negative lengths and distinct local paths (others are accepted as well, see C24, C35; C119 says that only the distinct paths are a restriction), fewer than 2^32 pieces, and that opening an existing file does not fail spuriously (see C28). C71_left_iff: the announced number of missing bytes is right exactly if every piece that is not empty is there.
*Theorems:* `C71_started`, `C71_starts`, `C71_rejected`, `C71_in_order`, `C71_announced`, `C71_refuted_left`, `C71_left_iff`

### C72 From files to answered requests — partial

When a torrent is created from files, saved, and a client is started on it in the same working directory, then start-up changes no file, the client has the info-hash computed at creation, and a peer that connects with it and keeps to the protocol is sent the handshake, a full bitfield and for each request exactly the bytes of the original files.

*Model:* Bencode, Bitfield, Create, DS, FS, FileIO, Files, Handshake, MsgHandler, P2P, Path, Peer, PieceTracker, Session, Startup, Swarm, Torrent, Tracker, Url, Utils. *Specification:* Avail, Bencode, Bits, Handshake, Layout, Query, Session, Wire. *File:* Props/Startup.lean, Props/StartupSingle.lean.
*Proof:* Composition of C30, C70, C71 and C66.
*Result:* Refuted for a single file that is not called like the torrent (C72_refuted_renamed: another file is cut and the client has no piece). C72_end_to_end_partial covers all other torrents that can be created (creation does not finish for piece lengths above 5 MiB, C30) with what C66 covers of a session. For torrents of one file C72_single and C72_single_iff are exact, whatever the file is called: the client has the pieces whose hash is that of the original, and everything just when the file with the torrent's name is the original up to bytes behind its end and zeros missing at its end.
*Theorems:* `C72_end_to_end_partial`, `C72_refuted_renamed`, `C72_single`, `C72_single_iff`

### C73 The layout is computed without overflow — partial

The layout of a torrent (total length, number of pieces, byte ranges, piece map) computed with 64-bit integers is the one that exact arithmetic gives, for every list of non-negative 64-bit file lengths and every positive piece length.

*Model:* Files, Files64. *Specification:* Layout. *File:* Props/Int64.lean.
*Proof:* The 64-bit model is compared with the unbounded one: sums that fit are not changed by wrapping (`makeFileList_eq'`).
*Result:* Refuted: three files of together 2^64 bytes are accepted as a torrent of length 0 without hashes. For totals below 2^63 bytes everything agrees, with surplus hashes up to the length of the last piece modulo 2^64.
*Theorems:* `C73_exact_partial`, `C73_consistent_partial`, `C73_refuted_overflow`

### C74 Concurrent reads and writes of pieces — partial

Any number of goroutines may call ReadPiece and WritePiece at the same time: all calls return, none panics; a byte on disk or in a buffer that a read has filled is always the one that was there at the beginning or the one of a valid write of that piece; no other file is changed; a piece that nobody changes is read correctly, and stays correct, whatever happens to the other pieces; a write that has succeeded has stored its piece (unless another write of the same piece was made); a read delivers the piece as it was at the beginning or as one valid write left it, not a mixture.

*Model:* FS, FileConc, FileIO, Files. *Specification:* Layout, Lts. *File:* Props/FileConc.lean, Props/FileConcAlone.lean, Props/FileConcMix.lean, Props/FileConcParts.lean, Props/FileConcWhole.lean.
*Proof:* Invariant of all interleavings of single file accesses (`ginv_reach`) with a ghost history per byte; termination by a decreasing measure. For a call that is alone, the execution is followed and compared with the sequential functions (`Props/FileConcAlone.lean`).
*Result:* Assumes what Sized says: read buffers hold the piece, accepted data has the length of the piece (otherwise see C26, C27), and distinct local paths. Refuted for the last part: locks are per file, so a read of a piece that crosses files can return half of the old and half of the new piece (C74_refuted_torn); C74_whole_partial: reads and writes of pieces inside one file are atomic; C74_alone_read and C74_alone_write: a call that is alone does exactly what the sequential model (C26, C27) says, with no assumption. C74_parts: for every piece, also of several files, the part in each file is read and written as a whole. C74_reads_iff: what a successful ReadPiece can deliver is exactly the set of these mixtures (each file from the beginning or from one of the writes), so every mixture has a schedule. C74_torn: the torn read for every piece that goes over the end of a file. While files are closed: C127.
*Theorems:* `C74_bytes`, `C74_written`, `C74_stable`, `C74_all_return`, `C74_results`, `C74_no_panic`, `C74_alone_read`, `C74_alone_write`, `C74_reads_iff`, `C74_torn`, `C74_parts`, `C74_whole_partial`, `C74_refuted_torn`

### C75 The command line — partial

A command line of options -i, -w, -p, -cmd, -u, -d (with one or two dashes, the value behind an equals sign or in the next argument, in any order, the last one counts) runs the command that was asked for with the values that were given and the documented defaults for the others. If input or working directory are missing, or the command, an option, a limit or the port (0 to 65535) is not valid, the program ends before it does anything.

*Model:* Bencode, Flags, Utils. *Specification:* Args, Size. *File:* Props/CommandLine.lean.
*Proof:* Parser of flag values compared with a grammar of numbers in both directions (`check_iff`, `loop_iff`).
*Result:* Exact: which command lines run which command with which values (grammar of command lines in Spec/Args, sizes as in C58); everything else ends in flag.Parse or with a panic in initOpts. Refuted: no working directory is needed, ports above 65535 are taken modulo 65536, a leading zero means octal, options behind a word are ignored. The flag package and ParseUint of Go 1.18 are part of the model.
*Theorems:* `C75_number`, `C75_swarm_partial`, `C75_info_partial`, `C75_otherwise`, `C75_refuted_wd`, `C75_refuted_port`, `C75_refuted_octal`, `C75_refuted_ignored`

### C76 Peers do not disturb each other — partial

With any number of connections handled at the same time, in any interleaving and whatever the peers send: a peer that keeps to the protocol is sent exactly the greeting, keep-alive messages and the correct answers to its requests, in order; nobody is ever sent anything but the protocol messages a seeder sends, with bytes of pieces that we have; a peer is registered exactly for the pieces it announced; and no peer can end the service for the others.

*Model:* Bencode, Bitfield, DS, FS, FileIO, Files, Handshake, MsgHandler, P2P, Peer, Peers, PieceTracker, Session. *Specification:* Avail, Bits, Framing, Handshake, Layout, Lts, Peers, Seeder, Session, Wire. *File:* Props/Download.lean, Props/Peers.lean, Props/PeersNext.lean, Props/PeersOver.lean, Props/StartCrash.lean.
*Proof:* Induction over runs of many connections on one swarm (`reach_sound`, `reach_keys`); single messages by `handleOne_serve` of C66.
*Result:* Interleaving of messages, tracker calls and keep-alives of arbitrarily many connections (Model/Peers). Refuted: a handshake and 13 bytes of one peer end the process for all. Holds otherwise: correct answers for every peer whose received buffers end on message boundaries (C16), exact registrations, blocks only in answer to requests of the same connection and in their order (C76_asked), nothing else sent to anybody; no crash with at most 63 peers that keep to the protocol. Blocks may contain older bytes of the buffer (C43), but only of pieces that we have. A connection whose receiving loop has ended or hangs receives and handles nothing any more (C76_over). C76_crash: the process only crashes of bytes whose decoding panics or of a message whose handling does; connecting, asking and keep-alives never crash it. C76_next_exact: what the next message of a connection leads to, whatever it is and whatever all peers did: the step of the seeder of Spec/Seeder.lean; C76_receive: the same for the next buffer.
*Theorems:* `C76_asked`, `C76_served_partial`, `C76_next_partial`, `C76_only`, `C76_registered`, `C76_no_crash_partial`, `C76_refuted_crash`, `C76_next_exact`, `C76_receive`, `C76_over`, `C76_crash`

### C77 Moving and closing files — partial

Moving the files of a torrent to other names does not disturb reading and writing pieces: all data that was or will be written stays with the torrent's open files and is found under the new names, and a moved file can be moved again. After a file is closed nothing can be read or written through it any more; CloseAll leaves no file open.

*Model:* FS, FileIO, Files, Handles. *Specification:* Handles, Layout. *File:* Props/ExactSmall.lean, Props/Handles.lean.
*Proof:* A move only changes names, never contents reached through open handles (`move_same`), so every other operation gives the same results with and without moves (`runAll_same`, induction over operations).
*Result:* Refuted: a moved file cannot be moved or closed under its new name nor moved under its old one; a move onto the path of another open file detaches that file from the disk; CloseAll may close nothing once a single file is closed; OCAT for an open path leaves the first handle open for ever. Holds: moves are invisible to all other calls, closed files refuse everything, CloseAll closes everything if nothing was closed before. One call after the other; names without links. C77_closeAll_iff_partial: when closing all files succeeds, exactly.
*Theorems:* `C77_closeAll_iff_partial`, `C77_moves_invisible`, `C77_move`, `C77_refuted_move_again`, `C77_refuted_target_lost`, `C77_close`, `C77_close_ok`, `C77_closeAll_partial`, `C77_refuted_closeAll`, `C77_refuted_leak`, `C77_pieces`, `C77_start`, `C77_ocat`, `C77_survives_moves`

### C78 Sizes for people — partial

Every size is shown, without a panic, in the largest unit (B, KiB, ..., EiB) that is not larger than the size, with the exact number of these units; the lines with the length in the output of the info command show this number correctly rounded to two digits, at least 1.00 and less than 1024.00 from 1024 bytes on, and the exact length.

*Model:* Bencode, Human. *Specification:* Bencode. *File:* Props/Human.lean.
*Proof:* Rounding to float64 bounded by half a unit in the last place (`roundNat_close`), integers only.
*Result:* Refuted above 2^53 bytes (2^60-1 is shown as 1 EiB), for negative sizes (always B), and for the rounded line (1048575 is shown as 1024.00 KiB). Holds: never a panic or overflow, number off by at most one part in 2^53, exact up to 2^53. Floating point is modelled by its only rounding step; formatting of %v numbers is not modelled.
*Theorems:* `C78_number`, `C78_exact_partial`, `C78_refuted_rounding`, `C78_refuted_negative`, `C78_ties`, `C78_lines`, `C78_refuted_1024`

### C79 Addresses of peers can be dialled — partial

For every peer that the tracker names, the address passed to net.Dial is taken apart into the host and the port that the tracker named, so that the peer is contacted; different addresses give different hosts.

*Model:* Bencode, Dial, Handshake, P2P, Peer, Tracker. *Specification:* Bencode, Handshake. *File:* Props/Dial.lean.
*Proof:* Text of the address parsed back by the specification; IPv6 text contains colons, so the split is ambiguous.
*Result:* Exact: the address of a peer can be taken apart iff it is an IPv4 address (as 4 bytes or as IPv4-mapped 16 bytes); refuted for IPv6, which is written without brackets, so net.Dial always fails, and for texts that are no address, where the host <nil> is looked up. Assumed of the text of IPv6 addresses: it contains a colon and no brackets; C120_dial proves this for the text that net.IP.String makes. net.SplitHostPort is part of the model; resolving and connecting are the parameter reach.
*Theorems:* `C79_ipv4`, `C79_contacted`, `C79_dialable_iff`, `C79_refuted_ipv6`, `C79_refuted_nil`, `C79_compact_partial`, `C79_dotted_injective`, `C79_with_brackets`

### C80 The listener goes on — partial

The listener accepts connections as long as the process runs, whatever the peers do: descriptors of peers that have left are given back, the list of peer handlers contains exactly the handlers of the peers that were accepted, and no memory outside of this list is written.

*Model:* Listener. *Specification:* Lts. *File:* Props/Listener.lean.
*Proof:* Invariant of the accept loop's transition system; runs of every length constructed for the refutations.
*Result:* Refuted: no connection with a good handshake is ever closed, and its handler stays reachable in phs, so after as many peers as there are descriptors Accept fails and the process panics, even if every peer leaves before the next one comes; appends of two goroutines at the same time lose a handler (C80_refuted_lost) or write beyond the end of an array (C80_refuted_memory). Holds if no two appends overlap: the list is exact. The append is modelled by the memory accesses that the compiler emits.
*Theorems:* `C80_complete_partial`, `C80_refuted_leak`, `C80_refuted_limit`, `C80_refuted_over`, `C80_refuted_one_by_one`, `C80_refuted_lost`, `C80_refuted_memory`, `C80_given_back_partial`

### C81 The limit for reading — partial

With a read limit r, in every schedule of concurrent Read calls, ticks, and calls of Run and Stop, fewer bytes than r plus the size of one buffer are read between two ticks; the total counter is the number of bytes read; Stop ends Run and returns, and leaves no reader waiting.

*Model:* RateLimit, RateRead. *Specification:* Rate, RateRead. *File:* Props/RateRead.lean.
*Proof:* Erasing reads gives a run of the write half (`er_run`), to which C53 and C54 apply.
*Result:* Refuted: buffers are counted, not bytes: any number of bytes can be read between two ticks, because a read that was admitted may happen much later; a read that gives nothing counts as a whole buffer; after Stop nothing resets the budget, so that readers wait for ever with the lock, and a second Stop waits for ever. Holds: the buffers admitted between two ticks are bounded, the total is exact if all buffers are filled, Stop returns exactly if somebody is in Run. By a simulation of the read half by the write half (C53, C54).
*Theorems:* `C81_buffers_partial`, `C81_total_partial`, `C81_refuted_window`, `C81_refuted_total`, `C81_refuted_stop`, `C81_stop`, `C81_refuted_stopped`

### C82 The info command tells the torrents apart — partial

The output of the info command exists for every torrent that can be loaded and states its name, announce URL, info-hash, number of pieces, length and all files in order, so that torrents which differ in one of these have different outputs; the client prints the same lines, those about the tracker and all peers.

*Model:* Bencode, Files, Human, Path, Peer, Show, Startup, Torrent, Tracker. *Specification:* Bencode, Query, Show. *File:* Props/Show.lean.
*Proof:* Output split into lines, each parsed back; injectivity by induction over files and peers.
*Result:* Refuted: names, announce URL and paths are printed as they are, so two torrents with different info-hashes can have the same output (C82_refuted_forged, for every way to print numbers). Holds if each of them is on one line: every fact can be read from the output, and the output is unambiguous. The text of a float64 (%v) is a parameter; assumed of it: no line break and no colon. C82_response_partial: the same for the text of a tracker's answer.
*Theorems:* `C82_info_partial`, `C82_unambiguous`, `C82_distinct_partial`, `C82_refuted_forged`, `C82_state_partial`, `C82_response_partial`, `C82_peers`, `C82_client_partial`, `C82_command_partial`

### C83 Missing pieces are asked for — partial

In every execution of a client that lacks pieces: a connection whose peer has announced a missing piece chooses such a piece, one announced by the fewest peers, and sends requests for it; and between two clients of this kind, one of which has what the other lacks, blocks are transferred.

*Model:* Bencode, Bitfield, DS, FS, FileIO, Files, Handshake, MsgHandler, P2P, Peer, Peers, PieceTracker, Session. *Specification:* Avail, Bits, Handshake, Layout, Lts, Peers, Session, Wire. *File:* Props/Download.lean.
*Proof:* Induction over runs of a session and of the swarm: the request handler is the only sender of piece messages and no step sends a request (case analysis).
*Result:* The choice is right: in every state of every execution the tracker gives a connection a piece precisely if one is missing here and announced (in a bitfield) under the text of the peer, and it is one announced by the fewest (C83_chosen_partial). Everything after the choice is refuted, for every execution: no request is ever sent (C83_refuted_no_request); as soon as a piece is chosen the connection's requestLoop does not end (C83_refuted_hangs, C83_refuted_forever, and C52_refuted_memory for the memory it needs); of two such clients neither sends a block to the other (C83_refuted_transfer), which uses the new C76_asked: blocks are only sent in answer to requests received on the same connection. For a piece whose length is 0 modulo 2^32 (more hashes than pieces) making the requests ends, but there are none, and the piece counts as asked for (C83_refuted_silent).
*Theorems:* `C83_refuted_no_request`, `C83_chosen_partial`, `C83_refuted_hangs`, `C83_refuted_silent`, `C83_refuted_forever`, `C83_refuted_transfer`

### C84 Documents of others fit on the stack — partial

No torrent file and no response of a tracker, however nested, ends the process: on a call stack of whatever limited size, Decode of every document returns a value or an error, the same as on an unlimited one.

*Model:* Bencode, Files, Path, Peer, Stack, Torrent, Tracker. *Specification:* Bencode, Stack. *File:* Props/Stack.lean.
*Proof:* The limited decoder equals the unlimited one or is gone (`same_or_none`, induction on fuel); depth never exceeds the number of opening brackets (`decode_opens`); nested lists reach any depth (`fits_nested`).
*Result:* Refuted: for every size of the stack there is a well-formed document with two bytes per call that exhausts it (C84_refuted; in Go a fatal error that recover does not catch, at 1 GB of stack), and every torrent file and every response can be changed into one that means the same and does so (C84_refuted_torrent, C84_refuted_response). What holds: whenever the stack suffices the result is that of the decoder without a limit (C84_same_partial); it suffices for arbitrary bytes with at most as many opening bytes as calls fit (C84_small_partial), and for canonical documents exactly if their nesting fits (C84_exact_partial).
*Theorems:* `C84_refuted`, `C84_same_partial`, `C84_small_partial`, `C84_exact_partial`, `C84_refuted_torrent`, `C84_refuted_response`

### C85 Files of a torrent are at different places — partial

No two files of a torrent that the client accepts get the same local path, so that the data of one file never overwrites that of another.

*Model:* Bencode, Bitfield, FS, FileIO, Files, Path, Swarm, Torrent. *Specification:* Bits, Dirs, Info, Layout. *File:* Props/Places.lean.
*Proof:* filepath.Clean computed on paths below a common directory (`cleanLoop_stays`), with C34 for the places; for the refutations C24 (acceptance depends on lengths only) and C31 (what is marked), with the collision constructed from a piece that differs.
*Result:* Refuted: with any lengths, names and hashes (if there are enough) a torrent is accepted with the same path for all its files (C85_refuted_accepted). Such a torrent with two files of the same length and different contents is never complete, whatever is on disk (C85_refuted_complete), although all of its pieces are written with success (C85_refuted_overwritten). What holds, exactly: files whose paths stay below the torrent's directory get the same local path precisely if their paths lead to the same place, and if they do not, they are at different places for every current directory (C85_same_iff_partial, C85_distinct_partial; this gives the hypothesis 'distinct' of C71 and C72). That a file cannot be inside of another file is a fact of the file system that is not modelled.
*Theorems:* `C85_same_iff_partial`, `C85_distinct_partial`, `C85_refuted_accepted`, `C85_refuted_complete`, `C85_refuted_overwritten`

### C86 A crash loses no more than unfinished pieces — proved

If the process dies at any moment while pieces are read and written concurrently, and any number of attempts to start again are interrupted, the next start that succeeds loads the same torrent, marks exactly the pieces whose data has the recorded hash, has every piece that was written with success and every piece that was not written to as before, and takes no half-written piece for a whole one unless two data have the same hash.

*Model:* Bencode, Bitfield, DS, FS, FileConc, FileIO, Files, MsgHandler, Path, Peer, PieceTracker, Startup, Swarm, Torrent, Tracker, Url. *Specification:* Bencode, Bits, Layout, Lts. *File:* Props/Restart.lean.
*Proof:* the bytes of every reachable state of the concurrent calls (C74) are shown to be files of the right lengths, which any number of interrupted runs of OCATAll leave as they are (`attempts_keep`); then C71 and C31 for the marks of the next start.
*Result:* Proved for a crash of the process (what a write has returned is in the file afterwards; loss of the operating system's cache is not modelled). WritePiece has no caller in the program as it is (C83); the theorem is about the code that is there for the purpose.
*Theorems:* `C86_restart`

### C87 Quiet connections stay open — partial

A connection is not closed for lack of data while the peer sends keep-alive messages as BEP 3 asks for (one every two minutes), and the client itself sends one often enough; a peer that has fallen silent is noticed.

*Model:* Bitfield, DS, FS, FileIO, Files, Idle, MsgHandler, P2P, PieceTracker. *Specification:* Lts. *File:* Props/Idle.lean.
*Proof:* a transition system in which time passes, with the ticker, the messages under way and the deadline of the reader; the invariant `Inv` says that something makes the current read return in time (data, a message under way, a tick, or the next tick). The converse is an explicit execution.
*Result:* Refuted: the timeout is two minutes, so that a peer with a message every two minutes is dropped even without any delay (C87_refuted_two_minutes). What holds, exactly: reads never time out if the peer's period and all delays are together shorter than the timeout (C87_kept_partial, C87_exact_partial); hence between two clients of this kind if the delays are below a minute (C87_between_partial). Keep-alive messages in pieces of any length are received without effect (C87_harmless_partial), the client sends them every minute (C87_sent_partial), and a read without data ends by its deadline (C87_noticed_partial; that the end of a read does not tear the connection down is C57). Bounded delays and a connection without failures are assumptions of the model.
*Theorems:* `C87_kept_partial`, `C87_between_partial`, `C87_exact_partial`, `C87_refuted_two_minutes`, `C87_noticed_partial`, `C87_sent_partial`, `C87_harmless_partial`

### C88 Accepted torrents can be stored — partial

If nothing is in the way on the disk, preparing the files of any torrent that is accepted succeeds unless the operating system fails.

*Model:* Bencode, DirFS, FS, FileIO, Files, Path, Torrent. *Specification:* Dirs, Info, Layout. *File:* Props/DirFS.lean.
*Proof:* the file system of Model/FS.lean is refined by directories (`DirExec.plain`: every execution with directories is one without); executions keep the tree in order and delete nothing (`DirExec.keeps`); the successful run is constructed, the programs for open files being lifted from C28 (`Plain.lift`).
*Result:* Refuted: a torrent with the files a and a/b (any names, lengths, hashes) is accepted and can be prepared on no disk, so that the client never starts (C88_refuted). What holds, exactly: preparing succeeds, the operating system permitting, precisely if nothing is in the way (C88_storable_iff_partial); for a torrent whose paths stay in its directory and an empty place on the disk this means that no file of the torrent is inside of another (C88_torrent_partial). Directories are those of Model/DirFS.lean (no symbolic links); its executions are executions of Model/FS.lean, so that C28, C29 and C71 hold for them.
*Theorems:* `C88_storable_iff_partial`, `C88_torrent_partial`, `C88_refuted`

### C89 Goroutines never access the same memory at the same time — partial

While the client runs, no two of its goroutines are ever about to access the same memory, at least one of them writing, unless both accesses are atomic operations: everything they share is written before they are started, is protected by a mutex, is handed over through a channel, or is atomic. No mutex is unlocked that is not locked, and no send on the buffered channels of a read loop waits.

*Model:* Bitfield, HeadRace, P2P, Races. *Specification:* Lts, Wire. *File:* Props/HeadRace.lean, Props/Races.lean, Props/RacesCover.lean.
*Proof:* permissions in the style of concurrent separation logic: each goroutine holds permissions as a function of its position, free mutexes and full channels hold permissions too; a finite check on every edge of the graph says that steps only pass on what is there, and an invariant lifts this to any number of goroutines and connections (`Inv.step`). The races are explicit schedules.
*Result:* Refuted: exactly three locations have data races (C89_exact_partial): the listener's list of handlers (what follows is C80), the head of the bitfield message, which Encode writes into the bitfield that all connections share, and the rate limiter's count of written bytes, which Run sets by an assignment and Write reads in a loop without synchronisation. What holds: everything else is race free for any number of connections (C89_race_free_partial), mutexes are unlocked only when locked and the sends to the read loop's buffered channels never wait (C89_room_partial), and the race on the head of the bitfield message is harmless: what is sent is always the right message (C89_head_harmless_partial). The control flow of the goroutines is a graph (Model/Races.lean) with all decisions left open; connections, files, log and WaitGroup are taken as synchronised by themselves.
*Theorems:* `C89_head_harmless_partial`, `C89_race_free_partial`, `C89_room_partial`, `C89_refuted_list`, `C89_refuted_head`, `C89_refuted_count`, `C89_refuted_wait`, `C89_exact_partial`, `C89_every_line`

### C90 The write limit is used fully and every write gets through — proved

With a positive write limit r, as long as some Write has not returned, either a goroutine can go on or at least r bytes have been admitted since the last tick; between two ticks the calls come to a standstill after finitely many steps whatever the schedule; if no new calls are made and goroutines are faster than the ticker, n calls have all returned after n ticks, at least r bytes are admitted per tick until then, and a call that has returned has handed its bytes to the writer.

*Model:* RateLimit. *Specification:* Rate, RateLive. *File:* Props/RateLive.lean.
*Proof:* Every step of a call lowers a rank (`step_one`), which bounds the steps between two ticks; where nobody can go on, the holder of the lock waits for budget (`settled_spin`), so the bytes counted are at least the limit; after a tick that call is `Served` until it returns, so each tick ends a call (`drain_inv`).
*Result:* The counterpart of C53, for positive limits that are not changed meanwhile (for limit 0 and changed limits see C54). That goroutines are faster than the ticker (a tick once a second) is part of the definition of Drain; new calls during the drain are excluded since nothing is assumed about the fairness of the mutex.
*Theorems:* `C90_used_fully`, `C90_settles`, `C90_drained`, `C90_written`, `C90_throughput`

### C91 What others send takes memory in proportion to its size — partial

Everything the client keeps of a torrent file, of a tracker's response or of peers' messages is at most proportional to the number of bytes received: the values decoded, the messages and their bitfields and blocks, the list of peers, the pieces, files, paths and piece locations of a torrent, and the buffers allocated for it. A small torrent file never ends the process for lack of memory.

*Model:* Bencode, Bitfield, FS, FileIO, Files, Memory, P2P, Path, Peer, Session, Swarm, Torrent, Tracker. *Specification:* Bencode, Bits, Dirs, Layout, Memory, Wire. *File:* Props/Memory.lean.
*Proof:* the size of a value is defined by recursion on values; induction on the decoder's fuel shows that what has been decoded and what is left to read never exceed the document (`decode_size`). For the piece map an invariant of the two loops: every location added moves the piece index on or ends the file. The witnesses are encoded by the library's own encoder, whose output is bounded by recursion (`encode_cost`), and loaded by C70; the lower bound for the paths is by where they lead (`resolve_len`).
*Result:* Refuted twice: every peer's handler and the check of the files allocate a buffer of the torrent's piece length, which nothing bounds by the size of the files, so a torrent file of 150 bytes ends the process for any amount of memory (C91_refuted_buffer); and the path of every file contains the torrent's name, so F files take F times the name (C91_refuted_paths: a file of one megabyte, paths of one gigabyte). What holds: decoded values, messages, peers and all other metadata are linear in what was received (C91_value, C91_messages, C91_peers, C91_torrent), and the buffers are the only further need, exactly (C91_buffer_partial, C91_handlers_iff_partial). Counted are bytes of text, numbers, lists, entries and files, not the constant overhead of Go's data structures; for DecodeAll only calls that return (C14).
*Theorems:* `C91_value`, `C91_messages`, `C91_peers`, `C91_torrent`, `C91_refuted_paths`, `C91_buffer_partial`, `C91_handlers_iff_partial`, `C91_refuted_buffer`

### C92 Nobody waits for a lock in vain — partial

In a running client each of the two mutexes (that of the rate limiter and that of the piece tracker) is held by at most one goroutine at a time. A goroutine that holds one of them waits neither for another mutex nor for a channel before it unlocks it again; at most it waits, in a loop, for the next tick of the rate limiter. So a goroutine that waits for a mutex always waits for a different goroutine that is able to go on, and can get the mutex.

*Model:* Races, RateLimit. *Specification:* Lts, Rate. *File:* Props/Locks.lean, Props/LocksRate.lean.
*Proof:* `holds` gives the positions at which a goroutine holds a mutex; a check of all edges of the graph (`okHold_all`) shows that only locking enters and only unlocking leaves them, and that no other waiting edge begins or ends there. Invariant: a locked mutex has exactly one holder, a free one none. `wayOut` finds from each position a path of local edges to the unlocking. The theorems speak of the state's boxes and of enabled edges, not of `holds`. For the limiter's mutex the loop inside is treated in Model/RateLimit.lean: `none_admitted` and `stuck` (from C54) for the limit 0, a run of at most five steps for positive limits.
*Result:* Refuted with a write limit of 0 (-u 0): the first Write that locks never unlocks, and all others wait for ever (C92_refuted_zero, in the model of the rate limiter). With a positive limit a Write that waits gets the mutex after a tick and steps of the holder alone (C92_write_partial; C90 for all schedules). Who may hold what is proved on the graph of Model/Races.lean, in which the choice between edges is open (the loop of Write may be left at any time there, C92_write_partial is about when it is): the holder is never waiting for a mutex or a channel, and some path of its own leads to the unlocking. RegisterBF and NextPiece run over finite lists inside of the lock (C63, C68). Waiting for channels is the subject of C57. Of the RWMutexes of the files a running client only takes the shared side (fileio.go:136; nobody calls what locks them exclusively), which never waits; they are left out. C92_write_iff_partial says exactly when a Write waiting for the mutex of the rate limiter can still get it (as long as less than 2^63 bytes are written): unless the Write that has it waits for budget with a limit that is 0 or was lifted.
*Theorems:* `C92_released`, `C92_one_holder`, `C92_waiting`, `C92_refuted_zero`, `C92_write_partial`, `C92_write_iff_partial`

### C93 A torrent can be started again — partial

After a client has been started from a torrent file, it can be stopped and started again from the same file: a later start changes nothing on disk, whichever system calls fail and whatever the tracker answers, and if it succeeds it is for the same torrent with the same pieces. If the torrent file is itself one of the torrent's files, start-up resizes it to the length of that file: if that is shorter than the document in it, the torrent is lost.

*Model:* Bencode, Bitfield, DS, FS, FileIO, Files, MsgHandler, Path, Peer, PieceTracker, Startup, Swarm, Torrent, Tracker, Url. *Specification:* Avail, Bencode, Bits, Doc, Layout, Query, Size. *File:* Props/Again.lean.
*Proof:* `ocatAll_right`: every execution of OCATAll on files of the right sizes, with any failures, leaves the disk as it is (cases on Exec). Loading looks only at the document at the start of the file (C64), so cutting behind it or filling up changes nothing, and since documents are prefix-free a cut inside of it makes loading fail (`load_doc`).
*Result:* Refuted for a torrent file that bears the name of one of the files it describes, in the working directory (C93_refuted; C93_own_file says exactly when the torrent is lost). The positive part is for all other torrent files. Paths are compared as texts; that existing files can be opened is assumed in the first and later starts (otherwise see C28_refuted_open_failure); crashes during the first start are C29 and C86.
*Theorems:* `C93_again_partial`, `C93_restarts_partial`, `C93_own_file`, `C93_refuted`

### C94 A bad message does not spoil its neighbours — partial

If a peer sends a message whose length does not suit its type, or whose type is unknown, then exactly this message is skipped: what is decoded are the other messages of the buffer, in order.

*Model:* Bitfield, P2P. *Specification:* Bits, Framing, Wire. *File:* Props/Framing.lean.
*Proof:* `Reads` (Spec/Framing.lean) is an inductive description over wire forms, without fuel and without the decoder. `loop_reads`: by induction on it the loop of DecodeAll does the same; `reads_total`: by induction on the length every input has such a description. The refutations are instances.
*Result:* Exact for all buffers of less than 2^32 bytes: Spec/Framing.lean describes how bytes are taken apart, and C94_exact_partial says that all bytes can be and that DecodeAll does just this. The property itself is refuted in three ways, each for all arguments: a have message that is too long has its payload read as messages, one that is too short swallows bytes of the next message, and a message of unknown type takes everything received with it along. What holds: the messages before are delivered.
*Theorems:* `C94_exact_partial`, `C94_before_partial`, `C94_refuted_smuggled`, `C94_refuted_swallowed`, `C94_refuted_unknown`

### C95 The client survives whatever a peer sends — partial

Whatever bytes a peer sends after the handshake, in whatever buffers they arrive, at most the peer's own connection ends: the process does not crash, and every buffer is dealt with in finitely many steps.

*Model:* Bitfield, DS, FS, FileIO, Files, MsgHandler, P2P, PieceTracker. *Specification:* Avail, Bits, Fate, Framing, Layout, Wire. *File:* Props/Fate.lean.
*Proof:* `hear_spec`: one message, by cases, from the exact results for requests (C44) and bitfields (C45); `hearAll_spec`: induction over the messages with Running and the registrations as invariant; `handle_reads` joins this with the description of decoding from C94; a connection is an induction over its buffers.
*Result:* Refuted: five bytes end the process and five others hang the connection's goroutine, in every state (C95_refuted). What holds, exactly: Spec/Framing.lean says how any bytes are taken apart and Spec/Fate.lean what becomes of client and connection for any messages (crash: a piece message, an overflowing length, a request that ends beyond the piece length, an index beyond the bitfield's bytes, a piece with 63 other peers; endless loop: an empty bitfield; end of the connection: bitfield of another size, failed write, index beyond the pieces of a complete client); C95_exact_partial and C95_survives_iff: the code does just this; C95_connection_partial: also over a whole connection. Assumes a client that has started up normally (Running) and buffers below 2^32 bytes (the code's buffers have 16384 bytes).
*Theorems:* `C95_exact_partial`, `C95_survives_iff`, `C95_connection_partial`, `C95_refuted`

### C96 Torrents of every size can be exchanged — partial

However many pieces a torrent has, the bitfield of a peer reaches the client: it is recognised as a message and registered, however the bytes arrive. The same holds for messages with a block of 16 KiB, the size that clients use and this client asks for. No part of a long message is taken for another message.

*Model:* Bencode, Bitfield, DS, FS, FileIO, Files, Handshake, MsgHandler, P2P, Peer, Peers, PieceTracker, Session. *Specification:* Avail, Bits, Framing, Handshake, Large, Layout, Lts, Peers, Session, Wire. *File:* Props/Large.lean.
*Proof:* `found_small`: messages found are sublists of the buffer (C15), so a bitfield that is found is too short for a large torrent, and handled bitfields have the right size (`handled_size`, induction over executions); with C76_registered and C83_chosen_partial nothing is registered or chosen. `reads_start`: the start of a message is given up; then C94's description of the rest applies.
*Result:* Refuted: buffers have 16384 bytes and are decoded one by one. For torrents with more than 131032 pieces no bitfield is ever registered, in any execution (C96_refuted_registered), and from 131072 pieces on the bitfield of an honest peer can end the process (C96_refuted_honest). Of a message with a block of 16 KiB the last 13 bytes are obeyed as messages (C96_refuted_block). What holds, exactly: a message can be found iff it has at most 16384 bytes (C96_found_iff_partial), and such messages are all handled if the buffers consist of whole messages (C96_short_partial; for other buffers see C16).
*Theorems:* `C96_found_iff_partial`, `C96_short_partial`, `C96_refuted_registered`, `C96_refuted_block`, `C96_refuted_honest`

### C97 Files changed by others — partial

If other programs change the contents of the torrent's files while the client runs, the client does not crash and never sends data that does not have the recorded hash: requests for pieces that are no longer intact are not answered.

*Model:* Bitfield, FS, FileIO, Files, MsgHandler, P2P, PieceTracker. *Specification:* Bits, Changed, Layout, Wire. *File:* Props/Changed.lean.
*Proof:* `readLoop_any`: the loop of ReadPiece over files of any lengths, by induction over the locations: it succeeds with the bytes of the files cut or filled up to their lengths iff no location goes beyond its file. `Present` speaks of positions only; locations are related to it as in C22 and C23. The refutation uses C26_write with a constant hash function to make the changed files.
*Result:* Refuted: the hash is looked at when the client starts and never again, so any bytes put in place of a piece are sent (C97_refuted). What holds, exactly: requests are answered from what is in the files now if all bytes of the piece are there, otherwise the connection ends and nothing is sent (C97_exact_partial); no request crashes the client that would not have crashed it anyway (C97_no_crash). The change happens between two requests; for changes during a read see C128, for the client's own writes C74. Files that are removed remain readable through the open handles on the systems the client runs on and are not modelled.
*Theorems:* `C97_exact_partial`, `C97_no_crash`, `C97_refuted`

### C98 Everybody is counted once — partial

The availability of a piece, which decides in what order pieces are asked for, is the number of participants that have announced it: somebody with several connections counts once, the client itself does not count, and one participant alone cannot bring the client down by announcing what it has.

*Model:* Bencode, Bitfield, DS, FS, FileIO, Files, Handshake, MsgHandler, P2P, Peer, Peers, PieceTracker, Session. *Specification:* Avail, Bits, Fate, Framing, Handshake, Large, Layout, Lts, Once, Peers, Session, Wire. *File:* Props/Once.lean.
*Proof:* The availability of a piece is the length of the list of keys in the tracker's invariant (`availability_iff`); one connection with a bitfield changes it as `Fate.hear` says (`announces`, `joins`); the crash by induction on the peers still missing to 64 (`pile`).
*Result:* What is counted, exactly and in every execution: the number of different texts (id, address, port) of connections on which a bitfield with the piece was handled (C98_counted_partial), which is the number of participants if everybody keeps to one text (C98_once_partial). Refuted: a participant with two ports counts twice (C98_refuted_twice), so does an honest peer that is in the tracker's list and connects to us as well (C98_refuted_both_ways); our own id is accepted and counted (C98_refuted_self); with at most 64 connections from one address and one id, each with nothing but a correct bitfield, anybody ends the process, in every state of every execution (C98_refuted_crash). Torrents with up to 131032 pieces, for which a bitfield fits into the receive buffer (C96). C98_once_iff_partial: as long as nobody uses the text of somebody else, the availability is never below the number of participants, and equal to it exactly if each used one text only.
*Theorems:* `C98_counted_partial`, `C98_refuted_twice`, `C98_refuted_both_ways`, `C98_refuted_crash`, `C98_refuted_self`, `C98_once_partial`, `C98_once_iff_partial`

### C99 Everybody in the tracker's list is called, from start-up to all peers — partial

After start-up the client calls every peer in the tracker's answer exactly once and nobody else: at any time each entry of the list is either connected, failed, being called or still to come, and all other connections were made by others. The port on which others can connect is the one announced to the tracker, and nobody gets connected before it is open. As long as the process lives, everybody still to be called can be connected to, and a peer that keeps to the protocol is answered exactly from the files found at start-up, with the pieces whose hashes are right, whatever the other peers do. A peer listed twice is connected to once; a peer that cannot be reached is tried again later; a port that cannot be opened is reported before the files are changed and the client is announced.

*Model:* Bencode, Bitfield, DS, FS, FileIO, Files, Handshake, MsgHandler, P2P, Path, Peer, Peers, PieceTracker, Session, Start, Startup, Swarm, Torrent, Tracker, Url. *Specification:* Avail, Bencode, Bits, Handshake, Layout, Lts, Peers, Query, Session, Wire. *File:* Props/Start.lean, Props/StartCrash.lean.
*Proof:* `kept`: an invariant of Model/Start.lean by induction over executions (the groups are a permutation of the list; the client's part of the state is reachable in Model/Peers.lean unless the port could not be opened). `started_ready` derives the hypotheses of C76 from C71_started.
*Result:* Refuted: an entry that is in the list twice gives two connections (C99_refuted_twice, for every such list); whoever cannot be reached once is never called again (C99_refuted_retry); a port that is taken ends the process with a panic after the files were changed and the tracker told (C99_refuted_listen). What holds: every entry of the tracker's answer is called exactly once and nobody else (C99_calls), the open port is the announced one (C99_port), all entries can be connected to (C99_reaches), and every peer that keeps to the protocol is served from the files found at start-up (C99_served_partial: C71 and C76 put together, so the hypotheses of the theorems about connections are met by every started client, started_ready). Whoever sends a handshake for the torrent is greeted and gets a connection of their own, while the process lives (C99_guests). C99_crash: after start-up the process crashes of a port that cannot be opened or of what a connection has received, and of nothing else.
*Theorems:* `C99_calls`, `C99_port`, `C99_served_partial`, `C99_reaches`, `C99_guests`, `C99_refuted_twice`, `C99_refuted_retry`, `C99_refuted_listen`, `C99_crash`

### C100 The text of a message tells the message — partial

The text that the String methods of the messages give names the kind of the message and its fields, so that two different messages have different texts.

*Model:* Bencode, Bitfield, MsgText, P2P. *Specification:* Bencode, MsgText, Query, Show, Wire. *File:* Props/MsgText.lean.
*Proof:* `C100_lines` compares the text line by line with Spec/MsgText.lean; the lines are injective because decimal numbers are, and `elems_inj` takes lists of numbers apart at the blanks.
*Result:* Refuted for bitfields, whose text does not show the bits (C100_refuted_bitfield). What holds, exactly: the lines of the text are the kind of the message and its fields (C100_lines), and two messages have the same text iff they are the same message or both are bitfields (C100_tells_partial). The length field of a message, which follows from its content for all messages the program makes, is not part of the text. The format %v of the package fmt for numbers and byte slices is part of the model.
*Theorems:* `C100_lines`, `C100_base`, `C100_tells_partial`, `C100_refuted_bitfield`

### C101 From the command line to the peers — partial

A command line that asks for a torrent to be served leads to a client that serves it with the options given, or the program ends with an error status if that is not possible. What serves is the torrent of the named file in the named directory on the named port; other files are never changed; peers that keep to the protocol are answered from the files as they were when the program was started; while serving, the program ends only by a panic. The command info prints the torrent, changes nothing and ends with status 0, which no other run does except a call for help. A tracker that is out of order does not keep the client from serving, and the program rests while nobody wants anything from it.

*Model:* Bencode, Bitfield, DS, DirFS, FS, FileIO, Files, Flags, Handshake, Human, MsgHandler, P2P, Path, Peer, Peers, PieceTracker, Program, Session, Show, Start, Startup, Swarm, Torrent, Tracker, Url, UrlParse, Utils. *Specification:* Args, Avail, Bencode, Bits, Dirs, Handshake, Info, Layout, Lts, Peers, Query, Session, Show, Size, UrlParse, Wire. *File:* Props/Program.lean, Props/ProgramEnds.lean.
*Proof:* Model/Program.lean puts the command line (Model/Flags.lean), start-up on a disk with directories (Model/Startup.lean, Model/DirFS.lean) and the running client (Model/Start.lean) into one transition system; `inv` is an invariant of it by induction over executions. The theorems then come from C75, C88, C71 and C99.
*Result:* Refuted: a tracker that takes the connection and never answers keeps the program from serving and from ending (C101_refuted_silent), one that says no or cannot be reached ends it (C101_refuted_tracker), in both cases however complete the files are; the main goroutine goes around an empty loop for ever (C101_refuted_rest). What holds: exactly when the program comes to serve (C101_serves_iff_partial), that what serves is what was asked for (C101_options), the peers are served from the files found at the start (C101_served_partial), how it ends (C101_ends, C101_status), what info prints (C101_info), and that no other file is changed (C101_harmless). Assumes sensible metadata as C71 (positive piece length, non-negative 64-bit sizes, different local paths). The program never gets stuck except for a silent tracker and after its end (C101_goes_on); a torrent file that cannot be loaded ends it with the disk as it was (C101_refused), a wrong command line before anything was touched (C101_usage). Refuted: announce text that is no URL ends it with a panic after the files were prepared (C101_refuted_url).
*Theorems:* `C101_serves_iff_partial`, `C101_options`, `C101_served_partial`, `C101_ends`, `C101_status`, `C101_info`, `C101_harmless`, `C101_refuted_silent`, `C101_refuted_tracker`, `C101_refuted_rest`, `C101_goes_on`, `C101_refused`, `C101_usage`, `C101_refuted_url`

### C102 The limits of the command line, with all peers at once — partial

With an upload limit of r bytes per second (-u) and a download limit of q bytes per second (-d) the client sends no more than r and receives no more than q bytes per second, each plus at most one message, to and from all peers together, whatever they do; requests are answered as without limits; and a peer that does not read what it is sent holds up nobody else.

*Model:* Bencode, Bitfield, DS, FS, FileIO, Files, Handshake, Limited, MsgHandler, P2P, Peer, Peers, PieceTracker, RateLimit, Session, Utils. *Specification:* Avail, Bits, Handshake, Layout, Limited, Lts, Peers, Rate, RateLive, Session, Wire. *File:* Props/Limited.lean.
*Proof:* `Model/Limited.lean` puts `Model/Peers.lean` (all connections) and `Model/RateLimit.lean` (the statements of `Write`) together: connection `i` is goroutine `i` of the limiter, and the step that handles a request is split into the call of `Write`, the steps inside it, and the writing. Every execution is one of each of the two (`run_peers`, `run_lim`), so C76 and C17 apply. What is new: whoever is in a call has a request in hand whose answer has the length that the call was made with (`Fits`), no message is longer than a piece and 13 bytes (`run_sizes`), and the blocks on a connection are in order among the bytes that its goroutine was admitted for (`accounted`, `written_admitted`); the sum over all connections is then bounded by what was admitted, which C17 bounds. For progress: the one who has the lock can always give it back before writing (`freed`), and then anybody can be admitted (`admitOne`). The refutations are for all clients and all states.
*Result:* Proved: with the limit r for sending, in t+1 seconds no more than (t+1)(r + one message) bytes of blocks are sent, counted over all connections together; the answers are those of C76; with any limit but 0 a request can be answered without any other peer reading anything. Refuted in four ways, each for all clients, limits and times: greetings do not go through the limiter; the download limit is never consulted (a client with any other one can do exactly the same); blocks admitted in different seconds can all be sent in the same one; with the limit 0 no block is ever sent. Model: every step of every connection and every statement of RateLimitIO.Write; one recvLoop is in at most one Write.
*Theorems:* `C102_blocks_partial`, `C102_zero`, `C102_not_held_up`, `C102_served`, `C102_refuted_greetings`, `C102_refuted_download`, `C102_download_ignored`, `C102_refuted_burst`

### C103 What the spinner leaves on the screen — partial

While the spinner runs, the screen shows one line: one of its symbols, the message, and one to three dots. It runs until it is told to stop and then returns; in the end the screen shows a check mark and the message on a line of their own, and nothing else.

*Model:* Spinner. *Specification:* Lts, Screen. *File:* Props/Spinner.lean.
*Proof:* `Model/Spinner.lean` is the loop as a transition system with whoever sends on `done`; `Spec/Screen.lean` is a terminal. Invariant of all executions (`Shows`): what the screen shows at each place of the program. Writing a text over a line is `put_text`, a frame over the one before is `put_frame`.
*Result:* Refuted for every message: the last line is written over the frames before it, and nothing removes the dots, so one to three dots remain behind the message (C103_refuted); C103_stopped_partial: exactly then when at least one frame was shown. What holds: what is on the screen while it runs (C103_running), that it does not stop before it is told to (C103_waits), and that it stops when it is told to, whatever happens (C103_returns). The screen is a terminal of unlimited width with one cell per character; the message has no control characters among carriage return, line feed and backspace. The program itself does not call Spinner.
*Theorems:* `C103_running`, `C103_stopped_partial`, `C103_refuted`, `C103_waits`, `C103_returns`

### C104 What the errors of the decoder say — partial

When Decode rejects its input, the text of the error tells what is wrong and where: it names the first byte with which the input cannot be continued to a document any more, or, if the input as a whole could be continued, says that the data ends too early.

*Model:* Bencode, DecodeText. *Specification:* Bencode, DecodeText, Doc, Size. *File:* Props/DecodeText.lean.
*Proof:* `Model/DecodeText.lean` is the decoder with its cursor and the texts; it agrees with `Model/Bencode.lean` (`forget_all`). One induction over it (`fine_all`) tells for every function how it ends: what it took is a part of a document, or no continuation of what it has read up to the cursor is accepted, or what it has read can be continued. What can be continued is defined with the documents of C64 (`Spec/DecodeText.lean`).
*Result:* Proved: the texts belong to exactly the errors of C05's model; the byte that is named is wrong, whatever follows (C104_wrong), and it is the first one that is, unless there is a number of 19 digits or more in front of it that does not fit (C104_first_partial); data that could go on gets one of two texts, and only that data and data that ends with such a number does (C104_end_partial); all others are about a number that is named (C104_number). Refuted, each for all inputs of a kind: data that ends inside a string gets 'caught panic' (C104_refuted_caught); a number that is too long is not what is reported (C104_refuted_first); errors about numbers do not tell where (C104_refuted_where). All capacities of the slice.
*Theorems:* `C104_same`, `C104_wrong`, `C104_first_partial`, `C104_end_partial`, `C104_number`, `C104_refuted_caught`, `C104_refuted_first`, `C104_refuted_where`

### C105 What is said about a torrent file that is refused — partial

When a torrent file is refused, the text of the error is true and tells what is wrong with it: which key of which dictionary is missing or has a value of which other type, or which of the other conditions on the files and hashes is not met; what it quotes from the torrent file is quoted as it is.

*Model:* Bencode, DecodeText, Files, LoadText, Path, Torrent. *Specification:* Bencode, Doc, Info, Layout, LoadOrder, LoadText, Size. *File:* Props/LoadOrder.lean, Props/LoadText.lean.
*Proof:* `Model/LoadText.lean` is `FromTorrentFile` with the errors it returns and their texts, including `fmt.Errorf` without arguments (`directive` is `doPrintf` of Go 1.18) and the verb `%v`; it agrees with `Model/Torrent.lean` (`Agree`). `Spec/LoadText.lean` lists what a torrent file needs. C105_says follows the function from one error to the next; C105_single is the other direction for one fault; the numbers in the last text come from the invariant of the piece map (C24). `Spec/LoadOrder.lean` puts the faults in order (`BadTorrent`); `load_iff` follows the functions one by one, with `bind_err` for the sequence of checks and `counted_iff` for the hashes (on C24).
*Result:* Proved: for sensible numbers (positive piece length, no negative lengths) exactly which text is returned: that about the first fault in a fixed order (C105_exact); for all numbers, exactly which texts there are and that each is true of the torrent file in the sense given in C105_says (a key that is needed is missing or has another type, and which; `pieces` of a wrong length; for how many bytes there are hashes, and how many there should be); a single fault is reported with its key (C105_single); the texts tell the keys apart (C105_tells); what becomes of percent signs in a path, with verbs of any character, bytes that are no characters, and indices in brackets (C105_directives). Refuted: 'missing keys' is said of keys that are there with another type (C105_refuted_missing); which file it is about is not told (C105_refuted_which); a wrong `info` is said to be in the dictionary at 0x0 (C105_refuted_address; GetDict shadows its receiver); a path with a percent sign is not shown as it is (C105_refuted_format). Files that are not a dictionary, or without `length` and `files`, are called a 'tracker error' (C105_unreadable, C105_says).
*Theorems:* `C105_exact`, `C105_same`, `C105_unreadable`, `C105_says`, `C105_single`, `C105_path`, `C105_directives`, `C105_shown`, `C105_tells`, `C105_refuted_missing`, `C105_refuted_which`, `C105_refuted_address`, `C105_refuted_format`

### C106 What is said about an answer of the tracker that is refused — partial

When the tracker cannot be asked or its answer is refused, the text of the error is true and tells what is wrong: the reason that the tracker gives, word for word; which key is missing or has a value of which other type; which element of the list of peers is wrong; what was sent instead of a dictionary; that the server has answered with an error.

*Model:* Bencode, DecodeText, LoadText, MsgText, Peer, Show, TrackText, Tracker. *Specification:* Bencode, Doc, LoadText, Size, TrackText. *File:* Props/TrackText.lean.
*Proof:* `Model/TrackText.lean` is `do` with `newResponse` and the peer lists, with the errors they return and their texts; it agrees with `Model/Tracker.lean` (`Agree`). `Spec/TrackText.lean` defines the faults of an answer in the order in which they count (`Fault`). Every fault makes `newResponse` return its text (`fault_err`), and without a fault there is a response (`nofault_ok`); together this is C106_exact, in both directions.
*Result:* Proved: exactly what is said about a dictionary, and when it is accepted (C106_exact: the text is that of the first fault in the order reason, numbers, peers, and there is no error if there is no fault); the reason of the tracker is passed on as it is, whatever else the answer contains (C106_reason); what is not a dictionary is shown byte by byte and can be read from the text (C106_unreadable); the texts tell which key it is (C106_tells). Refuted: the status of the answer is never looked at, so an error page is reported as bad bencoding (C106_refuted_status), and an answer with a reason that is not a text is taken for a success (C106_refuted_reason); a wrong element of the list of peers is not shown, but those in front of it (C106_refuted_entry); a reason can look like another error (C106_refuted_forged).
*Theorems:* `C106_same`, `C106_exact`, `C106_reason`, `C106_unreadable`, `C106_tells`, `C106_refuted_status`, `C106_refuted_reason`, `C106_refuted_entry`, `C106_refuted_forged`

### C107 What is said about an argument that is refused — proved

A command line is refused before anything is done exactly if there is something wrong with an argument at a place where an option may be: it starts with three dashes or has an equals sign where the name should be; there is no option with its name; its value is missing; or the port is not a number or one of more than 64 bits. Then one line says the first of these things and which option it is, with the value if it is about the value, and the usage follows. The value is shown between quotation marks such that it can be read from there and stays in one line. A port that is too large is told from one that is not a number. Whoever asks for help gets the usage alone and exit status 0. The usage has one entry for each option, with the default that is used.

*Model:* Bencode, DecodeText, Flags, OptsText, Utils. *Specification:* Args, OptsText, Size. *File:* Props/OptsText.lean.
*Proof:* `Model/OptsText.lean` is the command line with what is printed; it agrees with `Model/Flags.lean` (`parse_eq`, `validate_eq`). `Spec/OptsText.lean` says what is wrong with an argument (`Wrong`) and that settings before it are accepted (`Fault`); both directions by induction over the arguments (`fault_to`, `fault_from`). Numbers: `loop_range` by induction over the digits. Quoting: no escape sequence is the beginning of another one, by a check of all pairs of ASCII characters.
*Result:* Proved as stated. C107_same: the model with the texts and the model without them (C75) agree. C107_exact: the line that is printed, exactly. C107_numbers, C107_help, C107_usage, C107_quoted, C107_value: the parts. Package flag is modelled as in Go 1.18; the quoting of texts that are not ASCII is a parameter.
*Theorems:* `C107_same`, `C107_exact`, `C107_numbers`, `C107_help`, `C107_usage`, `C107_quoted`, `C107_value`

### C108 What is said about settings that are refused — partial

If the arguments are well-formed but the settings are not acceptable, the program says the first of these things: no input, no working directory, a command that does not exist (and which), an upload limit or a download limit that is not a size (and which of the two, and what was given).

*Model:* Bencode, DecodeText, Flags, OptsText, Utils. *Specification:* Args, OptsText, Size. *File:* Props/OptsText.lean.
*Proof:* `size_parts` computes `parseSizeUnits` from the sign, the digits and the rest; every text has these parts (`size_split`), so `BadSize` is exact (`badSize_iff`); `validate_error` is the same for `Validate`. The refutations follow from these for all arguments, with concrete command lines as instances.
*Result:* Proved: exactly when Validate refuses a command line and what is said then (C108_exact; C108_sizes for sizes, including characters that are not ASCII). Refuted: a missing working directory is never reported, the text for it is unreachable (C108_refuted_wd, opts.go:64 looks at the input again); it is not said which of the two limits is wrong (C108_refuted_which); nothing of a size that does not start with a digit or a minus sign is shown, the empty string is said to be wrong (C108_refuted_shown); the command is shown as it is, so the message can have several lines and look like another message (C108_refuted_lines).
*Theorems:* `C108_exact`, `C108_validate`, `C108_sizes`, `C108_refuted_wd`, `C108_refuted_which`, `C108_refuted_shown`, `C108_refuted_lines`

### C109 Every line of the log is one entry — partial

Everything that the program writes to its log, from the start and while it serves, is one line for each call, beginning with the date and the time of the call. So a line that begins with a date and a time tells what the program said at that time: neither a peer nor the tracker nor the torrent file can have a line of its own choice written there.

*Model:* Bencode, Bitfield, DS, FS, FileIO, Files, Handshake, Log, MsgHandler, P2P, Path, Peer, PieceTracker, Startup, Swarm, Torrent, Tracker, Url, UrlParse. *Specification:* Avail, Bencode, Bits, Handshake, Info, Layout, Log, Lts, Query, Show, UrlParse. *File:* Props/Log.lean, Props/UrlParse.lean.
*Proof:* `Model/Log.lean` has every call of the package log with its text, and the goroutines of all connections as a transition system that records the log; `Starts` is `NewSwarm` with its log. `project` shows what each entry can contain: the texts of peers are made of ids, addresses and nothing else. C109_safe_partial: a line that begins inside an id of at most 20 bytes has less than 20 bytes in front of ` @ `, and there is no `@` in a date. The refutations are executions for any state of the program; those about the tracker and the torrent file give the bencoded answer and file (`canon_answer`, `canon_torrent`).
*Result:* Proved: if the ids of the peers and the fragment of the announce URL have no line ends, the log is one dated line for each call (C109_lines_partial); ids of up to 20 bytes, like those of everybody who connects, cannot make up a line that begins with a date, except for a line with nothing but `@` and an address behind the date (C109_safe_partial). The rest of the announce URL has no line ends in the log of a start that succeeds (it was parsed). The executions with a log are those without (C109_starts_iff). Refuted: whoever connects can have any line of 18 bytes written (C109_refuted_peer) and a line that begins with any date (C109_refuted_date); the tracker can have any lines written, with any dates (C109_refuted_tracker); so can the torrent file, before the program panics on its URL (C109_refuted_torrent), and also without a panic, in the fragment of a URL that works (C109_refuted_fragment; C109_refuted_fragment_parsed with url.Parse as modelled for C121). Texts of errors from the operating system and of floating point numbers are parameters without line ends.
*Theorems:* `C109_starts_iff`, `C109_lines_partial`, `C109_safe_partial`, `C109_refuted_peer`, `C109_refuted_date`, `C109_refuted_tracker`, `C109_refuted_torrent`, `C109_refuted_fragment`, `C109_refuted_fragment_parsed`

### C110 The log tells what happened — partial

What is logged about one connection is a story in order: how it came about, then for each goroutine that it starts, what it does and that it ends, and at last that the connection is killed and done. What it says is so: a handshake and a bitfield were sent exactly if it says so, every buffer that was received has one line with its length and the number of bytes used, each bitfield registered has one line, each keep-alive message that was written has one line and no other has one, every keep-alive message that could not be written is reported, nothing is sent behind the line that kills a connection, and the end of a connection is reported. The numbers of pieces that are logged at the start are those on the disk.

*Model:* Bencode, Bitfield, DS, FS, FileIO, Files, Handshake, Log, MsgHandler, P2P, Path, Peer, PieceTracker, Startup, Swarm, Torrent, Tracker, Url. *Specification:* Bencode, Bits, Handshake, Layout, Log, Lts, Query, Wire. *File:* Props/LogDone.lean, Props/LogStory.lean.
*Proof:* An invariant for each goroutine of a connection that relates where it is to what it has said (`PingInv`, `RecvInv`, `MainInv`, …, `Lemmas/LogStory.lean`), kept by every step of the connection; `project` splits an execution of the program into one for each connection. The records of what was sent and received (`pings`, `lost`, `got`, `regs`, `hs`, `bf`) are set by the steps that send and receive. The refutations are executions; C110_refuted_lost adds that the state is never left (`unheard_step`), C110_refuted_done that no step says it.
*Result:* Proved: the order of the entries (C110_story); handshakes, bitfields, buffers and registrations (C110_true); keep-alive messages as long as none is lost, and the exact difference when one is (C110_keepalive_partial); the pieces on the disk at the start (C110_start). Refuted: 'sent keep alive' is logged for a message that could not be written (C110_refuted_keepalive); a keep-alive message that fails while reading fails is never reported, and neither is the end of pingLoop (C110_refuted_lost); behind the line that kills a connection keep-alive messages can still be written (C110_refuted_killed); the end of a connection is never reported, as nobody receives from the channel of errors (C110_refuted_done). Each of these lines can come: a buffer gives one line about its bytes and one for each bitfield (C110_buffer), requestLoop says that it ends exactly if all pieces are there (C110_requests), and who sends something else than a handshake is refused, and nothing more is said of them (C110_refuses). A connection that is reported as done was reported before as killed, and both of its goroutines as ended (C110_done).
*Theorems:* `C110_done`, `C110_story`, `C110_true`, `C110_keepalive_partial`, `C110_start`, `C110_refuted_keepalive`, `C110_refuted_lost`, `C110_refuted_done`, `C110_refuted_killed`, `C110_buffer`, `C110_requests`, `C110_refuses`

### C111 What is said about bytes that are no message — partial

When bytes cannot be decoded as a message, the error says what is wrong with them: which of the things that can be wrong it is, with the lengths and the id that were found and those that were required. Different errors have different texts. Errors about all kinds of messages are returned, and whoever handles the bytes gets to know.

*Model:* Bencode, Bitfield, DS, FS, FileIO, Files, MsgErr, MsgHandler, P2P, PieceTracker. *Specification:* Bencode, Bits, MsgErr, Wire. *File:* Props/MsgErr.lean.
*Proof:* `Model/MsgErr.lean` is `Decode` and what it calls with the errors that they return; `decode_plain` says that it is the decoder of `Model/P2P.lean` without the texts. `Spec/MsgErr.lean` lists the faults of bytes (`Fault`) in terms of the length in front and the id. `fault_of` goes through the decoder; for the other direction a fault means that there is no message (`none_of_fault`, by the equations of `Lemmas/P2P.lean`), so there is some error, and the faults exclude each other (`fault_unique`). The texts differ in their first 15 bytes, and the numbers in them can be read back.
*Result:* Proved: the texts belong to the errors of Decode (C111_same); which text is returned and how many bytes are skipped, exactly, for all inputs below 4 GiB (C111_exact); the texts tell the errors apart with all their numbers (C111_tells). Refuted: what is called the payload length is five more than the payload (C111_refuted_payload); the text about a piece message says that four bytes are required whatever is required, and no error about a piece message is ever returned, as the program stops (C111_refuted_piece); nobody is told: DecodeAll drops the error, and handling the bytes succeeds (C111_refuted_ignored).
*Theorems:* `C111_same`, `C111_exact`, `C111_tells`, `C111_refuted_payload`, `C111_refuted_piece`, `C111_refuted_ignored`, `C111_bits`, `C111_piece_short`

### C112 Why a connection is given up — partial

A connection is given up over a message exactly if the message is a bitfield of the wrong size, a request for a piece that does not exist, or a request whose answer cannot be sent; the error says which of these it was, and which piece. Faults of our own files are told from faults of the connection.

*Model:* Bitfield, DS, FS, FileIO, Files, MsgErr, MsgHandler, P2P, PieceTracker. *Specification:* Bits, Changed, Layout, MsgErr, Wire. *File:* Props/MsgErr.lean.
*Proof:* `Model/MsgErr.lean` has the handlers with the texts; `all_plain` says that they are those of `Model/MsgHandler.lean` without. `handleRequestT_spec` gives all cases of a request for a running client, with C26 for the files; `one_error` compares them with `Offends` (`Spec/MsgErr.lean`), `all_error` is the induction over the messages. C112_refuted_eof uses the theorem about files that have been changed by others (`readPiece_any`, C97).
*Result:* Proved: the texts belong to the errors of handleMessage (C112_same); over which messages a connection is given up and with which text, exactly, for all sequences of messages that can be decoded (C112_exact); 'negative index' is never said (C112_not_negative); with files that are not open, exactly which requests end the connection and with which path (C112_not_open). Refuted: the text is the same for all pieces that do not exist (C112_refuted_which); a client that lacks a piece ignores such a request or crashes (C112_refuted_beyond); when our own file is too short, the connection is given up with 'EOF' (C112_refuted_eof). The texts of the operating system are parameters.
*Theorems:* `C112_same`, `C112_exact`, `C112_not_negative`, `C112_refuted_which`, `C112_refuted_beyond`, `C112_refuted_eof`, `C112_not_open`

### C113 What is said about a value that cannot be encoded — partial

When a value cannot be encoded, the error says why: that a string or a key is empty, or of which type a part of the value is that the encoding does not have. It is the first such thing in the order of the document that is complained about, whatever order the maps have their keys in; nothing is said about values that can be encoded. The error says where in the value the fault is.

*Model:* Bencode, EncErr. *Specification:* EncErr. *File:* Props/EncErr.lean.
*Proof:* `Model/EncErr.lean` is the encoder with the errors that it returns; values of unknown types carry the name of the type. `encode_plain` says that it is the encoder of `Model/Bencode.lean` without the texts. `Spec/EncErr.lean` says by rules which values are fine (`Fine`) and which complaint belongs to a value (`Fault`): an empty key comes first, then the value of the least key that is not fine, then the elements of a list in order. `fault_of` and `of_fault` are inductions on the value; sorting keeps the entries and puts the least first. C113_order is an induction on the derivation of the complaint.
*Result:* Proved: the texts belong to the errors of Encode, and the same bytes come with them (C113_same); which text is returned, exactly: that about the first fault in the order of the document (C113_exact); it does not depend on the order of maps (C113_order). Refuted: it is not said where in the value the fault is (C113_refuted_where). The text about a panic inside the encoder (encode.go:26) is not modelled: nothing there panics.
*Theorems:* `C113_same`, `C113_exact`, `C113_order`, `C113_refuted_where`

### C114 What comes with an error of the encoder is no document — proved

The bytes that Encode returns with an error are a proper beginning of a document: they are refused by the decoder, whatever is behind them in memory, and neither are nor begin with the encoding of any value. So a caller that throws the error away, as the computation of the info-hash does, does not take the value for another one that can be encoded.

*Model:* Bencode. *Specification:* Bencode. *File:* Props/EncErr.lean.
*Proof:* `repair` replaces everything that cannot be encoded by something that can, of a kind that begins as what was written so far; `repair_ext` shows by induction that the encoding of the repaired value extends what was written, properly if there was an error. The rest is C07 (truncated documents are refused, for any spare capacity) and C04 (no encoding is the beginning of another).
*Result:* Proved for all values: what comes with an error is a proper beginning of a document (C114_beginning), is refused by Decode for any spare capacity (C114_refused; strings shorter than 2^63 bytes), and neither is nor begins with an encoding (C114_no_document).
*Theorems:* `C114_beginning`, `C114_refused`, `C114_no_document`

### C115 Why a piece is not written — partial

WritePiece refuses a piece exactly if there is no such piece, if the data does not have the hash of the piece, or if one of the files of the piece is not open. The error says which of these it is, which piece and which file. Nothing has been written when an error is returned.

*Model:* Bencode, FS, FileIO, Files, WriteErr. *Specification:* Bencode, Layout. *File:* Props/WriteErr.lean.
*Proof:* `Model/WriteErr.lean` is `WritePiece` with the errors that it returns; `plain_eq` says that it is the function of `Model/FileIO.lean` without the texts. `Refused` lists the reasons in terms of the index, the data and the recorded hashes only. The cases of wrong indices and hashes follow from the definition, that of the right hash from C62 (no error is returned then). C115_not_open is an induction over the ranges of the piece, which C23 describes.
*Result:* Proved: the texts belong to the errors of WritePiece (C115_same); with all files open, an error with its text is returned exactly if the index does not exist or the hash is wrong, and nothing has been written (C115_exact); with files that are not open, exactly if a range of the piece is in such a file, with the path of the first (C115_not_open); the error of PieceInfo has the index (C115_piece_info). Refuted: the text does not say which piece (C115_refuted_which); if a file is not open, earlier parts of the piece have been written when the error is returned (C115_refuted_part). The texts of the operating system are a parameter.
*Theorems:* `C115_same`, `C115_exact`, `C115_not_open`, `C115_refuted_part`, `C115_refuted_which`, `C115_piece_info`

### C116 Reading a document takes work in proportion to its length — partial

The work of Decode (bytes looked at, copied or hashed) is at most a constant times the length of what it is given.

*Model:* Bencode, Work. *Specification:* Bencode, Doc, Size, Work. *File:* Props/Work.lean.
*Proof:* `Model/Work.lean` is the decoder of `Model/Bencode.lean` with a counter; the loops over digits are written out as in the code, with the copy that every `+=` of a Go string makes. `all_fst` shows by induction on the fuel that the results are the same. `Spec/Work.lean` assigns the work to a document by rules (mutual inductive `Costs`); `value_costs` is a mutual induction over the rules, `accepted_costs` uses C64 (what is accepted is a document). `all_le` bounds the work for arbitrary bytes by an induction on the fuel: every byte that is consumed pays for at most M + 6, where M is the length of the data.
*Result:* Refuted: the digits of a length are put together with `strLen += string(...)`, and leading zeros are accepted, so there are accepted documents of n + 3 bytes for which more than n²/2 bytes are copied, and no constant is enough (C116_refuted_square, C116_refuted). Proved: the counting decoder has the results of the decoder (C116_same); the exact work for every accepted document, read off the document (C116_exact, C116_every); in proportion to the length, with the factor m + 4 if no numeral has more than m digits (C116_linear_partial); at most 23 for every byte of a canonical document (C116_canonical_partial); for arbitrary bytes at most (n + 6)·n and twice the spare capacity (C116_square). Allocation and strconv are not counted.
*Theorems:* `C116_same`, `C116_exact`, `C116_every`, `C116_linear_partial`, `C116_canonical_partial`, `C116_square`, `C116_refuted_square`, `C116_refuted`

### C117 Answering a request reads no more from the files than is asked for — partial

To handle the messages of a peer the client reads from its files at most the bytes that the requests ask for.

*Model:* Bitfield, DS, FS, FileIO, Files, MsgHandler, P2P, PieceTracker, ReadWork. *Specification:* Bits, Layout, Wire. *File:* Props/ReadWork.lean.
*Proof:* `Model/ReadWork.lean` is the message handler of `Model/MsgHandler.lean` with a counter of the bytes that `ReadAt` delivers. The bound for arbitrary bytes follows from the checks of the slice bounds in `ReadPiece` (every range is in the buffer, one behind the other) and from C15 (the wire forms of the messages are in the data; a request has 17 bytes). The exact number is that returned by `ReadPiece` (C26).
*Result:* Refuted for every torrent: k requests for no bytes at all of a piece we have are answered, and the whole piece is read k times (C117_refuted). Exact: a request for a piece we have takes reading the piece, any other nothing (C117_exact), messages take the sum of this (C117_total). For arbitrary bytes, files and bitfields: only requests make the client read (C117_per_request), and for every 17 bytes received not more than the buffer of one piece (C117_message). C117_same: the handler that counts does what the handler does.
*Theorems:* `C117_same`, `C117_per_request`, `C117_message`, `C117_exact`, `C117_total`, `C117_refuted`

### C118 A connection on which nothing happens comes to rest — partial

If no message arrives, nothing fails and no keep-alive is due, the goroutines of a connection do nothing more after finitely many steps.

*Model:* PeerLoop. *Specification:* Rest. *File:* Props/Rest.lean.
*Proof:* On the model of C57. `Spec/Rest.lean` counts in an execution the steps of the loop of `requestLoop` and all others; `left` is a measure that every other step makes smaller and that the loop leaves alone.
*Result:* Refuted: while a piece is missing requestLoop goes round without waiting for anything, from every state in which it has started, also after the connection was lost (C118_refuted); it stops only if the torrent is complete or in making requests, which does not end (C118_refuted_stop). What holds: apart from that, a connection does at most eleven things, which is the exact bound (C118_few_partial), and once the torrent is complete the loop takes at most one more step (C118_complete_partial). Exactly: what is left to do is bounded precisely if every piece is there, or requestLoop is stuck in making requests or has ended (C118_iff_partial). Messages handled and keep-alives sent are no steps of this model.
*Theorems:* `C118_few_partial`, `C118_complete_partial`, `C118_refuted`, `C118_refuted_stop`, `C118_iff_partial`

### C119 Only metadata with sensible numbers is served — partial

NewSwarm succeeds only for torrents with a positive piece length, file lengths that are not negative and a hash for every piece. Metadata with other numbers ends start-up with an error and leaves all files alone.

*Model:* Bencode, Bitfield, DS, FS, FileIO, Files, MsgHandler, Path, Peer, PieceTracker, Startup, Swarm, Torrent, Tracker, Url. *Specification:* Bencode, Bits, Layout. *File:* Props/Served.lean.
*Proof:* C28 says that a file with a negative length is never opened, `Validate` panics for a negative piece length, and C24 gives the number of hashes for what is left.
*Result:* First sentence proved for every failure of system calls (C119_started; the only exception is piece length zero without any file), and with it most of what C71, C72, C83 and others assume follows from the start-up itself (C119_sensible). Second sentence refuted: three bytes in pieces of minus five are accepted, the file is cut to three bytes, then the program panics (C119_refuted_cut). What happens with a negative piece length and with a negative file length, exactly: C119_piece_length, C119_file_length, C119_never. (Exact arithmetic, see C73.)
*Theorems:* `C119_started`, `C119_sensible`, `C119_piece_length`, `C119_file_length`, `C119_never`, `C119_refuted_cut`

### C120 Peers that the tracker names in text are found — partial

The address of a peer that the tracker gives as text is understood exactly if it is written as an IPv4 or IPv6 address, no text is understood as two addresses, the text that the program makes of an address is understood as that address again, and the peer is contacted at the address or host that the text names.

*Model:* Bencode, Dial, Handshake, NetIP, Peer, Tracker. *Specification:* Bencode, Info, NetIP. *File:* Props/NetIP.lean.
*Proof:* `Model/NetIP.lean` follows `parseIPv4`, `parseIPv6`, `dtoi`, `xtoi`, `appendHex` and `IP.String` of Go 1.18. `Spec/NetIP.lean` is a grammar of texts with their bytes (`Names`) and the rules for the text of an address (`Shown`), neither of which mentions the model. Parsing: the loop over the groups is shown to accept a text with groups to the left and right of the two colons and nothing else (`loop_tail`, `loop_gap`, `loop_some`, `loop_none`). Text: `longest_best` is the invariant of the search for the longest sequence of zeros; `Shown` determines the text, and every text that is `Shown` is in the grammar, which gives the round trip.
*Result:* All but the last part proved, with `net.ParseIP` and `net.IP.String` (Go 1.18) as part of the model: exactly which texts are understood and as what (C120_parse, C120_nil, C120_unambiguous, against a grammar of RFC 4291 texts and dotted quads), exactly which text an address gets (C120_text, the rules of RFC 5952), and that it is understood again (C120_roundtrip, C120_injective). The last part is exact too: C120_list. It is refuted for IPv6 addresses and host names, which BEP 3 allows: the former are never dialled, instead of the latter the host `<nil>` is looked up (C120_refuted_others). Slices of other lengths than 0, 4 and 16 are shown with a question mark and hexadecimal digits, which no address is (C120_other).
*Theorems:* `C120_parse`, `C120_nil`, `C120_unambiguous`, `C120_text`, `C120_roundtrip`, `C120_injective`, `C120_other`, `C120_dial`, `C120_list`, `C120_refuted_others`

### C121 The announcement goes where the torrent file says — partial

A text is accepted as announce URL exactly if it is a URL, and then it means one thing only; the announcement is sent to the host and for the path that the URL names, if it names an http or https tracker, and nowhere otherwise, and the parameters in the URL reach the tracker together with those of the client.

*Model:* Bencode, Peer, Torrent, Tracker, Url, UrlParse. *Specification:* Bencode, Query, UrlParse. *File:* Props/UrlParse.lean.
*Proof:* `Model/UrlParse.lean` follows `url.Parse` of Go 1.18 function by function (`getScheme`, `parse`, `parseAuthority`, `parseHost`, `unescape`, `setPath`, `setFragment`), `URL.Query`, `URL.RequestURI` and the checks of `Client.do` and `Transport.roundTrip` that concern the URL. `Spec/UrlParse.lean` is a grammar (`Means raw parts fragment`) built from `Decodes`, a relation between texts with escapes and bytes; it does not mention the model. `Lemmas/UrlParse.lean` has the cutting at characters and `unescape`; `Lemmas/UrlRef.lean` shows `parseHost_iff`, `parseAuthority_iff`, `parse_iff`, one for each part of the grammar. C121_sent follows from the grammar: a URL with a host has a path that is empty or begins with a slash, and `escapePath` of a path decodes to that path.
*Result:* Proved, with `url.Parse`, `URL.Query` and the part of the HTTP client that decides where a request goes (Go 1.18) as part of the model: which texts are URLs and what they mean, exactly (C121_parse, against a grammar), and that they mean one thing (C121_unambiguous); which parameters are found in a query, exactly (C121_params); where the announcement is sent and with which path, exactly (C121_sent), and that other URLs, udp:// for example, end in an error without anything being sent (C121_refused). Refuted is the last part: parameters with a semicolon or with a percent sign that is no escape are dropped silently (C121_refuted_dropped); without these all parameters reach the tracker (C121_kept_partial). Redirections are the subject of C124. Proxies, the Host and Authorization headers, and the resolution of names are not modelled.
*Theorems:* `C121_parse`, `C121_unambiguous`, `C121_params`, `C121_kept_partial`, `C121_sent`, `C121_refused`, `C121_refuted_dropped`

### C122 Handling what a peer sends takes work in proportion to its size — partial

Apart from what is read from the disk to answer requests, the work that the client does for the bytes a peer sends is bounded by a constant times their number, whatever the bytes, the torrent and the state of the swarm; and choosing the next piece to ask a peer for takes at most one look at each piece that some peer has offered.

*Model:* Bitfield, DS, FS, FileIO, Files, MsgHandler, P2P, PeerWork, PieceTracker, Work. *Specification:* Avail, Bits, Wire. *File:* Props/PeerWork.lean.
*Proof:* `Model/PeerWork.lean` is `DecodeAll`, `handleMessage` and `NextPiece` with a counter (calls, bytes copied and looked at, bits tested, pieces looked up, nodes visited). One call of `Decode` costs at most ten times the bytes it uses up, or uses up nothing, and then the loop never ends; so the costs of the calls add up to ten times the length. A bitfield weighs its bytes: counting its bits twice, testing them and registering pieces is 24 times that. For `NextPiece` the invariant of the tracker (C46) says that the buckets 1 to 63 together contain each offered piece once.
*Result:* Refuted by the empty bitfield: five bytes are enough for any amount of work (C122_refuted_empty_bitfield; C14 says for exactly which buffers this happens). For all other buffers taking them apart costs at most 10 times their length (C122_apart_partial) and handling them, in any state, at most 34 times (C122_handle_partial, C122_no_empty_bitfield_partial). NextPiece looks at each piece that some peer has offered at most once, and at all of them if it finds nothing (C122_next). C122_same, C122_same_next: the functions that count do what the functions do. C122_handled is exact for complete messages that are all handled.
*Theorems:* `C122_same`, `C122_same_next`, `C122_apart_partial`, `C122_refuted_empty_bitfield`, `C122_prices`, `C122_handle_partial`, `C122_no_empty_bitfield_partial`, `C122_register`, `C122_handled`, `C122_next`

### C123 Files that cannot be opened — partial

If the files of a torrent cannot all be opened, because the process has too few file descriptors or because some of the files must not be opened, OCATAll returns an error and no file loses data that belongs to the torrent; and it succeeds if and only if there are enough descriptors and no file is forbidden.

*Model:* Descriptors, FS, FileIO, Files. *Specification:* in the statement. *File:* Props/Descriptors.lean.
*Proof:* `Model/Descriptors.lean` runs the same programs (`Model/FS.lean`) on a system with a limit of descriptors, forbidden files and garbage handles; an open fails if the limit is reached or the file is forbidden (or, in the faulty mode, without reason). Without garbage both attempts of `OCAT` to open a file have the same fate (`ocat_cases`), so the attempt that empties the file succeeds only when the file was missing. The theorems about lists are inductions with this. The witness for repeated paths is built step by step with the `gc` rule between the two attempts.
*Result:* True for files with different paths: C123_kept_partial (no data is lost and other files are not touched, with any faults and crashes), C123_exact_partial (without other faults: the files in front of the first that cannot be opened are prepared and open, the others as they were, and the result is an error unless all were opened), C123_iff_partial (success iff enough descriptors and nothing forbidden). Refuted for torrents that name a file twice: C123_refuted_duplicates – the first handle becomes garbage, opening the next file fails for want of a descriptor, the collector closes the garbage, and the second attempt empties the file; start-up succeeds with zeros in place of the data. C123_same: the runs are runs of the file system model of C28. Missing from the partial theorems: torrents with repeated paths.
*Theorems:* `C123_same`, `C123_kept_partial`, `C123_exact_partial`, `C123_iff_partial`, `C123_refuted_duplicates`

### C124 Redirections of the tracker — partial

If the tracker redirects an announcement, the client follows at most nine redirections, each to the URL that RFC 3986 gives for the Location relative to the request before it, and takes the body of the last answer for the tracker's response; otherwise it reports an error. The announcement goes to the host that the torrent names, with its parameters.

*Model:* Bencode, Redirect, Tracker, Url, UrlParse. *Specification:* Query, Redirect, UrlParse. *File:* Props/Redirect.lean.
*Proof:* `Model/Redirect.lean` follows `Client.do`, `redirectBehavior`, `URL.ResolveReference` and `resolvePath` of Go 1.18. `Spec/Redirect.lean` is RFC 3986, 5.2: `Dots` has the rules of `remove_dot_segments` one by one, with the output buffer, and `Next` says which request follows. `loop_dots` relates the loop of `resolvePath` to `Dots` by an invariant between what Go has written and the output buffer of the RFC, for paths without empty segments; `clean_walked` gives its result for all paths, as a walk over the segments; `next_spec` and `next_stop` are one redirection, `run_chain` is the induction over the requests.
*Result:* Proved, with the redirections of the HTTP client (Go 1.18, default policy) as part of the model: at most ten requests; the first is that of C121; each other one follows from an answer to the one before with status 301, 302, 303, 307 or 308 and a location, and goes to the host and path that RFC 3986 (5.2.2-5.2.4, as rules in Spec/Redirect.lean; dots_unique says that they give one result) says; the result is the body of the last answer, and there is none exactly for the reasons listed (C124_followed_partial, against the structure Chain). Without redirections it is the result of C121 (C124_plain). Paths with empty segments are characterised exactly as well, by what Go does segment by segment (`walked` in the spec). Partial: for them the RFC's path is not proved, because Go's result is another (C124_refuted_segments). Refuted is the last part: a tracker can send the client to any other host, away from TLS, without the parameters, and the answer of that host counts (C124_refuted_elsewhere). Headers, cookies and proxies are not modelled.
*Theorems:* `C124_followed_partial`, `C124_plain`, `C124_refuted_segments`, `C124_refuted_elsewhere`

### C125 Symbolic links — partial

If names on the way to the files of a torrent are symbolic links, preparing the files changes nothing outside of the working directory, as long as the names in the metadata do not lead out of it, and every file is prepared as without links: the recorded length, and the old contents.

*Model:* Bencode, FS, FileIO, Files, Links, Path, Torrent. *Specification:* Dirs, Info, Links. *File:* Props/Links.lean, Props/LinksChain.lean.
*Proof:* `Model/Links.lean`: a tree maps places (lists of names) to directories, files and links; `follow` is path_resolution(7), by recursion over the links that may still be followed and the names; `LinkExec` runs the programs of `Model/FS.lean` on trees. `way_induct` is the induction along a successful resolution. Executions only let trees grow (`exec_grows`), and resolution is monotone (`follow_mono`). For the working directory: `filepath.Clean` of a joined path keeps the elements of the working directory in front (`cleanElems_join`, `cleanLoop_stays`), and names without links lead below (`follow_names`). For C28: with different places the contents seen at the paths change like a map from paths (`exec_flat`), and files that are there are found before any directory is made, if `..` is only in front (`follow_settled`).
*Result:* Refuted: with a link below the working directory the files elsewhere that it leads to are cut off or extended (C125_refuted_outside), and if two of the paths lead to the same place, preparing the second destroys the first, without an error (C125_refuted_shared). Proved, with the resolution of paths of Linux (links to files and directories, relative and absolute, chains of up to 40, `..` behind links) as part of the model, for all failures and crashes: nothing is deleted, links are never changed or made, and a place that has changed is a new directory on the way to a file of the torrent or the file that its path leads to (C125_only); what a path leads to never changes (C125_stable); everything that has changed is below the working directory if there are no links below it and the names of the torrent stay there, even if the working directory is itself behind links (C125_inside_partial); if the paths lead to different places and the targets of links have `..` only in front, the execution is one of those on plain paths to which C28 and C29 apply (C125_same_partial), so that each file has the recorded length and its old contents (C125_prepared_partial); without links paths lead where C34 says (C125_no_links). A chain of n links in one directory leads to what the last of them names if n is at most 40, and otherwise nowhere (C125_chain, C125_loop).
*Theorems:* `C125_only`, `C125_stable`, `C125_no_links`, `C125_inside_partial`, `C125_same_partial`, `C125_prepared_partial`, `C125_refuted_outside`, `C125_refuted_shared`, `C125_chain`, `C125_loop`

### C126 Only whole answers of the tracker are taken — partial

An answer of the tracker is taken only if its status says that the request succeeded and its whole body has arrived; what is taken does not depend on how the body is sent (with its length, in chunks, or up to the end of the connection) or on what follows it; and the client comes to an end whatever the tracker does.

*Model:* Bencode, Body, Peer, Tracker, UrlParse. *Specification:* Bencode, Body, Info. *File:* Props/Body.lean.
*Proof:* `Model/Body.lean`: the readers of `net/http` for the three ways of sending a body, as functions of what the connection brings and how it ends. The spec (`Spec/Body.lean`) says how bodies are sent, with relations (`Hex`, `SizeLine`, `Trailer`, `Chunked`); `chunkSize_iff`, `readTrailer_iff`, `readChunks_sound` and `readChunks_complete` show that exactly these are accepted, `chunks_short` that a proper part is never accepted. C126_cut then uses C08.
*Result:* Refuted: the client never looks at the status, an answer with status 404 or 500 is taken like any other (C126_refuted_status), and if the tracker falls silent in the middle of its answer the client waits for ever, as it has no time limit (C126_refuted_silent). Proved: an answer that arrives whole is taken as the body that was sent, whichever way it is sent and whatever follows it (C126_arrives); exactly which bytes are taken for which body (C126_body_iff, C126_close_iff); a part of a body that is sent with its length or in chunks is an error when the connection ends (C126_incomplete); in all cases, what is taken of an answer that is cut off is what would have been taken of the whole (C126_cut), as a part of a bencoded dictionary is no dictionary; unless the connection is silent there is always an end (C126_waits). The readers of `net/http` of Go 1.18 are part of the model; the head of the answer, compression and HTTP/2 are not.
*Theorems:* `C126_body_iff`, `C126_close_iff`, `C126_incomplete`, `C126_arrives`, `C126_head`, `C126_cut`, `C126_refuted_status`, `C126_no_body`, `C126_refuted_silent`, `C126_waits`

### C127 Closing files while pieces are read and written — proved

Close and CloseAll can be called while other goroutines read and write pieces: there is no deadlock and every call returns; once a file is closed no call under way changes it, and no call that begins later gets data through it; a read that succeeds and what is on disk in the end are, file by file, the data of the beginning or of one of the writes; a call for an existing piece fails only if one of the files of the piece was closed, and of several Close calls for a file only one succeeds.

*Model:* FS, FileClose, FileConc, FileIO, Files. *Specification:* Layout, Lts. *File:* Props/FileClose.lean.
*Proof:* `Model/FileClose.lean` adds to the goroutines of `Model/FileConc.lean` those of `Close` and `CloseAll`, with the locks and the flag of a closed file. `CInv` extends the invariant about the locks; a measure and `CInv.progress` give termination. `Sim`: as long as a goroutine has transferred nothing of a file it might as well not have taken the lock, so every execution has the files and the successful calls of one without closed files, in which the calls that met a closed file wait at this file; this carries over the theorems of C74. `KInv` says which goroutine has closed which file.
*Result:* C127_half_written: the property does not say that a failed write changes nothing, and it would be false. C127_all_return (no deadlock), C127_closed (a closed file stays closed and is not changed), C127_refused (nothing succeeds through a file that was closed before), C127_reads, C127_disk and C127_written (the data, file by file), C127_results (for an existing piece only a closed file of this piece makes an error), C127_close_result and C127_once (the results of Close and CloseAll).
*Theorems:* `C127_all_return`, `C127_closed`, `C127_reads`, `C127_disk`, `C127_written`, `C127_results`, `C127_refused`, `C127_close_result`, `C127_once`, `C127_half_written`

### C128 Files changed while they are read and written — proved

Other programs do not know the client's locks. Whatever they do to the contents of the files while pieces are read and written: every call returns, nothing crashes; a successful read delivers bytes each of which was in its place in the files at some moment during the call, in order, and a successful write has put each byte in its place at some moment during the call, in order; and a call for an existing piece (and data with the right hash) fails only if a system call failed or a file was unusable or, for reads, too short.

*Model:* FS, FileConc, FileEnv, FileIO, Files. *Specification:* Layout, Lts. *File:* Props/FileEnv.lean.
*Proof:* `Model/FileEnv.lean` adds to the goroutines of `Model/FileConc.lean` steps of other programs that replace the files, and records all states of the files. `eff` says what a step of a goroutine does without any assumption about the files; `RInv` and `WInv` assign a moment to each byte transferred so far, in order. The invariant about the locks and the measure of C74 do not mention the files, which gives progress and the bound on the steps.
*Result:* C128_read and C128_write (each byte was in its place at some moment after the call began, and the moments come in the order of the bytes), C128_results (no panic; errors have a reason), C128_return (bounded number of steps, somebody can always go on, so every fair schedule ends). C128_torn: more cannot be said, for all bytes a mixture can be delivered that never was in the files. Whether others remove a file is not modelled (the client reads through its open handles).
*Theorems:* `C128_read`, `C128_write`, `C128_results`, `C128_return`, `C128_torn`

### C129 A whole announcement, from the URL to the response — partial

Announcing makes at most ten requests: the first to the announce URL of the torrent with the parameters of the announcement, each other one where the answer before redirects it. It brings a response exactly if the last request is answered by a whole answer that does not redirect and whose body is a valid response; it does not crash; and it comes to an end, unless the tracker leaves an answer unfinished that the client needs.

*Model:* Announce, Bencode, Body, Peer, Redirect, Torrent, Tracker, Url, UrlParse. *Specification:* Bencode, Body, Info, Query, Redirect, UrlParse. *File:* Props/Announce.lean.
*Proof:* `Model/Announce.lean` composes `newRequest`, the redirections of `Model/Redirect.lean` and the connections of `Model/Body.lean` to one function from the announce URL and what each connection brings to the requests and the result of `Get`. `run_last` (induction over the requests) says how the last reply decides; `run_seen` relates the run to that of C124, for the network with the bodies cut out (`Seen`); the rest follows from C121, C124 and C126.
*Result:* C129_requests (at most ten, each caused by a redirection as RFC 3986 says, the first that of C121), C129_response_iff (exactly when there is a response), C129_panic_iff (exactly for announce URLs that are none, see C65), C129_waits (the only ways not to come to an end), C129_same (otherwise requests and result are those of C124 and of the model of Get in the rest of the properties). Refuted for the end: C129_refuted_silent, among others a redirection of at most 2048 bytes whose end does not come makes the client wait for ever, although it does not need it. Announce URLs that are no URLs make it panic (C129_panic_iff).
*Theorems:* `C129_requests`, `C129_response_iff`, `C129_panic_iff`, `C129_waits`, `C129_refuted_silent`, `C129_same`

## 4. Trusted base

* The kernel of Lean 4.33.0.
* The axioms below, found with `collectAxioms` (what `#print axioms` prints).  No theorem depends on any other axiom; there are no own axioms, no `sorry`,
  no `native_decide`, no `bv_decide`.  Mathlib is not imported.
* The faithfulness of the model to the source text.  The code was read, never run.
* The stated semantics of the Go standard library functions that are modelled: `strconv.Atoi/ParseInt`, `sort.Strings`, `fmt` of integers,
  `strings.Split/ToUpper`, `filepath.Join/Clean`, `url.QueryEscape`, `url.Values.Encode`, `encoding/binary`, `os.File`, `net.IP`.

**no axioms** (4 theorems): C56_by_itself_partial, C87_noticed_partial, C103_waits, C103_returns.

**`propext`** (27 theorems): C10_refuted_request, C27_only_torrent_files, C30_refuted_zero, C50_remove_empty, C56_refuted_deadlock, C56_told_partial, C56_refuted_leak, C57_refuted_never_returns, C57_refuted_request, C57_refuted_two_errors, C57_refuted_finish, C57_refuted_quiet, C57_refuted_wait, C57_wait_partial, C57_recv_error_partial, C57_ping_error_partial, C57_ends_iff_partial, C57_ends_seed_iff_partial, C69_refuted_choke, C80_refuted_over, C80_refuted_lost, C80_refuted_memory, C90_written, C118_refuted, C118_refuted_stop, C123_same, C126_close_iff.

**`Quot.sound`, `propext`** (62 theorems): C08_suffix_ignored, C10_exact_partial, C10_encode_wire_partial, C11_refuted_empty_bitfield, C13_refuted_length_overflow, C13_refuted_piece, C18_refuted_padding_set, C18_refuted_setNbits, C19_refuted_padding_readable, C20_sender, C21_positions, C21_empty_files, C23_out_of_range, C28_negative, C48_refuted_again, C48_refuted_two_peers, C54_refuted_waiting, C54_takes_effect_partial, C55_refuted_with_error, C59_bad_size, C63_remove_swap, C66_error_ends, C67_refuted_ignored, C69_refuted_initial, C69_uninterested_partial, C69_refuted_frozen, C77_moves_invisible, C77_move, C77_refuted_move_again, C77_refuted_target_lost, C77_close_ok, C77_closeAll_partial, C77_refuted_leak, C77_pieces, C80_complete_partial, C80_refuted_leak, C80_given_back_partial, C81_refuted_window, C87_sent_partial, C87_harmless_partial, C89_head_harmless_partial, C89_race_free_partial, C89_room_partial, C91_buffer_partial, C92_released, C92_one_holder, C92_waiting, C92_write_partial, C112_same, C113_same, C115_same, C116_same, C117_same, C118_few_partial, C118_complete_partial, C118_iff_partial, C122_same, C122_same_next, C122_register, C127_closed, C127_close_result, C127_once.

**`Classical.choice`, `Quot.sound`, `propext`** (606 theorems): C01_roundtrip_partial, C01_roundtrip_iff, C01_refuted_minInt64, C01_encode_succeeds_iff, C02_canonical_reencode, C03_map_order_irrelevant, C03_keys_sorted, C04_unambiguous, C05_decode_total, C05_strings_from_input, C06_refuted_string, C06_visible_bytes_only_partial, C06_deviation_only_for_strings, C06_iff_partial, C07_truncation_rejected_partial, C07_truncation_rejected_any_capacity, C07_refuted_resliced_string, C07_iff_partial, C08_suffix_ignored_any_capacity, C09_getString, C09_getInt, C09_getDict, C09_getList, C09_getUint_partial, C09_refuted_getUint, C09_last_duplicate_wins, C09_getUint_exact_partial, C11_iff_partial, C11_roundtrip_partial, C11_encode_decode_partial, C11_refuted_piece, C11_piece_payload, C12_iff_partial, C12_stream_partial, C12_refuted_piece, C13_buffer_panics_iff, C13_panic_iff, C13_no_panic_partial, C14_loops_iff, C14_finishes_partial, C14_refuted_empty_bitfield, C15_decode_read_exact, C15_decodeAll_read_exact, C16_iff_partial, C16_boundary_chunks_partial, C16_refuted_every_cut, C17_bit_map, C17_bit_map_received, C18_counter_exact_partial, C18_setNbits, C19_fromBytes_accepts_iff, C19_msb_first, C19_out_of_range_panics_partial, C20_iff_partial, C20_exchange_partial, C20_refuted_no_pieces, C22_get_files, C23_piece_map, C23_in_order, C24_accept_iff_partial, C24_panic_iff_partial, C24_refuted_extra_hash, C24_refuted_negative_length, C24_refuted_panics, C24_fields, C24_single, C24_single_panic, C25_last_piece, C25_count, C25_piece_hash, C26_read, C26_write, C26_array, C26_prepared, C27_no_bad_data, C28_exact_partial, C28_ocat_partial, C28_can_succeed, C28_idempotent, C28_refuted_open_failure, C29_crash_recovery, C29_crash_recovery_all, C30_succeeds_partial, C30_only_right_hashes_partial, C30_refuted_large_pieces, C30_iff_partial, C31_validate, C31_startup, C31_created, C31_created_startup, C32_iff_canonical_partial, C32_canonical_partial, C32_refuted_noncanonical, C32_refuted_collision, C33_single, C33_multi_partial, C33_same_infohash_partial, C33_refuted_one_file, C33_refuted_private, C33_refuted_slash, C33_exact, C33_infohash_exact, C33_refuted_keys, C34_iff_partial, C34_location, C34_inside_partial, C34_no_dotdot_partial, C34_refuted_dotdot, C34_refuted_empty_wd, C35_terminates, C35_panic_iff_partial, C35_no_panic_partial, C35_refuted_empty_path, C35_refuted_too_few_hashes, C35_refuted_zero_piece_length, C35_single, C36_accept_iff, C36_peers, C36_roundtrip, C37_failure, C37_accept_iff, C37_state_partial, C37_peers_partial, C37_no_panic, C37_refuted_negative, C37_refuted_port, C38_recovered_partial, C38_peer_id_iff_partial, C38_sent_partial, C38_numbers, C38_own_ids, C38_refuted_peer_id, C38_refuted_clash, C39_sums, C40_valid_iff, C40_any_length, C40_made, C41_accept_iff_partial, C41_full_read_partial, C41_answer, C41_refuted_short, C41_refuted_incomplete, C41_short_first_segment, C42_first_buffer, C42_refuted_inside, C42_refuted_crash, C42_own_segment_partial, C42_sends, C42_refuted_lost, C42_refuted_no_handshake, C43_served_exact_partial, C43_served_partial, C43_answered, C43_refuted_stale, C44_panic_iff_partial, C44_no_panic_partial, C44_refuted_index, C44_refuted_length, C45_iff_partial, C45_wrong_size, C45_right_size_partial, C45_first_partial, C45_refuted_second, C46_panic_iff_partial, C46_filed, C46_few_peers_partial, C46_refuted_64_peers, C47_rarest, C48_noted_partial, C49_unregister, C50_sequence, C51_set, C51_items_partial, C51_refuted_items, C51_iff_partial, C52_iff_partial, C52_refuted_never_ends, C52_refuted_all_pieces, C52_refuted_memory, C52_empty_partial, C53_window, C54_refuted_zero, C54_refuted_lifted, C54_effect_iff, C54_total, C55_intact, C55_once, C55_no_read, C55_not_empty, C55_ready, C56_exact_partial, C58_parse_partial, C58_exact_partial, C58_reject, C58_refuted_overflow, C59_segments, C59_pieces, C60_peer_id, C60_terminates, C60_source_matters, C61_key_six, C61_key_injective, C61_others_kept, C62_refuted_other_size, C62_exact_partial, C62_refused_iff_partial, C64_sound, C64_complete, C64_accepts_iff, C64_unambiguous, C64_values, C65_panic_iff_partial, C65_refuted_bad_url, C65_exact_partial, C65_refuted_texts, C66_any_partial, C66_any_outgoing_partial, C66_refuted_split, C66_exact, C66_exact_outgoing, C66_unique, C66_sent, C66_sent_outgoing, C66_seeding_partial, C66_outgoing_partial, C66_registered_partial, C67_refuted_crash, C68_iff_partial, C68_without_have_partial, C68_refuted_have, C68_refuted_gone, C70_saves_iff, C70_roundtrip, C70_created_iff_partial, C70_refuted_renamed, C71_started, C71_starts, C71_rejected, C71_in_order, C71_announced, C71_refuted_left, C71_left_iff, C72_end_to_end_partial, C72_refuted_renamed, C72_single, C72_single_iff, C73_exact_partial, C73_consistent_partial, C73_refuted_overflow, C74_bytes, C74_written, C74_stable, C74_all_return, C74_results, C74_no_panic, C74_alone_read, C74_alone_write, C74_reads_iff, C74_torn, C74_parts, C74_whole_partial, C74_refuted_torn, C75_number, C75_swarm_partial, C75_info_partial, C75_otherwise, C75_refuted_wd, C75_refuted_port, C75_refuted_octal, C75_refuted_ignored, C76_asked, C76_served_partial, C76_next_partial, C76_only, C76_registered, C76_no_crash_partial, C76_refuted_crash, C76_next_exact, C76_receive, C76_over, C76_crash, C77_closeAll_iff_partial, C77_close, C77_refuted_closeAll, C77_start, C77_ocat, C77_survives_moves, C78_number, C78_exact_partial, C78_refuted_rounding, C78_refuted_negative, C78_ties, C78_lines, C78_refuted_1024, C79_ipv4, C79_contacted, C79_dialable_iff, C79_refuted_ipv6, C79_refuted_nil, C79_compact_partial, C79_dotted_injective, C79_with_brackets, C80_refuted_limit, C80_refuted_one_by_one, C81_buffers_partial, C81_total_partial, C81_refuted_total, C81_refuted_stop, C81_stop, C81_refuted_stopped, C82_info_partial, C82_unambiguous, C82_distinct_partial, C82_refuted_forged, C82_state_partial, C82_response_partial, C82_peers, C82_client_partial, C82_command_partial, C83_refuted_no_request, C83_chosen_partial, C83_refuted_hangs, C83_refuted_silent, C83_refuted_forever, C83_refuted_transfer, C84_refuted, C84_same_partial, C84_small_partial, C84_exact_partial, C84_refuted_torrent, C84_refuted_response, C85_same_iff_partial, C85_distinct_partial, C85_refuted_accepted, C85_refuted_complete, C85_refuted_overwritten, C86_restart, C87_kept_partial, C87_between_partial, C87_exact_partial, C87_refuted_two_minutes, C88_storable_iff_partial, C88_torrent_partial, C88_refuted, C89_refuted_list, C89_refuted_head, C89_refuted_count, C89_refuted_wait, C89_exact_partial, C89_every_line, C90_used_fully, C90_settles, C90_drained, C90_throughput, C91_value, C91_messages, C91_peers, C91_torrent, C91_refuted_paths, C91_handlers_iff_partial, C91_refuted_buffer, C92_refuted_zero, C92_write_iff_partial, C93_again_partial, C93_restarts_partial, C93_own_file, C93_refuted, C94_exact_partial, C94_before_partial, C94_refuted_smuggled, C94_refuted_swallowed, C94_refuted_unknown, C95_exact_partial, C95_survives_iff, C95_connection_partial, C95_refuted, C96_found_iff_partial, C96_short_partial, C96_refuted_registered, C96_refuted_block, C96_refuted_honest, C97_exact_partial, C97_no_crash, C97_refuted, C98_counted_partial, C98_refuted_twice, C98_refuted_both_ways, C98_refuted_crash, C98_refuted_self, C98_once_partial, C98_once_iff_partial, C99_calls, C99_port, C99_served_partial, C99_reaches, C99_guests, C99_refuted_twice, C99_refuted_retry, C99_refuted_listen, C99_crash, C100_lines, C100_base, C100_tells_partial, C100_refuted_bitfield, C101_serves_iff_partial, C101_options, C101_served_partial, C101_ends, C101_status, C101_info, C101_harmless, C101_refuted_silent, C101_refuted_tracker, C101_refuted_rest, C101_goes_on, C101_refused, C101_usage, C101_refuted_url, C102_blocks_partial, C102_zero, C102_not_held_up, C102_served, C102_refuted_greetings, C102_refuted_download, C102_download_ignored, C102_refuted_burst, C103_running, C103_stopped_partial, C103_refuted, C104_same, C104_wrong, C104_first_partial, C104_end_partial, C104_number, C104_refuted_caught, C104_refuted_first, C104_refuted_where, C105_exact, C105_same, C105_unreadable, C105_says, C105_single, C105_path, C105_directives, C105_shown, C105_tells, C105_refuted_missing, C105_refuted_which, C105_refuted_address, C105_refuted_format, C106_same, C106_exact, C106_reason, C106_unreadable, C106_tells, C106_refuted_status, C106_refuted_reason, C106_refuted_entry, C106_refuted_forged, C107_same, C107_exact, C107_numbers, C107_help, C107_usage, C107_quoted, C107_value, C108_exact, C108_validate, C108_sizes, C108_refuted_wd, C108_refuted_which, C108_refuted_shown, C108_refuted_lines, C109_starts_iff, C109_lines_partial, C109_safe_partial, C109_refuted_peer, C109_refuted_date, C109_refuted_tracker, C109_refuted_torrent, C109_refuted_fragment, C109_refuted_fragment_parsed, C110_done, C110_story, C110_true, C110_keepalive_partial, C110_start, C110_refuted_keepalive, C110_refuted_lost, C110_refuted_done, C110_refuted_killed, C110_buffer, C110_requests, C110_refuses, C111_same, C111_exact, C111_tells, C111_refuted_payload, C111_refuted_piece, C111_refuted_ignored, C111_bits, C111_piece_short, C112_exact, C112_not_negative, C112_refuted_which, C112_refuted_beyond, C112_refuted_eof, C112_not_open, C113_exact, C113_order, C113_refuted_where, C114_beginning, C114_refused, C114_no_document, C115_exact, C115_not_open, C115_refuted_part, C115_refuted_which, C115_piece_info, C116_exact, C116_every, C116_linear_partial, C116_canonical_partial, C116_square, C116_refuted_square, C116_refuted, C117_per_request, C117_message, C117_exact, C117_total, C117_refuted, C119_started, C119_sensible, C119_piece_length, C119_file_length, C119_never, C119_refuted_cut, C120_parse, C120_nil, C120_unambiguous, C120_text, C120_roundtrip, C120_injective, C120_other, C120_dial, C120_list, C120_refuted_others, C121_parse, C121_unambiguous, C121_params, C121_kept_partial, C121_sent, C121_refused, C121_refuted_dropped, C122_apart_partial, C122_refuted_empty_bitfield, C122_prices, C122_handle_partial, C122_no_empty_bitfield_partial, C122_handled, C122_next, C123_kept_partial, C123_exact_partial, C123_iff_partial, C123_refuted_duplicates, C124_followed_partial, C124_plain, C124_refuted_segments, C124_refuted_elsewhere, C125_only, C125_stable, C125_no_links, C125_inside_partial, C125_same_partial, C125_prepared_partial, C125_refuted_outside, C125_refuted_shared, C125_chain, C125_loop, C126_body_iff, C126_incomplete, C126_arrives, C126_head, C126_cut, C126_refuted_status, C126_no_body, C126_refuted_silent, C126_waits, C127_all_return, C127_reads, C127_disk, C127_written, C127_results, C127_refused, C127_half_written, C128_read, C128_write, C128_results, C128_return, C128_torn, C129_requests, C129_response_iff, C129_panic_iff, C129_waits, C129_refuted_silent, C129_same.

## 5. What is modelled

Every function of the program (without tests), the definitions of the model that cite its lines (file.definition in `lean/Verif/Model`), or why there are none.


**src/bencode/decode.go**

| function | lines | model |
|---|---|---|
| DecoderError.Error | 12-14 | DecodeText.decoderError |
| Decode | 19-49 | Bencode.decodeValue, Bencode.DecodeFuel, Bencode.Decode, DecodeText.valueT, DecodeText.DecodeT, Stack.valueS, Stack.DecodeS, Work.valueW, Work.DecodeW |
| decoder.decodeDict | 54-94 | Bencode.decodeValue, Bencode.dictLoop, DecodeText.Out.bind, DecodeText.valueT, DecodeText.dictT, Stack.valueS, Stack.dictS, Work.valueW, Work.dictW |
| decoder.decodeList | 96-131 | Bencode.decodeValue, Bencode.listLoop, DecodeText.Out.bind, DecodeText.valueT, DecodeText.listT, Stack.valueS, Stack.listS, Work.valueW, Work.listW |
| decoder.decodeString | 133-157 | Bencode.decodeString, DecodeText.stringT, Work.numLoop, Work.stringW |
| decoder.decodeInt | 159-205 | Bencode.decodeIntTail, Bencode.decodeIntBody, Bencode.decodeInt, DecodeText.intTailT, DecodeText.intBodyT, DecodeText.intT, Work.intTailW, Work.intBodyW, Work.intW |
| decoder.curByte | 215-217 | accessor: read as a field |
| decoder.nextByte | 219-221 | accessor: read as a field |

**src/bencode/dict.go**

| function | lines | model |
|---|---|---|
| DictBadTypeError.Error | 15-17 | LoadText.Why.text |
| DictMissingKeyError.Error | 24-26 | LoadText.Why.text |
| Dict.get | 28-37 | Bencode.Dict.get |
| Dict.GetString | 39-54 | Bencode.Dict.getString, LoadText.getStringT, TrackText.getStringT |
| Dict.GetInt | 56-71 | Bencode.Dict.getInt, LoadText.getIntT, TrackText.getIntT |
| Dict.GetUint | 73-79 | Bencode.Dict.getUint, TrackText.getUintT |
| Dict.GetDict | 81-96 | Bencode.Dict.getDict, LoadText.getDictT |
| Dict.GetList | 98-113 | Bencode.Dict.getList, LoadText.getListT, TrackText.getListT |

**src/bencode/encode.go**

| function | lines | model |
|---|---|---|
| EncoderError.Error | 14-16 | EncErr.EncErr.text |
| Encode | 21-33 | Bencode.Encode, EncErr.EncodeT |
| encode | 38-62 | Bencode.Value, Bencode.encode, EncErr.encodeT |
| encodeString | 64-71 | Bencode.encodeString, EncErr.encodeStringT |
| encodeInt | 73-76 | Bencode.encodeInt |
| encodeDict | 78-102 | Bencode.seqEnc, Bencode.encodeSorted, Bencode.wrapEnc, Bencode.encode, EncErr.seqT, EncErr.encodeSortedT, EncErr.wrapT |
| encodeList | 104-116 | Bencode.seqEnc, Bencode.wrapEnc, Bencode.encode, Bencode.encodeList, EncErr.seqT, EncErr.wrapT, EncErr.encodeListT |

**src/bf/bitfield.go**

| function | lines | model |
|---|---|---|
| NewBitfield | 20-37 | Bitfield.NewBitfield |
| FromBytes | 42-64 | Bitfield.FromBytes |
| Bitfield.calcNset | 68-101 | Bitfield.bitOf, Bitfield.countByte, Bitfield.calcNset |
| Bitfield.Fill | 103-108 | Bitfield.Fill |
| Bitfield.Get | 110-117 | Bitfield.bitOf, Bitfield.Get |
| Bitfield.Set | 119-134 | Bitfield.bitOf, Bitfield.Set |
| Bitfield.Data5 | 138-140 | accessor: read as a field |
| Bitfield.Data | 142-144 | accessor: read as a field |
| Bitfield.Complete | 146-148 | accessor: read as a field |
| Bitfield.Nbits | 150-152 | accessor: read as a field |
| Bitfield.Nbytes | 154-156 | accessor: read as a field |
| Bitfield.Nset | 158-160 | accessor: read as a field |
| Bitfield.SetNbits | 164-173 | Bitfield.SetNbits |

**src/io/ratelimit.go**

| function | lines | model |
|---|---|---|
| NewRateLimitIO | 28-37 | RateLimit.init, RateRead.init |
| RateLimitIO.SetReadRate | 39-46 | RateRead.Step (one step per access to shared memory) |
| RateLimitIO.SetWriteRate | 48-55 | RateLimit.clamp, RateLimit.init |
| RateLimitIO.Run | 59-74 | RateLimit.Step (tick), RateRead.Step (runCall, runStart, tick, stop) |
| RateLimitIO.Stop | 76-78 | RateRead.Step (stopCall, stop) |
| RateLimitIO.Write | 85-115 | RateLimit.Step (one step per access to shared memory) |
| RateLimitIO.Read | 122-152 | RateRead.Step (one step per access to shared memory) |

**src/io/readloop.go**

| function | lines | model |
|---|---|---|
| NewReadLoop | 25-35 | ReadLoop.init |
| ReadLoop.ReadData | 38-40 | ReadLoop.Step (deliver) |
| ReadLoop.Ready | 44-46 | ReadLoop.Step |
| ReadLoop.ReadError | 49-51 | ReadLoop.Step |
| ReadLoop.Finish | 54-59 | ReadLoop.Step |
| ReadLoop.Run | 65-91 | ReadLoop.Step |

**src/main.go**

| function | lines | model |
|---|---|---|
| main | 12-29 | Flags.main, Program.Step |
| CmdSwarm | 31-44 | Program.Step |
| CmdTorInfo | 46-52 | Show.CmdTorInfo, Program.Step |

**src/p2p/bitfield.go**

| function | lines | model |
|---|---|---|
| NewMsgBitfield | 23-31 | P2P.NewMsgBitfield |
| MsgBitfield.Bitfield | 36-38 | accessor: read as a field |
| MsgBitfield.Encode | 43-47 | P2P.Encode, P2P.bitfieldAfterEncode |
| MsgBitfield.String | 49-53 | MsgText.mString |
| DecodeMsgBitfield | 61-88 | P2P.DecodeMsgBitfield |

**src/p2p/have.go**

| function | lines | model |
|---|---|---|
| NewMsgHave | 35-43 | P2P.NewMsgHave |
| MsgHave.Index | 48-50 | accessor: read as a field |
| MsgHave.Encode | 55-60 | P2P.Encode |
| MsgHave.String | 62-67 | MsgText.mString |
| DecodeMsgHave | 72-78 | MsgErr.DecodeMsgHaveT, P2P.DecodeMsgHave |

**src/p2p/keepalive.go**

| function | lines | model |
|---|---|---|
| MsgKeepAlive.Encode | 24-26 | P2P.Encode |
| MsgKeepAlive.String | 28-30 | MsgText.mString |

**src/p2p/message.go**

| function | lines | model |
|---|---|---|
| msgBase.Length | 60-62 | P2P.Length |
| msgBase.Mtype | 64-66 | P2P.Mtype |
| msgBase.Encode | 68-74 | P2P.baseEncode, P2P.Encode |
| msgBase.String | 76-82 | MsgText.baseString |
| msgBase.fillBase | 90-94 | HeadRace.head, P2P.fillBase |
| DecodeAll | 99-121 | P2P.decodeAllLoop, P2P.DecodeAll, PeerWork.decodeAllLoopW, PeerWork.DecodeAllW |
| Decode | 126-223 | MsgErr.withReadT, MsgErr.withReadBitfieldT, MsgErr.withReadPieceT, MsgErr.decodeTypedT, MsgErr.DecodeT, P2P.withRead, P2P.withReadBitfield, P2P.withReadPiece, P2P.decodeTyped, P2P.Decode, PeerWork.decodeTypedW, PeerWork.DecodeW |

**src/p2p/no_payload.go**

| function | lines | model |
|---|---|---|
| NewMsgChoke | 35-42 | P2P.Length |
| NewMsgUnchoke | 44-51 | P2P.Length |
| NewMsgInterested | 53-60 | P2P.Length |
| NewMsgNotInterested | 62-69 | P2P.Length |
| MsgChoke.String | 71-75 | MsgText.mString |
| MsgUnchoke.String | 77-81 | MsgText.mString |
| MsgInterested.String | 83-87 | MsgText.mString |
| MsgNotInterested.String | 89-93 | MsgText.mString |

**src/p2p/piece.go**

| function | lines | model |
|---|---|---|
| NewMsgPiece | 29-39 | P2P.NewMsgPiece |
| MsgPiece.Index | 44-46 | accessor: read as a field |
| MsgPiece.Begin | 48-50 | accessor: read as a field |
| MsgPiece.Block | 52-54 | accessor: read as a field |
| MsgPiece.Encode | 59-66 | P2P.putU32, P2P.Encode |
| MsgPiece.String | 68-75 | MsgText.mString |
| DecodeMsgPiece | 80-91 | MsgErr.DecodeMsgPieceT, P2P.getU32, P2P.DecodeMsgPiece |

**src/p2p/request.go**

| function | lines | model |
|---|---|---|
| NewMsgRequest | 33-43 | P2P.NewMsgRequest |
| MsgRequest.Index | 48-50 | accessor: read as a field |
| MsgRequest.Begin | 52-54 | accessor: read as a field |
| MsgRequest.ReqLen | 56-58 | accessor: read as a field |
| MsgRequest.Encode | 63-69 | P2P.putU32, P2P.Encode |
| MsgRequest.String | 71-78 | MsgText.mString |
| DecodeMsgRequest | 83-91 | MsgErr.DecodeMsgRequestT, P2P.getU32, P2P.DecodeMsgRequest |

**src/peer/info.go**

| function | lines | model |
|---|---|---|
| MakePeer | 17-30 | Peer.MakePeer |
| Info.Id | 32-34 | accessor: read as a field |
| Info.Ip | 36-38 | accessor: read as a field |
| Info.Port | 40-42 | accessor: read as a field |
| Info.Addr | 44-46 | accessor: read as a field |
| Info.String | 48-50 | Peer.MakePeer (the field str) |

**src/peer/list.go**

| function | lines | model |
|---|---|---|
| List.String | 16-26 | Show.ListString |

**src/peer/state.go**

| function | lines | model |
|---|---|---|
| MakeState | 10-17 | Session.MakeState |
| State.ChokingUs | 19-21 | accessor: read as a field |
| State.SetChokingUs | 23-25 | accessor: read as a field |
| State.WeChoking | 27-29 | accessor: read as a field |
| State.SetWeChoking | 31-33 | accessor: read as a field |
| State.InterestedUs | 35-37 | accessor: read as a field |
| State.SetInterestedUs | 39-41 | accessor: read as a field |
| State.WeInterested | 43-45 | accessor: read as a field |
| State.SetWeInterested | 47-49 | accessor: read as a field |

**src/swarm/handshake.go**

| function | lines | model |
|---|---|---|
| MakeHandshake | 9-16 | Handshake.MakeHandshake |
| Handshake.Pstrlen | 18-20 | accessor: read as a field |
| Handshake.Pstr | 22-24 | accessor: read as a field |
| Handshake.Reserved | 26-28 | accessor: read as a field |
| Handshake.Infohash | 30-32 | accessor: read as a field |
| Handshake.Id | 34-36 | Handshake.Id |
| ValidHandshake | 38-57 | Handshake.ValidHandshake |

**src/swarm/msghandler.go**

| function | lines | model |
|---|---|---|
| PeerHandler.handleMessage | 11-33 | MsgErr.handleOneT, MsgErr.handleAllT, MsgErr.handleMessageT, MsgHandler.handleOne, MsgHandler.handleAll, MsgHandler.handleMessage, PeerWork.handleOneW, PeerWork.handleAllW, PeerWork.handleMessageW, ReadWork.handleOneN, ReadWork.handleAllN, ReadWork.handleMessageN |
| PeerHandler.handleBitfield | 35-56 | MsgErr.handleBitfieldT, MsgHandler.handleBitfield, PeerWork.handleBitfieldW |
| PeerHandler.handleRequest | 58-76 | Limited.toWrite, MsgErr.handleRequestT, MsgHandler.answer, MsgHandler.handleRequest, ReadWork.handleRequestN |

**src/swarm/peerhandler.go**

| function | lines | model |
|---|---|---|
| FromBootstrap | 50-64 | Dial.FromBootstrap, Handshake.FromBootstrap, Session.outgoing |
| FromIncoming | 68-115 | Handshake.FromIncoming, Session.incoming |
| NewPeerHandler | 117-128 | Memory.NewPeerHandlerM, Peers.newConn, Races.newHandler, Session.NewPeerHandler |
| PeerHandler.Choke | 133-137 | Session.Choke |
| PeerHandler.Loop | 142-184 | PeerLoop.Step (communication), Session.loop (data) |
| PeerHandler.recvLoop | 188-228 | PeerLoop.Step, ReadLoop.Step (communication), MsgHandler.recvAll, Session.loop (data) |
| PeerHandler.requestLoop | 231-263 | PeerLoop.Step (communication), MsgHandler.createReqMessages (data) |
| PeerHandler.createReqMessages | 265-282 | MsgHandler.reqLoop, MsgHandler.reqLength, MsgHandler.createReqMessages |
| PeerHandler.pingLoop | 286-314 | PeerLoop.Step (communication) |
| PeerHandler.Key | 316-318 | PieceTracker.PH |

**src/swarm/piecetracker.go**

| function | lines | model |
|---|---|---|
| NewPeerPieceTracker | 53-73 | PieceTracker.initLoop, PieceTracker.NewPeerPieceTracker |
| PeerPieceTracker.RegisterBF | 76-85 | PeerWork.registerBFLoopW, PeerWork.RegisterBFW, PieceTracker.registerBFLoop, PieceTracker.RegisterBF |
| PeerPieceTracker.Register | 88-95 | PieceTracker.Register |
| PeerPieceTracker.register | 100-115 | PieceTracker.moveUp, PieceTracker.register |
| PeerPieceTracker.Unregister | 118-144 | PieceTracker.moveDown, PieceTracker.unregisterNode, PieceTracker.unregisterLoop, PieceTracker.Unregister |
| PeerPieceTracker.NextPiece | 150-174 | PeerWork.scanListW, PeerWork.scanBucketsW, PeerWork.NextPieceW, PieceTracker.scanList, PieceTracker.scanBuckets, PieceTracker.NextPiece |

**src/swarm/swarm.go**

| function | lines | model |
|---|---|---|
| NewSwarm | 39-96 | FileIO.openedAll, Limited.Initial, Log.checked, Log.restLog, Log.Starts, MsgHandler.Swarm, Peers.Initial, Program.options, Program.asks, Startup.finish, Startup.NewSwarm, Swarm.Validate |
| Swarm.Validate | 98-118 | Memory.ValidateM, Swarm.validateLoop, Swarm.Validate |
| Swarm.Start | 120-136 | Start.Step (the loop, the calls), Peers.Step (outgoing), Session.outgoing (what is done with one peer) |
| Swarm.runListener | 138-166 | Start.Step (the port), Listener.Step (the list of handlers), Peers.Step (incoming), Session.incoming (what is done with one connection) |
| Swarm.String | 168-176 | Show.SwarmString |

**src/torrent/fileio/fileio.go**

| function | lines | model |
|---|---|---|
| PathError.Error | 21-23 | MsgErr.KillErr.text, WriteErr.WriteErr.text |
| NewFileIO | 41-46 | Handles.NewFileIO |
| newLockedFp | 48-53 | Handles.St.OCAT (the lock: FileConc) |
| FileIO.OCAT | 57-65 | Descriptors.AllL, FileIO.OCATAll, Handles.St.OCAT |
| FileIO.OCATAll | 67-77 | Descriptors.AllL, FileIO.OCATAll |
| FileIO.Move | 79-89 | Handles.St.Move |
| FileIO.Close | 91-101 | Handles.St.Close, FileClose (concurrently) |
| FileIO.CloseAll | 103-119 | Handles.St.CloseAll, FileClose (concurrently) |
| FileIO.write | 121-131 | FileEnv.Step, FileIO.writeLoop, Handles.St.write |
| FileIO.read | 133-143 | FileEnv.Step, FileIO.readLoop, Handles.St.read |
| FileIO.ReadPiece | 145-163 | FileConc.Th, FileConc.startRead, FileEnv.Step, FileIO.readLoop, FileIO.ReadPiece, Handles.readLoop, Handles.ReadPiece, MsgErr.readLoopT, MsgErr.ReadPieceT, ReadWork.readLoopN, ReadWork.ReadPieceN |
| FileIO.WritePiece | 165-189 | FileConc.Th, FileConc.startWrite, FileEnv.Step, FileIO.writeLoop, FileIO.WritePiece, Handles.writeLoop, Handles.WritePiece, WriteErr.writeLoopT, WriteErr.WritePieceT |

**src/torrent/filesd/entry.go**

| function | lines | model |
|---|---|---|
| Entry.StartPiece | 33-35 | accessor: read as a field |
| Entry.EndPiece | 37-39 | accessor: read as a field |
| Entry.StartPieceOff | 41-43 | accessor: read as a field |
| Entry.EndPieceOff | 45-47 | accessor: read as a field |
| MakeEntryWrapper | 52-60 | the constructor of Files.Entry |
| Entry.PieceInfo | 64-127 | Files.seekLoop, Files.Entry.PieceInfo, Files64.seekLoop, Files64.PieceInfo, WriteErr.PieceInfoT |

**src/torrent/filesd/entrybase.go**

| function | lines | model |
|---|---|---|
| EntryBase.Length | 27-29 | accessor: read as a field |
| EntryBase.TorPath | 31-33 | accessor: read as a field |
| EntryBase.LocalPath | 35-37 | accessor: read as a field |
| EntryBase.SetLocalPath | 39-41 | Files.EntryBase.SetLocalPath |
| MakeFileEntry | 46-52 | Files.MakeFileEntry |
| FromBenList | 54-91 | LoadText.pathLoopT, LoadText.benEntryT, LoadText.FromBenListT, Torrent.pathLoop, Torrent.benEntry, Torrent.FromBenList |
| EntryBase.Bencode | 93-106 | Torrent.benDict |
| CalcNumPieces | 108-121 | Files.CalcNumPieces, Files64.CalcNumPieces |

**src/torrent/filesd/flist.go**

| function | lines | model |
|---|---|---|
| MakeFileList | 5-35 | Files.endOf, Files.nextOf, Files.fileListLoop, Files.MakeFileList, Files64.endOf, Files64.nextOf, Files64.fileListLoop, Files64.MakeFileList |
| FileList.GetFiles | 39-60 | Files.getFilesLoop, Files.GetFiles |

**src/torrent/info/info.go**

| function | lines | model |
|---|---|---|
| FileMetaError.Error | 21-23 | LoadText.Why.text |
| TorInfo.Name | 45-47 | accessor: read as a field |
| TorInfo.PieceLen | 49-51 | accessor: read as a field |
| TorInfo.Hashes | 53-55 | accessor: read as a field |
| TorInfo.NumPieces | 57-59 | accessor: read as a field |
| TorInfo.Length | 61-63 | accessor: read as a field |
| TorInfo.Files | 65-67 | accessor: read as a field |
| TorInfo.IsSingle | 69-71 | accessor: read as a field |
| TorInfo.LastPieceLen | 73-75 | accessor: read as a field |
| CreateTorInfo | 80-155 | Create.readFile, Create.fileLoop, Create.baseDir, Create.CreateTorInfo |
| NewTorInfo | 157-192 | Files.NewTorInfo, Files64.sum64, Files64.NewTorInfo |
| FromDict | 196-247 | Torrent.entriesOf, Torrent.FromDict |
| TorInfo.PieceHash | 252-255 | Files.TorInfo.PieceHash |
| TorInfo.Bencode | 257-281 | Torrent.benInfo |
| TorInfo.PieceLookup | 283-294 | Files.TorInfo.PieceLookup |

**src/torrent/info/piecelocation.go**

| function | lines | model |
|---|---|---|
| PieceLocation.Path | 10-12 | accessor: read as a field |
| PieceLocation.ReadAmnt | 14-16 | accessor: read as a field |
| PieceLocation.SeekAmnt | 18-20 | accessor: read as a field |

**src/torrent/info/piecemap.go**

| function | lines | model |
|---|---|---|
| MakePieceMap | 13-62 | Files.PMState, Files.pieceMapInner, Files.pieceMapFile, Files.pieceMapLoop, Files.MakePieceMap, Files64.pieceMapInner, Files64.pieceMapFile, Files64.pieceMapLoop, Files64.MakePieceMap, LoadText.MakePieceMapT |

**src/torrent/torrent.go**

| function | lines | model |
|---|---|---|
| TorError.Error | 20-22 | LoadText.Why.text |
| Torrent.Infohash | 36-38 | accessor: read as a field |
| Torrent.Announce | 40-42 | accessor: read as a field |
| Torrent.Info | 44-46 | accessor: read as a field |
| NewTorrent | 51-66 | Torrent.NewTorrent |
| FromTorrentFile | 70-111 | LoadText.FromTorrentFileT, Torrent.FromTorrentFile |
| Torrent.String | 116-141 | Show.TorrentString |

**src/tracker/stats.go**

| function | lines | model |
|---|---|---|
| NewStats | 12-18 | Tracker.NewStats |
| Stats.IncUploaded | 20-22 | Tracker.Stats.IncUploaded |
| Stats.IncDnloaded | 24-26 | Tracker.Stats.IncDnloaded |
| Stats.DecLeft | 28-34 | Tracker.Stats.DecLeft |
| Stats.Uploaded | 36-38 | accessor: read as a field |
| Stats.Dnloaded | 40-42 | accessor: read as a field |
| Stats.Left | 44-46 | accessor: read as a field |

**src/tracker/tracker.go**

| function | lines | model |
|---|---|---|
| Error.Error | 22-24 | TrackText.trackerError |
| State.Interval | 50-52 | accessor: read as a field |
| State.MinInterval | 54-56 | accessor: read as a field |
| State.Warning | 58-60 | accessor: read as a field |
| State.Tid | 62-64 | accessor: read as a field |
| State.Seeders | 66-68 | accessor: read as a field |
| State.Leechers | 70-72 | accessor: read as a field |
| Get | 77-84 | Announce.Get, Tracker.Get |
| newRequest | 86-98 | Announce.query, Tracker.announceValues, Tracker.newRequest |
| do | 100-129 | Announce.run, Body.answer, Redirect.requests, TrackText.doT, Tracker.doRequest |
| newResponse | 131-196 | TrackText.getPeersT, TrackText.newResponseT, Tracker.getPeers, Tracker.warningOf, Tracker.minIntervalOf, Tracker.newResponse |
| stringSource.GetPeers | 206-222 | TrackText.stringPeersT, Tracker.compactLoop, Tracker.stringPeers |
| listSource.GetPeers | 226-250 | TrackText.listLoopT, TrackText.listPeersT, Tracker.peerEntry, Tracker.listPeers |
| State.String | 255-265 | Show.StateString |
| Response.String | 268-279 | Show.ResponseString |

**src/utils/ds/linklist.go**

| function | lines | model |
|---|---|---|
| Node[T].Next | 17-19 | accessor: read as a field |
| Node[T].Prev | 21-23 | accessor: read as a field |
| Make | 28-33 | DS.Make |
| LinkedList[T].AddDataFront | 35-44 | DS.AddDataFront |
| LinkedList[T].AddNodeFront | 46-58 | DS.AddNodeFront, PeerWork.registerBFLoopW |
| LinkedList[T].Remove | 60-81 | DS.removeHead, DS.removePrev, DS.removeNext, DS.Remove, PeerWork.registerBFLoopW |
| LinkedList[T].Clear | 83-86 | DS.Clear |
| LinkedList[T].Head | 88-90 | accessor: read as a field |

**src/utils/ds/set.go**

| function | lines | model |
|---|---|---|
| MakeSet | 7-11 | DS.MakeSet |
| Set[T].Add | 13-20 | DS.Set.Add |
| Set[T].Has | 22-25 | DS.Set.Has |
| Set[T].Remove | 27-34 | DS.Set.Remove |
| Set[T].Size | 36-38 | DS.Set.Size |
| Set[T].Items | 40-46 | DS.Set.Items |

**src/utils/futils.go**

| function | lines | model |
|---|---|---|
| CreateZeroFilledFile | 13-31 | FS.CreateZeroFilledFile |
| AppendZeros | 34-60 | FS.appendLoop, FS.AppendZeros |
| OCAT | 66-101 | FS.checkSize, FS.OCAT, Handles.St.OCAT |

**src/utils/opts.go**

| function | lines | model |
|---|---|---|
| GetOpts | 32-37 | Flags: returns the options that initOpts made at start-up |
| initOpts | 39-57 | Flags.defaults, Flags.Flag, Flags.lookup, Flags.initOpts, OptsText.defaultsText, OptsText.startT |
| Opts.Validate | 59-92 | OptsText.validateT, Utils.Opts.Validate |
| parseSizeUnits | 94-149 | OptsText.unitPartT, OptsText.sizeBodyT, OptsText.parseSizeUnitsT, Utils.unitPart, Utils.sizeBody, Utils.parseSizeUnits |
| Opts.Input | 151-153 | accessor: read as a field |
| Opts.WorkingDir | 155-157 | accessor: read as a field |
| Opts.Port | 159-161 | Program.options, Utils.Opts.Port |
| Opts.Cmd | 163-165 | accessor: read as a field |
| Opts.UpLimit | 167-169 | accessor: read as a field |
| Opts.DnLimit | 171-173 | accessor: read as a field |

**src/utils/test/tutils.go**

| function | lines | model |
|---|---|---|
| WriteTestFile | 11-33 | helper of the tests, not part of the program |
| CloseAndClean | 36-43 | helper of the tests |
| CleanUpTestFile | 47-59 | helper of the tests |
| DummyHashes | 65-72 | helper of the tests |
| CheckError | 74-78 | helper of the tests |
| CheckFatal | 80-84 | helper of the tests |

**src/utils/utils.go**

| function | lines | model |
|---|---|---|
| NewPeerId | 13-15 | Utils.NewPeerId |
| randStringBytesMaskImprSrcSB | 20-45 | Utils.randLoop, Utils.NewPeerId |
| Bytes4Humans | 49-63 | Human.unitLoop, Human.Bytes4Humans |
| Spinner | 66-86 | `Model/Spinner.lean` (C103) |
| SegmentData | 90-109 | Utils.segLoop, Utils.SegmentData |
| SHA1 | 111-115 | the parameter H; Sha1.sha1 in the tests |
| HashSlices | 117-123 | Utils.HashSlices |
| RemoveSwap | 127-130 | Utils.RemoveSwap |

## 6. Simplifications

These are the places where the model differs from the code, besides what is in section 5.  Each is also in a comment at the definition.

* Sums of file lengths are unbounded integers in `Model/Files.lean`; in Go they wrap at 2^63.  `Model/Files64.lean` is the same code with wrap-around; C73 says that the two agree for totals below 2^63 bytes, and that they do not for larger ones.
* Error values carry only their kind (`Err`), not their text, except those of the decoder (`Model/DecodeText.lean`, C104), of loading a torrent file (`Model/LoadText.lean`, C105) and of the answer of a tracker (`Model/TrackText.lean`, C106; addresses printed by `%p` are a parameter) and of messages (`Model/MsgErr.lean`, C111, C112).  Log output is in `Model/Log.lean` (C109, C110); the other models leave it out; the `String` methods of messages (which nothing calls) are in `Model/MsgText.lean`, the others in `Model/Show.lean`, with the text of a floating point number (`%v`) as a parameter.
* Concurrency is sequentially consistent: one access to a field is one atomic step.  The Go memory model guarantees this for memory without data
  races; C89 says which memory that is: all but the listener's list `phs` (C80), the head of the bitfield message in our bitfield (harmless, C89) and the
  rate limiter's count of written bytes.  For these three, further effects of weaker memory are not modelled.
* Wall-clock time: a tick of a `time.Ticker` may happen at any moment; nothing is proved about durations, except in
  `Model/Idle.lean` (C87).
* The session model (`Model/Session.lean`) covers `Loop`'s first message, `recvLoop` and the message handlers; keep-alives and requests of
  our own (`requestLoop`) are in the models of the goroutines (`Model/PeerLoop.lean`) and of `createReqMessages` (`Model/MsgHandler.lean`) only.
* `Model/FileIO.lean` runs one call of `ReadPiece`/`WritePiece` after the other; interleaved calls are in `Model/FileConc.lean` (C74), closing files meanwhile is in `Model/FileClose.lean` (C127), and other programs that change the files meanwhile are in `Model/FileEnv.lean` (C128); opening or moving files during a call is not modelled.
* An open of an existing file that fails for another reason than that the file does not exist (permissions, too many open files) is a flag `sp` of
  `FS.Exec`, since in that case `OCAT` destroys the file (C28).
* The program has no code that writes a torrent file; C70 and C72 use `Encode` of a dictionary with the announce URL and `Bencode()`.
* `filepath` functions are the Unix ones. Symbolic links are modelled in `Model/Links.lean` only (C125, which says when the other theorems about preparing files hold with links, too); there are no hard links and mount points, and names can have any length.
* Directories are not modelled, except in `Model/DirFS.lean` (C88), which refines the file system of `Model/FS.lean`.
* The call stack is unlimited except in `Model/Stack.lean`, where the recursion of the decoder is limited (C84).  Memory is unlimited except for the
  buffers of `Model/Memory.lean` (C91).
* Time passes only in `Model/Idle.lean` (C87), with bounded delays; everywhere else a timeout may come at any moment or is left out.
* `strings.ToUpper` in `Model/OptsText.lean` (C108): of characters that are not ASCII and have no ASCII upper case, only that their upper case takes at least two bytes and is not
  ASCII.  `strconv.Quote` (C107) is modelled for ASCII texts, the rest is a parameter.  The trace of goroutines after a panic is not modelled.
* `Model/Work.lean` (C116) counts the bytes that the decoder looks at, copies or hashes. Allocation, the growing of maps and slices, and `strconv` are not counted.
* `Model/ReadWork.lean` (C117) counts the bytes that `ReadAt` delivers to `ReadPiece`; system calls, caches and the copying into the message are not counted.
* `Model/PeerWork.lean` (C122) counts calls of `Decode`, bytes looked at or copied, bits tested, pieces looked up and list nodes visited; an access to a map (the set of peers of a piece, the requests) counts as part of the step that makes it, the growing of slices is not counted, and nothing is counted for writing to the log.
* `Model/UrlParse.lean` (C121): of package `net/http` only the decisions that depend on the URL (scheme, host, request target). Redirections are in `Model/Redirect.lean`; proxies, the headers `Host` and `Authorization`, cookies and the
  resolution of host names are not modelled; what a host answers to a target is the parameter `net`. Hosts that are not ASCII reach the parameter as they are (the conversion to punycode is not modelled).
* `Model/Descriptors.lean` (C123): a descriptor is used by every file that was opened; those of directories while they are created, of the torrent file (closed before) and of connections are part of the number in use at the start, which does not change meanwhile. Descriptors of handles that are not reachable any more are returned at any moment by the collector. A forbidden file can neither be opened nor created (a permission that allows creating but not opening for reading and writing is not modelled).
* `Model/Redirect.lean` (C124): a request is whether it goes over TLS, the host and the target; the headers `Referer`, `Authorization` and cookies that `Client.do` copies, and proxies, are left out. A network answers with a status, the value of `Location` (empty if there is none) and a body, or not at all; it may depend on the number of the request. `ForceQuery` of an unused URL is not kept; where `ResolveReference` of Go 1.18 reads it, for an empty path and query, it is that of the reference.
* `Model/Body.lean` (C126): what a connection brings is a string of bytes and how it ends; in how many segments it comes does not matter to the readers. The head of the answer is its status, whether `Transfer-Encoding` is `chunked`, and `Content-Length`; whether `ReadMIMEHeader` accepts fields behind the last chunk is a parameter. Compressed answers and HTTP/2 are not modelled; redirections come before (`Model/Redirect.lean`).
* `Model/Announce.lean` (C129): what a request brings is nothing, silence, or a head behind a number of informational ones, with what follows. A redirection in chunks that is incomplete and goes silent may or may not make the client wait (parameter `may`; in Go it depends on how many bytes came and on what is in the buffer together). An answer with status 101 has no body (the field `Upgrade` is not modelled); which requests share a connection is left to the network.
## 7. Defects found

Each line is a theorem of the form “the code does not do what the property says”.

| property | theorem | what it says | functions |
|---|---|---|---|
| C01 | `C01_refuted_minInt64` | the int64 minimum is encoded without error and the result cannot be decoded. | encode.go:Encode, decode.go:Decode |
| C06 | `C06_refuted_string` | a slice holding `10:hi` in front of eight zero bytes of spare capacity decodes to a ten-byte string; without the spare capacity it is an error. | decode.go:decodeString, torrent.go:FromTorrentFile, tracker.go:do |
| C07 | `C07_refuted_resliced_string` | truncating the encoding of a string by re-slicing (`enc[:4]`) leaves the rest in the spare capacity, and Decode returns the *whole* string. | decode.go:Decode |
| C09 | `C09_refuted_getUint` | for GetUint: a stored -1 is returned as 2^64-1. | dict.go:GetString, dict.go:GetInt, dict.go:GetUint, dict.go:GetDict, dict.go:GetList |
| C10 | `C10_refuted_request` | for request messages: what `Encode` produces is the requested length followed by the type byte, for every request; this is never the wire form. | message.go:Encode, have.go:Encode, request.go:Encode, piece.go:Encode, bitfield.go:Encode, keepalive.go:Encode |
| C11 | `C11_refuted_piece` | for piece messages: decoding any complete piece message panics. | message.go:Decode |
| C11 | `C11_refuted_empty_bitfield` | for the bitfield message of a torrent without pieces: rejected, and nothing counts as read. | message.go:Decode |
| C12 | `C12_refuted_piece` | a piece message anywhere behind decodable messages makes the whole call panic. | message.go:DecodeAll |
| C13 | `C13_refuted_length_overflow` | five bytes with an overflowing length prefix crash the decoder. | message.go:Decode, piece.go:DecodeMsgPiece |
| C13 | `C13_refuted_piece` | every complete piece message crashes the decoder; this is the smallest one. | message.go:Decode, piece.go:DecodeMsgPiece |
| C14 | `C14_refuted_empty_bitfield` | an empty bitfield message behind any sequence of valid messages, followed by anything, makes `DecodeAll` loop for ever. | message.go:DecodeAll, bitfield.go:DecodeMsgBitfield |
| C16 | `C16_refuted_every_cut` | for every message and every cut inside it: the whole message decodes to itself, but if the bytes arrive in two reads, the message is never delivered (whatever the two calls return). | message.go:DecodeAll, peerhandler.go:recvLoop |
| C18 | `C18_refuted_padding_set` | `Set` on an index in the padding of the last byte changes the counter although no bit below `Nbits` is set (and makes `Complete` lie). | bitfield.go:Nset, bitfield.go:Complete, bitfield.go:calcNset, bitfield.go:SetNbits |
| C18 | `C18_refuted_setNbits` | `SetNbits` accepts a number that no longer needs the last byte and then counts that byte too. | bitfield.go:Nset, bitfield.go:Complete, bitfield.go:calcNset, bitfield.go:SetNbits |
| C19 | `C19_refuted_padding_readable` | for padding bits: index 3 of a 3-bit field is answered (with the padding bit), not rejected. | bitfield.go:FromBytes, bitfield.go:Get |
| C20 | `C20_refuted_no_pieces` | for the torrent without pieces: the bitfield message every client sends for it makes the receiver loop for ever. | bitfield.go:Encode, bitfield.go:DecodeMsgBitfield, msghandler.go:handleBitfield, bitfield.go:SetNbits |
| C24 | `C24_refuted_extra_hash` | one hash too many is accepted | info.go:NewTorInfo, piecemap.go:MakePieceMap |
| C24 | `C24_refuted_negative_length` | a negative file length is accepted | info.go:NewTorInfo, piecemap.go:MakePieceMap |
| C24 | `C24_refuted_panics` | inconsistent metadata panics (too few hashes; piece length zero) | info.go:NewTorInfo, piecemap.go:MakePieceMap |
| C28 | `C28_refuted_open_failure` | if opening an existing file may fail: OCAT treats every failure to open as "does not exist" and truncates the file, so a transient error (e.g. too many open files) destroys the data although OCAT reports success. | futils.go:OCAT, futils.go:AppendZeros, futils.go:CreateZeroFilledFile, fileio.go:OCATAll |
| C30 | `C30_refuted_large_pieces` | fails for every piece length above 5 MiB: however many reads are allowed, and although every file exists and no read fails, `CreateTorInfo` does not finish. | info.go:CreateTorInfo, utils.go:SegmentData |
| C30 | `C30_refuted_zero` | piece length 0 is a division by zero | info.go:CreateTorInfo, utils.go:SegmentData |
| C32 | `C32_refuted_noncanonical` | is false: for a file with an unsorted info dictionary other bytes are hashed. | torrent.go:FromTorrentFile |
| C32 | `C32_refuted_collision` | is false, and the consequences are severe: two torrents with different contents get the same info-hash, for every hash function, because the encoder's error about the empty name is dropped and everything behind it is not hashed. | torrent.go:FromTorrentFile |
| C33 | `C33_refuted_one_file` | is false for a list of one file: it is written back as a single-file torrent with another path (and therefore another info-hash). | info.go:FromDict, info.go:Bencode, entrybase.go:FromBenList, entrybase.go:Bencode |
| C33 | `C33_refuted_private` | is false if the file asks for privacy: the flag is lost. | info.go:FromDict, info.go:Bencode, entrybase.go:FromBenList, entrybase.go:Bencode |
| C33 | `C33_refuted_slash` | is false for path components that contain a slash: they are split. | info.go:FromDict, info.go:Bencode, entrybase.go:FromBenList, entrybase.go:Bencode |
| C33 | `C33_refuted_keys` | is false for almost every torrent made by another program: without the key `private` (which is optional) or with any further key the dictionary is changed. | info.go:FromDict, info.go:Bencode, entrybase.go:FromBenList, entrybase.go:Bencode |
| C34 | `C34_refuted_dotdot` | is false: a file name in a torrent can lead anywhere, e.g. to /etc/x from the working directory /w. | info.go:FromDict, entrybase.go:FromBenList |
| C34 | `C34_refuted_empty_wd` | is false for an empty working directory (meaning the current one): an absolute name is used as it is. | info.go:FromDict, entrybase.go:FromBenList |
| C35 | `C35_refuted_empty_path` | a file with an empty path list makes loading panic. | torrent.go:FromTorrentFile, info.go:FromDict, entrybase.go:FromBenList, flist.go:MakeFileList |
| C35 | `C35_refuted_too_few_hashes` | a file with too few hashes makes loading panic. | torrent.go:FromTorrentFile, info.go:FromDict, entrybase.go:FromBenList, flist.go:MakeFileList |
| C35 | `C35_refuted_zero_piece_length` | a piece length of zero makes loading panic. | torrent.go:FromTorrentFile, info.go:FromDict, entrybase.go:FromBenList, flist.go:MakeFileList |
| C37 | `C37_refuted_negative` | a negative interval is accepted and reported as an enormous one. | tracker.go:newResponse, tracker.go:do |
| C37 | `C37_refuted_port` | a port that does not exist is accepted and becomes a different one. | tracker.go:newResponse, tracker.go:do |
| C38 | `C38_refuted_peer_id` | the peer id of another client that contains a byte outside of the unreserved characters does not arrive. | tracker.go:newRequest |
| C38 | `C38_refuted_clash` | if the announce URL has a parameter of the same name, the server reads that one first. | tracker.go:newRequest |
| C41 | `C41_refuted_short` | for every info-hash, a peer that sends a whole handshake with its id, of which the first `Read` returns 48 bytes, is registered with an id of 20 zero bytes instead. | peerhandler.go:FromIncoming |
| C41 | `C41_refuted_incomplete` | a peer that never sends more than 48 bytes is registered as well. | peerhandler.go:FromIncoming |
| C42 | `C42_refuted_inside` | for every message of at most 20 bytes, also a request, and every info-hash there is a handshake of which the last part, received on its own, is taken for that message. | peerhandler.go:FromBootstrap, peerhandler.go:recvLoop, msghandler.go:handleMessage |
| C42 | `C42_refuted_crash` | for every info-hash there are handshakes that, received in two parts, make the client panic, and ones that keep it busy for ever. | peerhandler.go:FromBootstrap, peerhandler.go:recvLoop, msghandler.go:handleMessage |
| C42 | `C42_refuted_lost` | everything that arrives in the same buffer behind the remote handshake is lost, whatever it is. | peerhandler.go:FromBootstrap, peerhandler.go:recvLoop, msghandler.go:handleMessage |
| C42 | `C42_refuted_no_handshake` | a remote side that never sends a handshake, or one with a different info-hash, is served: for each request within a piece that we have, sent on a connection opened by us, the block is sent. | peerhandler.go:FromBootstrap, peerhandler.go:recvLoop, msghandler.go:handleMessage |
| C43 | `C43_refuted_stale` | whenever a request reaches beyond the end of the (short) last piece but stays within the piece length, the block sent is not a part of the torrent: it ends with whatever the buffer held before. | msghandler.go:handleRequest |
| C44 | `C44_refuted_index` | for every torrent, a client that does not have all pieces is crashed by a request with index 2^32 - 1 (for fewer than 2^32 - 8 pieces), whatever else is in it. | msghandler.go:handleRequest, bitfield.go:Get |
| C44 | `C44_refuted_length` | for every torrent, a client that has any piece is crashed by a request for more than the piece length. | msghandler.go:handleRequest, bitfield.go:Get |
| C45 | `C45_refuted_second` | for every torrent with a piece and every peer, after a bitfield announcing piece 0 and a second one announcing nothing, the peer is still registered for piece 0. | msghandler.go:handleBitfield, piecetracker.go:RegisterBF |
| C46 | `C46_refuted_64_peers` | for every torrent and any 64 distinct peers that have the same piece, the last registration panics. | piecetracker.go:register, piecetracker.go:Unregister, linklist.go:Remove |
| C48 | `C48_refuted_again` | after any history, a piece handed out is handed out again to the same peer at once, and to any other peer for which it would have been chosen before. | piecetracker.go:NextPiece, piecetracker.go:Unregister |
| C48 | `C48_refuted_two_peers` | concretely: two peers that have the only piece both get it. | piecetracker.go:NextPiece, piecetracker.go:Unregister |
| C51 | `C51_refuted_items` | as soon as there is a member, `Items` starts with a zero value (for this package a nil pointer) and has twice as many elements as the set. | set.go:Add, set.go:Remove, set.go:Items |
| C52 | `C52_refuted_never_ends` | `createReqMessages` never ends, except for a piece whose length is a multiple of 2^32 (such as an empty one). | peerhandler.go:createReqMessages |
| C52 | `C52_refuted_all_pieces` | for every piece of every torrent with consistent metadata and a piece length below 2^32. | peerhandler.go:createReqMessages |
| C52 | `C52_refuted_memory` | nor does the memory suffice. After `k` rounds the loop holds `k` messages, all for the beginning of the piece, and goes on. | peerhandler.go:createReqMessages |
| C54 | `C54_refuted_waiting` | always: from the moment a write waits for budget until it is admitted, no schedule stores a new limit. | ratelimit.go:SetWriteRate, ratelimit.go:Write |
| C54 | `C54_refuted_zero` | with limit 0: a state can be reached in which a write waits and a call of `SetWriteRate` waits for it, and in every continuation both wait, the limit stays 0 and nothing is ever admitted again. | ratelimit.go:SetWriteRate, ratelimit.go:Write |
| C54 | `C54_refuted_lifted` | when the limit is lifted: if `SetWriteRate(NoLimit)` comes between a write's look at the limit and its locking, that write waits for ever, and with it every later `SetWriteRate`, as long as less than 2^63 bytes are written. | ratelimit.go:SetWriteRate, ratelimit.go:Write |
| C55 | `C55_refuted_with_error` | fails for data that comes together with an error (`io.Reader` allows it): such data is never delivered. | readloop.go:Run, readloop.go:Ready, readloop.go:ReadData |
| C56 | `C56_refuted_deadlock` | the peer is silent, `Finish` is called during a read, the read ends with an error: the reader waits for somebody to take the error, `Finish` waits for the reader to take its order, and no step is possible any more. | readloop.go:Finish, readloop.go:Run |
| C56 | `C56_refuted_leak` | Without `Finish` there is no end: once `recvLoop` has returned and the read loop runs, it runs or blocks for ever. | readloop.go:Finish, readloop.go:Run |
| C57 | `C57_refuted_never_returns` | always: nobody made the channel on which `Loop` reports, so `Loop` never returns, whatever the schedule. | peerhandler.go:Loop, peerhandler.go:recvLoop, peerhandler.go:pingLoop, peerhandler.go:requestLoop |
| C57 | `C57_refuted_request` | even if the report is heard: once `requestLoop` makes a request it never ends, and `Loop`, if it has not passed its `Wait`, never passes it. | peerhandler.go:Loop, peerhandler.go:recvLoop, peerhandler.go:pingLoop, peerhandler.go:requestLoop |
| C57 | `C57_refuted_two_errors` | even if the report is heard and there is nothing to request: if both other goroutines meet an error, one waits for `Loop` to take it and `Loop` waits for somebody to take its order to stop. | peerhandler.go:Loop, peerhandler.go:recvLoop, peerhandler.go:pingLoop, peerhandler.go:requestLoop |
| C57 | `C57_refuted_finish` | even if only one goroutine meets an error: a keep-alive fails, `recvLoop` is told to stop, and its `Finish` blocks (C56). | peerhandler.go:Loop, peerhandler.go:recvLoop, peerhandler.go:pingLoop, peerhandler.go:requestLoop |
| C57 | `C57_refuted_quiet` | when `recvLoop` ends without an error to report: `Loop` and `pingLoop` go on as if nothing had happened until a keep-alive fails. | peerhandler.go:Loop, peerhandler.go:recvLoop, peerhandler.go:pingLoop, peerhandler.go:requestLoop |
| C57 | `C57_refuted_wait` | The wait group does not count goroutines that have not begun: `Loop` can pass its `Wait` and `requestLoop` begin afterwards. | peerhandler.go:Loop, peerhandler.go:recvLoop, peerhandler.go:pingLoop, peerhandler.go:requestLoop |
| C58 | `C58_refuted_overflow` | a value beyond the int64 range is silently wrapped (17179869184G is accepted as 0), and a number of more than 63 bits is rejected although it has the documented form. | opts.go:parseSizeUnits |
| C62 | `C62_refuted_other_size` | (a torrent can record the hash of a string that is shorter or longer than the piece): shorter data makes `WritePiece` panic, or store bytes from behind the end of the data if the slice has spare capacity; longer data is stored only in part although `WritePiece` reports success. | fileio.go:WritePiece |
| C65 | `C65_refuted_bad_url` | a torrent file with a control character in its announce URL loads, and announcing it panics. | tracker.go:Get, tracker.go:newRequest, tracker.go:do |
| C65 | `C65_refuted_texts` | for texts that people write: an address with a port but without a scheme, a port that is not a number, a blank in the host, a `%` in the path. | tracker.go:Get, tracker.go:newRequest, tracker.go:do |
| C66 | `C66_refuted_split` | for other buffers: a request that is received in two parts is not answered, whatever pieces we have. | peerhandler.go:FromIncoming, peerhandler.go:Loop, peerhandler.go:recvLoop, msghandler.go:handleMessage, msghandler.go:handleRequest |
| C67 | `C67_refuted_crash` | is false: whatever the state, and whatever valid messages come before, a block that a peer sends makes the client panic, and nothing is stored. | msghandler.go:handleMessage, message.go:Decode, message.go:DecodeAll |
| C67 | `C67_refuted_ignored` | would be false even if piece messages could be decoded: they are ignored. | msghandler.go:handleMessage, message.go:Decode, message.go:DecodeAll |
| C68 | `C68_refuted_have` | is false: whatever a peer announces with `have` messages, it is never asked for a piece because of that: for a peer that sends polite messages without bitfields the availability tracker does not change at all. | msghandler.go:handleMessage, peerhandler.go:Loop, piecetracker.go:Unregister |
| C68 | `C68_refuted_gone` | is false: a peer that announced a piece in a bitfield stays registered for it when its connection is gone. The handler's work ends here because of an error (a bitfield of the wrong size), and the tracker it leaves behind still has the peer. | msghandler.go:handleMessage, peerhandler.go:Loop, piecetracker.go:Unregister |
| C69 | `C69_refuted_initial` | is false: a new connection is neither choked by us nor by the peer, other than in the protocol and in `MakeState`, which would be right. | state.go:MakeState, peerhandler.go:NewPeerHandler, peerhandler.go:Choke, msghandler.go:handleMessage |
| C69 | `C69_refuted_frozen` | is false: no message ever changes the state of the connection. | state.go:MakeState, peerhandler.go:NewPeerHandler, peerhandler.go:Choke, msghandler.go:handleMessage |
| C69 | `C69_refuted_choke` | is false: `Choke` sends the message that allows requests. | state.go:MakeState, peerhandler.go:NewPeerHandler, peerhandler.go:Choke, msghandler.go:handleMessage |
| C70 | `C70_refuted_renamed` | a torrent of the single file /w/a called `b` is looked for at /w/b when it is loaded. | torrent.go:NewTorrent, torrent.go:FromTorrentFile, info.go:Bencode, info.go:FromDict, info.go:CreateTorInfo, entrybase.go:FromBenList, entrybase.go:Bencode |
| C71 | `C71_refuted_left` | (tracker statistics): a client that has none of the four bytes of the torrent tells the tracker that nothing is left to download. | swarm.go:NewSwarm, swarm.go:Validate, torrent.go:FromTorrentFile, fileio.go:OCATAll, tracker.go:Get |
| C72 | `C72_refuted_renamed` | a torrent called `b` is created from the single file `a`. A client started on it takes the file `b` next to it for the data, cuts it to the length of `a`, and then has no piece, although `a` is where it was. | info.go:CreateTorInfo, torrent.go:FromTorrentFile, swarm.go:NewSwarm, peerhandler.go:Loop, msghandler.go:handleMessage |
| C73 | `C73_refuted_overflow` | three files whose lengths are int64 values and add up to 2^64 bytes are accepted without a single hash as a torrent of length 0 without pieces, for every positive piece length; exact arithmetic rejects them. | info.go:NewTorInfo, piecemap.go:MakePieceMap, flist.go:MakeFileList, entry.go:PieceInfo, entrybase.go:CalcNumPieces |
| C74 | `C74_refuted_torn` | for pieces that belong to several files: the locks are those of single files, so a write can come between the two parts of a read. Here the piece is `00` on disk and a valid write of `11` is made; the read succeeds with `01`, which the piece never was. | fileio.go:ReadPiece, fileio.go:WritePiece, fileio.go:readAt, fileio.go:writeAt |
| C75 | `C75_refuted_wd` | the working directory may be missing, although `Validate` has an error message for that case (its condition looks at the input once more). | opts.go:GetOpts, opts.go:initOpts, opts.go:Validate, opts.go:Port, main.go:main |
| C75 | `C75_refuted_port` | a port that does not exist is accepted, and another one is used: 65617 becomes 81. | opts.go:GetOpts, opts.go:initOpts, opts.go:Validate, opts.go:Port, main.go:main |
| C75 | `C75_refuted_octal` | a port with a leading zero is read as an octal number: 010 becomes 8. | opts.go:GetOpts, opts.go:initOpts, opts.go:Validate, opts.go:Port, main.go:main |
| C75 | `C75_refuted_ignored` | options behind a word that is not an option are ignored without a message; here `info` is asked for and `swarm` is run. | opts.go:GetOpts, opts.go:initOpts, opts.go:Validate, opts.go:Port, main.go:main |
| C76 | `C76_refuted_crash` | is false: in every state of every client a new peer that sends a handshake and 13 bytes ends the process, and no other connection is ever served again. | swarm.go:Start, swarm.go:runListener, peerhandler.go:Loop, peerhandler.go:recvLoop, peerhandler.go:requestLoop, msghandler.go:handleMessage |
| C77 | `C77_refuted_move_again` | a moved file can neither be moved again nor closed under its new name, and not be moved under its old name, whatever is called in between (unless something is put under the old name again). | fileio.go:41-143 |
| C77 | `C77_refuted_target_lost` | if a file is moved to the path of another open file, that other file is gone from the disk although it can be written and read as before: no name leads to it, whatever is called (except `OCAT`). | fileio.go:41-143 |
| C77 | `C77_refuted_closeAll` | once a single file has been closed, `CloseAll` may close nothing at all, however many other files are open, and however often it is called. | fileio.go:41-143 |
| C77 | `C77_refuted_leak` | if `OCAT` is called again for an open path, the first handle stays open for ever, whatever is called. | fileio.go:41-143 |
| C78 | `C78_refuted_rounding` | above 2^53: one byte less than an exbibyte is shown as a whole exbibyte. | utils.go:47-63, torrent.go:124-128 |
| C78 | `C78_refuted_negative` | negative sizes, which torrents may have (C24), are always shown in bytes. | utils.go:47-63, torrent.go:124-128 |
| C78 | `C78_refuted_1024` | one byte less than a mebibyte is shown as 1024.00 KiB. | utils.go:47-63, torrent.go:124-128 |
| C79 | `C79_refuted_ipv6` | IPv6 peers are never contacted: whatever the network does, dialling them fails, and nothing is sent. | info.go:17-30, peerhandler.go:50-64 |
| C79 | `C79_refuted_nil` | of a peer whose address in the tracker's list is no IP address (`net.ParseIP` returns nil), the host `<nil>` is looked up. | info.go:17-30, peerhandler.go:50-64 |
| C80 | `C80_refuted_leak` | a peer that was served once holds a descriptor for ever, whether it has left or not. | swarm.go:138-166, peerhandler.go:68-115, peerhandler.go:142-185 |
| C80 | `C80_refuted_limit` | in the whole life of the process, no more than `limit` incoming peers are served; once that many were served, no connection is accepted any more, and the next attempt ends the process. | swarm.go:138-166, peerhandler.go:68-115, peerhandler.go:142-185 |
| C80 | `C80_refuted_over` | and then it is over for all peers, those that are being served and those in their handshake. | swarm.go:138-166, peerhandler.go:68-115, peerhandler.go:142-185 |
| C80 | `C80_refuted_one_by_one` | peers that come one after the other, each leaving before the next one comes, end the process, however many descriptors there are. | swarm.go:138-166, peerhandler.go:68-115, peerhandler.go:142-185 |
| C80 | `C80_refuted_lost` | if two peers are accepted at the same time, one of their handlers is not in the list. | swarm.go:138-166, peerhandler.go:68-115, peerhandler.go:142-185 |
| C80 | `C80_refuted_memory` | the fifth and the sixth peer, accepted at the same time, make the process write beyond the end of an array: the sixth reads the new capacity with the old pointer. | swarm.go:138-166, peerhandler.go:68-115, peerhandler.go:142-185 |
| C81 | `C81_refuted_window` | is false, the limit: whatever it is, and although every buffer has one byte only and nobody changes it, any number of bytes can be read between two ticks. | ratelimit.go:Read, ratelimit.go:SetReadRate, ratelimit.go:Run, ratelimit.go:Stop |
| C81 | `C81_refuted_total` | is false, the total: a read that gives nothing at all is counted with the whole buffer. | ratelimit.go:Read, ratelimit.go:SetReadRate, ratelimit.go:Run, ratelimit.go:Stop |
| C81 | `C81_refuted_stop` | is false, `Stop`: once `Run` has been stopped, all reads together, however long the program runs, are admitted fewer than `r` bytes before the last buffer. | ratelimit.go:Read, ratelimit.go:SetReadRate, ratelimit.go:Run, ratelimit.go:Stop |
| C81 | `C81_refuted_stopped` | is false, `Stop`: a state can be reached, with any limit, in which `Stop` has returned and a read waits, and in every continuation without a new `Run` this read goes on waiting, nothing is admitted and the limit cannot be changed. | ratelimit.go:Read, ratelimit.go:SetReadRate, ratelimit.go:Run, ratelimit.go:Stop |
| C82 | `C82_refuted_forged` | an announce URL and a path with line breaks make the outputs for two torrents with different info-hashes the same. | torrent.go:String, main.go:CmdTorInfo, tracker.go:String, list.go:String, swarm.go:String |
| C83 | `C83_refuted_no_request` | is false: in every execution of every client, whatever it lacks and whatever the peers announce, no request is ever sent. | peerhandler.go:requestLoop, peerhandler.go:createReqMessages, piecetracker.go:NextPiece, msghandler.go:handleMessage, msghandler.go:handleRequest |
| C83 | `C83_refuted_hangs` | is false: as soon as requestLoop of a connection finds a piece to ask for, it never gets any further: making the requests does not end, however many rounds it is given. (Piece length below 2^32 and the right number of hashes.) | peerhandler.go:requestLoop, peerhandler.go:createReqMessages, piecetracker.go:NextPiece, msghandler.go:handleMessage, msghandler.go:handleRequest |
| C83 | `C83_refuted_silent` | is false for pieces whose length is 0 modulo 2^32 too (the last piece, if there are more hashes than the data has pieces): making the requests ends, but there are none, so nothing is written; the piece counts as asked for, and after five of them requestLoop only waits. | peerhandler.go:requestLoop, peerhandler.go:createReqMessages, piecetracker.go:NextPiece, msghandler.go:handleMessage, msghandler.go:handleRequest |
| C83 | `C83_refuted_forever` | is false: it is like that forever. In every execution no connection ever gets the requests of a single piece ready, and one whose requestLoop has found a piece never asks for anything again. | peerhandler.go:requestLoop, peerhandler.go:createReqMessages, piecetracker.go:NextPiece, msghandler.go:handleMessage, msghandler.go:handleRequest |
| C83 | `C83_refuted_transfer` | is false, for two clients of this kind: whatever happened before on both sides, whatever else they are connected to and however the messages are put into buffers (without cutting them), the one does not send a single block to the other. | peerhandler.go:requestLoop, peerhandler.go:createReqMessages, piecetracker.go:NextPiece, msghandler.go:handleMessage, msghandler.go:handleRequest |
| C84 | `C84_refuted` | for every size of the stack there is a document, of two bytes for each call that fits on the stack and two more, that ends the process. It is a proper document: without the limit it would be decoded. | decode.go:Decode, decode.go:decodeDict, decode.go:decodeList, torrent.go:FromTorrentFile, tracker.go:do |
| C84 | `C84_refuted_torrent` | for torrent files: every torrent file can be changed, by an entry that nothing looks at, so that it means the same to the client (the same torrent or the same error) but ends the process. | decode.go:Decode, decode.go:decodeDict, decode.go:decodeList, torrent.go:FromTorrentFile, tracker.go:do |
| C84 | `C84_refuted_response` | for responses of a tracker, in the same way | decode.go:Decode, decode.go:decodeDict, decode.go:decodeList, torrent.go:FromTorrentFile, tracker.go:do |
| C85 | `C85_refuted_accepted` | is false: whatever the name, the piece length, the hashes and the (non-negative) lengths of the files, if there are enough hashes the torrent is accepted with the same path for all of its files. | info.go:FromDict, entrybase.go:FromBenList, fileio.go:WritePiece |
| C85 | `C85_refuted_complete` | what it costs: a torrent with two files of the same length at the same place and different contents is never complete: whatever is on disk, the check of the pieces finds one that is missing, unless two different byte strings have the same hash. | info.go:FromDict, entrybase.go:FromBenList, fileio.go:WritePiece |
| C85 | `C85_refuted_overwritten` | how a piece gets lost: both pieces of this torrent are written without an error, and then the first one is gone. | info.go:FromDict, entrybase.go:FromBenList, fileio.go:WritePiece |
| C87 | `C87_refuted_two_minutes` | a peer that sends a keep-alive message every two minutes, as BEP 3 has it, may lose the connection although there are no delays at all. | peerhandler.go:pingLoop, readloop.go:Run, peerhandler.go:recvLoop, msghandler.go:handleMessage |
| C88 | `C88_refuted` | is false: whatever the name, the piece length, the hashes and the lengths, if there are enough hashes a torrent with the files `a` and `a/b` is accepted; on no disk can it be prepared, so that the client never starts. | info.go:FromDict, fileio.go:OCATAll, futils.go:OCAT, futils.go:CreateZeroFilledFile |
| C89 | `C89_refuted_list` | two connections come in at the same time, and the goroutine of the one is about to write the list of handlers while the other reads it. | swarm.go:120-166, peerhandler.go:50-314, msghandler.go:11-76, piecetracker.go:76-174, ratelimit.go:59-115, readloop.go:65-91, bitfield.go:43-47 |
| C89 | `C89_refuted_head` | two connections come in at the same time, and both goroutines are about to write the head of the bitfield message into our bitfield, and then one of them while the other sends it. | swarm.go:120-166, peerhandler.go:50-314, msghandler.go:11-76, piecetracker.go:76-174, ratelimit.go:59-115, readloop.go:65-91, bitfield.go:43-47 |
| C89 | `C89_refuted_count` | a block is sent and added (by an atomic operation) to the count of written bytes while the rate limiter, which is not running yet, sets the count to 0 (by an assignment). | swarm.go:120-166, peerhandler.go:50-314, msghandler.go:11-76, piecetracker.go:76-174, ratelimit.go:59-115, readloop.go:65-91, bitfield.go:43-47 |
| C89 | `C89_refuted_wait` | while the rate limiter is running, it resets the count (by an atomic operation) when Write reads it (by an ordinary one, in a loop without any synchronisation). | swarm.go:120-166, peerhandler.go:50-314, msghandler.go:11-76, piecetracker.go:76-174, ratelimit.go:59-115, readloop.go:65-91, bitfield.go:43-47 |
| C91 | `C91_refuted_paths` | is false for the paths on the disk: every file's path has the torrent's name in it. A torrent file of little more than `F * F` bytes (with a long name, and `F` files of one byte with different names that make up a piece) is accepted, and the paths of its files take `F * F * F` bytes. | decode.go:Decode, message.go:DecodeAll, tracker.go:newResponse, piecemap.go:MakePieceMap, info.go:FromDict, swarm.go:Validate, peerhandler.go:NewPeerHandler |
| C91 | `C91_refuted_buffer` | is false for the buffer: however much memory there is (below the largest number), there is a torrent file of less than 150 bytes, with one file of one byte and the one piece it needs, which is accepted and for which the process ends when it checks the file, whatever is on the disk. | decode.go:Decode, message.go:DecodeAll, tracker.go:newResponse, piecemap.go:MakePieceMap, info.go:FromDict, swarm.go:Validate, peerhandler.go:NewPeerHandler |
| C92 | `C92_refuted_zero` | with limit 0: a state can be reached in which a `Write` has the lock and another one waits for it, and in every continuation both stay where they are: the lock is never free again. | ratelimit.go:Write, piecetracker.go:RegisterBF, piecetracker.go:NextPiece, peerhandler.go:requestLoop, msghandler.go:handleBitfield |
| C93 | `C93_refuted` | a torrent file that bears the name of the file it describes, in the working directory: the first start succeeds and leaves four bytes of it, and no later one succeeds. | swarm.go:NewSwarm, fileio.go:OCATAll, futils.go:OCAT, torrent.go:FromTorrentFile |
| C94 | `C94_refuted_smuggled` | one have message that is too long is not skipped; behind its first four bytes of payload, which may be anything, whatever messages its payload contains are delivered as if the peer had sent them. | message.go:DecodeAll, message.go:Decode |
| C94 | `C94_refuted_swallowed` | a have message that is too short takes bytes of what follows with it: four bytes of payload are skipped in any case. So a message of five bytes behind an empty have message is lost. | message.go:DecodeAll, message.go:Decode |
| C94 | `C94_refuted_unknown` | a message of a type this client does not know – such as cancel (8), port (9) or an extension message (20) of another client – takes everything that was received together with it with it. | message.go:DecodeAll, message.go:Decode |
| C95 | `C95_refuted` | in every state of every client, five bytes of any peer end the process, and five other bytes keep the connection's goroutine busy for ever. | msghandler.go:handleMessage, msghandler.go:handleRequest, msghandler.go:handleBitfield, message.go:DecodeAll |
| C96 | `C96_refuted_registered` | is false: for a torrent with more than 131032 pieces nothing that any peers do, in any execution, makes the client know of a single piece of theirs, and there is never anything to ask them for. | peerhandler.go:RecvBufSize, peerhandler.go:recvLoop, readloop.go:Run, message.go:DecodeAll |
| C96 | `C96_refuted_block` | is false also for blocks of the size that is usual and that this client asks for, 16 KiB: if the message with such a block arrives in buffers of full size, what is handled is what the last 13 bytes of the block happen to mean as messages. | peerhandler.go:RecvBufSize, peerhandler.go:recvLoop, readloop.go:Run, message.go:DecodeAll |
| C96 | `C96_refuted_honest` | is false: for every torrent with at least 131072 pieces the bitfield of an honest peer, one that has just four of the pieces, can end the whole process. | peerhandler.go:RecvBufSize, peerhandler.go:recvLoop, readloop.go:Run, message.go:DecodeAll |
| C97 | `C97_refuted` | is false: whatever piece a client has, any bytes of the right number can be put into its files in the piece's place, and these bytes are what it sends when asked for the piece. | msghandler.go:handleRequest, fileio.go:ReadPiece |
| C98 | `C98_refuted_twice` | is false: somebody who comes from two ports is counted twice. In every state of every execution, with any id (it may be our own), unless a piece gets too many peers. | piecetracker.go:register, info.go:MakePeer, peerhandler.go:FromIncoming, peerhandler.go:FromBootstrap |
| C98 | `C98_refuted_both_ways` | is false for peers that only do what the protocol asks for: one that is in the tracker's list, so that we connect to it, and that connects to us as well, is counted twice, also if it has the same port on both sides. | piecetracker.go:register, info.go:MakePeer, peerhandler.go:FromIncoming, peerhandler.go:FromBootstrap |
| C98 | `C98_refuted_crash` | is false, and this can end the process: in every state of every execution somebody who has not been here before can do so with at most 64 connections from one address, with one id, by sending nothing but a correct bitfield on each. | piecetracker.go:register, info.go:MakePeer, peerhandler.go:FromIncoming, peerhandler.go:FromBootstrap |
| C98 | `C98_refuted_self` | is false: the client counts itself. A connection whose handshake has our own id (we get one if our own address is in the tracker's list) is accepted, and what it announces is counted. | piecetracker.go:register, info.go:MakePeer, peerhandler.go:FromIncoming, peerhandler.go:FromBootstrap |
| C99 | `C99_refuted_twice` | is false: somebody who is in the tracker's list twice is connected to twice. | swarm.go:Start, swarm.go:runListener, swarm.go:NewSwarm, peerhandler.go:FromBootstrap, peerhandler.go:FromIncoming |
| C99 | `C99_refuted_retry` | is false: nobody is tried again. Each peer that is in the list once may fail to answer when it is called, and then we never connect to it, and never call it, whatever happens later. | swarm.go:Start, swarm.go:runListener, swarm.go:NewSwarm, peerhandler.go:FromBootstrap, peerhandler.go:FromIncoming |
| C99 | `C99_refuted_listen` | is false: if the port is taken (another client is running), the process ends with a panic, after it has announced itself to the tracker and has changed the files. | swarm.go:Start, swarm.go:runListener, swarm.go:NewSwarm, peerhandler.go:FromBootstrap, peerhandler.go:FromIncoming |
| C100 | `C100_refuted_bitfield` | for bitfields: the text of a bitfield does not say which pieces its sender has; a peer with everything and a peer with nothing look the same. | message.go:msgBase.String, no_payload.go:MsgChoke.String, have.go:MsgHave.String, bitfield.go:MsgBitfield.String, request.go:MsgRequest.String, piece.go:MsgPiece.String, keepalive.go:MsgKeepAlive.String |
| C101 | `C101_refuted_silent` | is false: if the tracker takes the connection and never answers, the program neither serves nor ends, although everything else is ready: `http.Client` is used without a time limit. | main.go:main, main.go:CmdSwarm, main.go:CmdTorInfo, swarm.go:NewSwarm, swarm.go:Swarm.Start, tracker.go:do |
| C101 | `C101_refuted_tracker` | is false: a tracker that cannot be reached, or answers with an error, ends the program: peers cannot get what is there from this client, however complete it is. | main.go:main, main.go:CmdSwarm, main.go:CmdTorInfo, swarm.go:NewSwarm, swarm.go:Swarm.Start, tracker.go:do |
| C101 | `C101_refuted_rest` | is false: the program never rests. Whatever state the client is in, as long as it lives the main goroutine goes around its empty loop: there is an execution in which nothing happens at all and which takes steps for ever. | main.go:main, main.go:CmdSwarm, main.go:CmdTorInfo, swarm.go:NewSwarm, swarm.go:Swarm.Start, tracker.go:do |
| C101 | `C101_refuted_url` | is false: with an announce URL that is not a URL everything is prepared on the disk, files of full length included, and then the program panics instead of ending with a message; it never serves. | main.go:main, main.go:CmdSwarm, main.go:CmdTorInfo, swarm.go:NewSwarm, swarm.go:Swarm.Start, tracker.go:do |
| C102 | `C102_refuted_greetings` | is false of what we send as a greeting: whatever the limit, at any time any number of bytes can be sent within one second, to peers that connect. | swarm.go:NewSwarm, msghandler.go:handleRequest, ratelimit.go:RateLimitIO.Write, ratelimit.go:RateLimitIO.Read, peerhandler.go:recvLoop |
| C102 | `C102_refuted_download` | is false of what we receive: whatever the limits, at any time any number of bytes can be received within one second. | swarm.go:NewSwarm, msghandler.go:handleRequest, ratelimit.go:RateLimitIO.Write, ratelimit.go:RateLimitIO.Read, peerhandler.go:recvLoop |
| C102 | `C102_refuted_burst` | is false of single seconds even for blocks: with any limit but 0, blocks that were admitted in as many seconds can all be sent in one. | swarm.go:NewSwarm, msghandler.go:handleRequest, ratelimit.go:RateLimitIO.Write, ratelimit.go:RateLimitIO.Read, peerhandler.go:recvLoop |
| C103 | `C103_refuted` | is false: whatever the message, the last line need not be the check mark and the message. | utils.go:Spinner |
| C104 | `C104_refuted_caught` | is false: data that ends inside a string is not said to end too early. | decode.go:Decode, decode.go:decodeString, decode.go:decodeInt, decode.go:DecoderError.Error |
| C104 | `C104_refuted_first` | is false: when a number is too long, its end is said to be wrong, or the data to end too early, though no byte behind the number would help. | decode.go:Decode, decode.go:decodeString, decode.go:decodeInt, decode.go:DecoderError.Error |
| C104 | `C104_refuted_where` | is false: an error about a number does not tell where it is. The same text is given wherever the mistake is. | decode.go:Decode, decode.go:decodeString, decode.go:decodeInt, decode.go:DecoderError.Error |
| C105 | `C105_refuted_missing` | the text says that both keys are missing, and both are there. | torrent.go:FromTorrentFile, info.go:FromDict, entrybase.go:FromBenList, dict.go:DictBadTypeError.Error, dict.go:DictMissingKeyError.Error, piecemap.go:MakePieceMap |
| C105 | `C105_refuted_which` | the text does not tell which file it is about; here it is the first or the second one that has no length. | torrent.go:FromTorrentFile, info.go:FromDict, entrybase.go:FromBenList, dict.go:DictBadTypeError.Error, dict.go:DictMissingKeyError.Error, piecemap.go:MakePieceMap |
| C105 | `C105_refuted_address` | if the value of `info` is not a dictionary, the text does not tell which dictionary has the wrong value, but that it is at 0x0. | torrent.go:FromTorrentFile, info.go:FromDict, entrybase.go:FromBenList, dict.go:DictBadTypeError.Error, dict.go:DictMissingKeyError.Error, piecemap.go:MakePieceMap |
| C105 | `C105_refuted_format` | the text of the torrent file is used as a format; the path `%d` is not shown. | torrent.go:FromTorrentFile, info.go:FromDict, entrybase.go:FromBenList, dict.go:DictBadTypeError.Error, dict.go:DictMissingKeyError.Error, piecemap.go:MakePieceMap |
| C106 | `C106_refuted_status` | that the server did not find the page, or cannot be reached at the moment, is not said. The text is about bencoding, and is the same whatever the status. | tracker.go:do, tracker.go:newResponse, tracker.go:stringSource.GetPeers, tracker.go:listSource.GetPeers, tracker.go:Error.Error, dict.go:DictBadTypeError.Error, dict.go:DictMissingKeyError.Error |
| C106 | `C106_refuted_reason` | an answer with the status of a failure is taken for a success, also if it comes with a reason that is not a text. | tracker.go:do, tracker.go:newResponse, tracker.go:stringSource.GetPeers, tracker.go:listSource.GetPeers, tracker.go:Error.Error, dict.go:DictBadTypeError.Error, dict.go:DictMissingKeyError.Error |
| C106 | `C106_refuted_entry` | the text about an element of the list of peers that is not a dictionary does not show this element, but the peers in front of it. | tracker.go:do, tracker.go:newResponse, tracker.go:stringSource.GetPeers, tracker.go:listSource.GetPeers, tracker.go:Error.Error, dict.go:DictBadTypeError.Error, dict.go:DictMissingKeyError.Error |
| C106 | `C106_refuted_forged` | a tracker can give as its reason what the client says about something else. | tracker.go:do, tracker.go:newResponse, tracker.go:stringSource.GetPeers, tracker.go:listSource.GetPeers, tracker.go:Error.Error, dict.go:DictBadTypeError.Error, dict.go:DictMissingKeyError.Error |
| C108 | `C108_refuted_wd` | a missing working directory is never reported, although there is a text for it; the program starts without one. | opts.go:Validate, opts.go:parseSizeUnits, opts.go:initOpts |
| C108 | `C108_refuted_which` | it is not said which of the two limits is wrong. | opts.go:Validate, opts.go:parseSizeUnits, opts.go:initOpts |
| C108 | `C108_refuted_shown` | nothing of a size that starts with a letter is shown, it is always the empty string that is said to be wrong. | opts.go:Validate, opts.go:parseSizeUnits, opts.go:initOpts |
| C108 | `C108_refuted_lines` | the command is shown as it is, so the message may have more lines than one. | opts.go:Validate, opts.go:parseSizeUnits, opts.go:initOpts |
| C109 | `C109_refuted_peer` | anybody who can connect can have any line of 18 bytes written to the log. | swarm.go:NewSwarm, swarm.go:Start, peerhandler.go:Loop, peerhandler.go:recvLoop, peerhandler.go:pingLoop, info.go:MakePeer |
| C109 | `C109_refuted_date` | anybody who can connect can have a line written to the log that begins with any date and time, although all that follows is `@` and the address. | swarm.go:NewSwarm, swarm.go:Start, peerhandler.go:Loop, peerhandler.go:recvLoop, peerhandler.go:pingLoop, info.go:MakePeer |
| C109 | `C109_refuted_tracker` | the tracker can have any lines written to the log, with any dates, one behind the other: it names a peer with them as its id. | swarm.go:NewSwarm, swarm.go:Start, peerhandler.go:Loop, peerhandler.go:recvLoop, peerhandler.go:pingLoop, info.go:MakePeer |
| C109 | `C109_refuted_torrent` | a torrent file can have any lines written to the log, with any dates, one behind the other: the announce URL is shown before it is looked at. (The program panics then, C65.) | swarm.go:NewSwarm, swarm.go:Start, peerhandler.go:Loop, peerhandler.go:recvLoop, peerhandler.go:pingLoop, info.go:MakePeer |
| C109 | `C109_refuted_fragment` | also for torrent files that the program serves: `url.Parse` takes off what follows the first `#` before it looks for control characters, so the lines can be in the fragment of an announce URL that works. | swarm.go:NewSwarm, swarm.go:Start, peerhandler.go:Loop, peerhandler.go:recvLoop, peerhandler.go:pingLoop, info.go:MakePeer |
| C109 | `C109_refuted_fragment_parsed` | with the real `url.Parse`: the lines (without `%`) are written by a program that serves the torrent. | swarm.go:NewSwarm, swarm.go:Start, peerhandler.go:Loop, peerhandler.go:recvLoop, peerhandler.go:pingLoop, info.go:MakePeer |
| C110 | `C110_refuted_keepalive` | is refuted for the keep-alive messages: "sent keep alive" is said although none was ever written, to anybody whom we call and whatever happened before. | peerhandler.go:Loop, peerhandler.go:recvLoop, peerhandler.go:pingLoop, peerhandler.go:requestLoop, peerhandler.go:FromIncoming, msghandler.go:handleMessage, swarm.go:Start, readloop.go:Run |
| C110 | `C110_refuted_lost` | is refuted for the keep-alive messages in the other direction: one that could not be written need never be spoken of. If reading fails in the same moment, then nobody hears of the keep-alive, and from then on, whatever happens, `pingLoop` says neither that it failed nor that it ends. | peerhandler.go:Loop, peerhandler.go:recvLoop, peerhandler.go:pingLoop, peerhandler.go:requestLoop, peerhandler.go:FromIncoming, msghandler.go:handleMessage, swarm.go:Start, readloop.go:Run |
| C110 | `C110_refuted_done` | is refuted for the end of a connection: as nobody receives from `ph.chErr`, "peer … done" is never said, of nobody. | peerhandler.go:Loop, peerhandler.go:recvLoop, peerhandler.go:pingLoop, peerhandler.go:requestLoop, peerhandler.go:FromIncoming, msghandler.go:handleMessage, swarm.go:Start, readloop.go:Run |
| C110 | `C110_refuted_killed` | is refuted for the line "killing …": behind it any number of keep-alive messages can still be written. | peerhandler.go:Loop, peerhandler.go:recvLoop, peerhandler.go:pingLoop, peerhandler.go:requestLoop, peerhandler.go:FromIncoming, msghandler.go:handleMessage, swarm.go:Start, readloop.go:Run |
| C111 | `C111_refuted_payload` | what is called the length of the payload is not: a message that announces `l` bytes and of which some are missing is said to have a payload that is five bytes longer than what has come of it. | message.go:Decode, message.go:DecodeAll, have.go:DecodeMsgHave, request.go:DecodeMsgRequest, piece.go:DecodeMsgPiece, bitfield.go:DecodeMsgBitfield, bitfield.go:FromBytes |
| C111 | `C111_refuted_piece` | a payload of a piece message that is not as long as it should be is said to have to have four bytes, however long it should be; and it is not even said: `Decode` looks at the message before it looks at the error, and the program stops. | message.go:Decode, message.go:DecodeAll, have.go:DecodeMsgHave, request.go:DecodeMsgRequest, piece.go:DecodeMsgPiece, bitfield.go:DecodeMsgBitfield, bitfield.go:FromBytes |
| C111 | `C111_refuted_ignored` | nobody is told. When bytes are refused as a whole, `DecodeAll` returns no message and no error, handling them succeeds and changes nothing, and the text is lost. | message.go:Decode, message.go:DecodeAll, have.go:DecodeMsgHave, request.go:DecodeMsgRequest, piece.go:DecodeMsgPiece, bitfield.go:DecodeMsgBitfield, bitfield.go:FromBytes |
| C112 | `C112_refuted_which` | the text does not tell which piece was asked for: a client that has everything says the same about all pieces that do not exist, whatever the ranges. | msghandler.go:handleMessage, msghandler.go:handleRequest, msghandler.go:handleBitfield, info.go:PieceLookup, fileio.go:ReadPiece |
| C112 | `C112_refuted_beyond` | a client that lacks a piece says nothing about requests for pieces that do not exist: as long as its bitfield has room for the index the request is ignored (unless the bit is set), and beyond that the program stops. | msghandler.go:handleMessage, msghandler.go:handleRequest, msghandler.go:handleBitfield, info.go:PieceLookup, fileio.go:ReadPiece |
| C112 | `C112_refuted_eof` | the peer gets the blame. When one of our own files is too short for a piece that we have, any request for the piece makes us give up the connection, and what is said about the peer is "EOF". | msghandler.go:handleMessage, msghandler.go:handleRequest, msghandler.go:handleBitfield, info.go:PieceLookup, fileio.go:ReadPiece |
| C113 | `C113_refuted_where` | it is not said where. The text for a list is that for its first element that is wrong, and the text for a dictionary that for a value in it, or is the same for a key and a value that are empty. | encode.go:Encode, encode.go:encode, encode.go:encodeString, encode.go:encodeDict, encode.go:encodeList, encode.go:EncoderError.Error |
| C115 | `C115_refuted_part` | part of the piece may have been written when an error is returned. The number that comes with the error is 0. | fileio.go:WritePiece, fileio.go:write, fileio.go:PathError.Error, info.go:PieceLookup, entry.go:PieceInfo |
| C115 | `C115_refuted_which` | it is not said which piece was refused, or what its hash is. The text is the same for all data that is wrong, and for all pieces. | fileio.go:WritePiece, fileio.go:write, fileio.go:PathError.Error, info.go:PieceLookup, entry.go:PieceInfo |
| C116 | `C116_refuted_square` | a length may be written with any number of zeros in front. Such bytes are accepted, and the work is half the square of their number. | decode.go:19-205 |
| C116 | `C116_refuted` | no factor is large enough, even for the bytes that are accepted. | decode.go:19-205 |
| C117 | `C117_refuted` | for every torrent, whoever asks `k` times for no bytes at all of a piece we have is answered `k` times, and each time the whole piece is read. | msghandler.go:11-76, fileio.go:133-163 |
| C118 | `C118_refuted` | as long as a piece is missing, `requestLoop` goes round and round: from every state in which it is looking, for every number of steps, there is an execution in which it does nothing else and everything else stays as it is. This is also so when the connection has been given up. | peerhandler.go:142-314 |
| C118 | `C118_refuted_stop` | the only way for it to stop is to be complete, or to be stuck in making requests, which does not end either (C52). | peerhandler.go:142-314 |
| C119 | `C119_refuted_cut` | a torrent with a negative piece length is not refused; its file, ten bytes long, is first cut to the three bytes of the torrent, then the program panics, whatever else the world is like. | swarm.go:39-118, info.go:157-192, flist.go:5-35, piecemap.go:13-62, futils.go:34-101 |
| C120 | `C120_refuted_others` | BEP 3 lets the tracker give the address of a peer as an IPv6 address or as the name of a host. Such peers are never contacted at that address: with an IPv6 address nothing is sent, whatever the network does; with a name, another host, `<nil>`, is looked up instead. | tracker.go:listSource, info.go:MakePeer, peerhandler.go:FromBootstrap |
| C121 | `C121_refuted_dropped` | (parameters): a parameter with a `;` in its value, which servers read, does not reach the tracker; nor does one with a `%` that is not an escape. | tracker.go:newRequest, tracker.go:Get, tracker.go:do |
| C122 | `C122_refuted_empty_bitfield` | five bytes are enough for any amount of work. | message.go:DecodeAll, message.go:Decode, bitfield.go:calcNset, msghandler.go:handleMessage, msghandler.go:handleBitfield, piecetracker.go:RegisterBF, piecetracker.go:NextPiece |
| C123 | `C123_refuted_duplicates` | for files with the same path: although no call fails without reason and nothing is forbidden, the data of a file can be lost. The torrent names one file twice, which makes the first `os.File` garbage; opening the next file fails as there are no descriptors left; the garbage collector closes the first one; and then the file is created anew, over the data that was there. Start-up succeeds. | futils.go:62-149, fileio.go:55-77 |
| C124 | `C124_refuted_segments` | for paths with empty segments: a redirection to `/..//b` is a request for `/b`; RFC 3986 says `//b`, and nothing else. | tracker.go:86-103 |
| C124 | `C124_refuted_elsewhere` | an announcement stays with the tracker that the torrent names. A tracker sends the client to another host, without encryption although the torrent asked for it, and the parameters of the announcement are lost; the answer of that host is taken for the tracker's. | tracker.go:86-103 |
| C125 | `C125_refuted_outside` | is false: although the names of the torrent lead below the working directory, preparing its files cuts off a file elsewhere, when a link leads there. | futils.go:13-101, fileio.go:57-77, info.go:213-244 |
| C125 | `C125_refuted_shared` | is false: when the paths of two files lead to the same place, preparing the second destroys the first, which was complete, and there is no error. | futils.go:13-101, fileio.go:57-77, info.go:213-244 |
| C126 | `C126_refuted_status` | the status: the client never looks at it. Every answer that may have a body is taken like one with status 200, also if the status says that there is no such page or that the tracker has failed. | tracker.go:100-129, tracker.go:77-84 |
| C126 | `C126_refuted_silent` | the end: if the tracker falls silent in the middle of its answer, the client waits for ever, however the body is sent and however much of it is there. | tracker.go:100-129, tracker.go:77-84 |
| C129 | `C129_refuted_silent` | the end: if the last request brings nothing at all, or a proper part of an answer and then nothing, or a part of a small redirection (which need not be read at all) and then nothing, the client waits for ever. | tracker.go:77-84, tracker.go:86-98, tracker.go:100-129 |

## 8. Tests of the theorems and of the model

Wrong programs: a script (not part of the deliverable) copies the Lean project to a scratch directory, changes one definition of the model the
way a bug would, rebuilds with `lake build`, and notes which proofs break; broken lemmas are then cut off, so that independent
failures in later modules show up as well.  `seeded/LOG.jsonl` has one line per attempt: the definition, the edit, the claim it breaks, the
proofs that broke (`broken_proofs`), the property theorems that depend on one of those (`theorems_failed`) and what was tightened.

So far 2692 wrong programs, 2587 detected; not detected: F14, M19, N11, S10, O10, D86, D87, L81, S20, S45, T21, T53, T64, T81, T91, T114, T132, V46, QA16, LT20, ME15, BD2, A1_34, A1_40, A1_50, A1_54, A1_65, A1_96, A1_99, A1_101, A1_153, A1_166, A1_184, A1_231, A2_37, A2_38, A2_54, A2_87, A2_94, A2_107, A2_129, A2_131, A2_135, A2_144, A2_149, A2_176, A2_178, A2_190, A2_201, A2_234, A2_242, A2_246, A2_247, A2_254, A2_265, A2_299, A3_12, A3_20, A3_37, A3_40, A3_45, A3_54, A3_55, A3_59, A3_61, A3_72, A3_74, A3_75, A3_106, A3_116, A3_128, A3_139, A3_140, A3_157, A3_158, A4_42, A4_46, A4_57, A4_85, A4_94, A4_100, A4_144, A4_207, A4_221, A4_277, A4_291, A4_315, A4_332, A4_375, A5_19, A5_31, A5_44, A5_51, A5_67, A6_38, A6_51, A6_136, A6_219, A6_242, A6_259, A6_260, A6_281, A6_331, A6_337, A6_358 (see the notes in the log).

The model: `lean/Verif/Tests/` has every case of every test file of the repository (`*_test.go`), with the expected values written there, as `#guard`
commands that evaluate the model while it is built.  These are tests, not proofs, and no theorem depends on them; they are evidence that the model does what the
Go code does.  They go through the whole chain: with SHA-1 (`Model/Sha1.lean`, checked on the standard vectors) the model computes the
info hashes that the repository's tests expect for the torrent files in `/repo/test`, both by loading them and (`multifile`, `tinyfile`) by creating the torrent from the
files.  Not covered: `medfile` and `bigfile` are too long to be created by evaluation (only loaded), and `TestBitfieldMem` is about memory
shared between slices, which byte lists do not have.  All cases pass.
