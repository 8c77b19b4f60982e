{"id": "C01", "title": "Bencode decode inverts encode", "statement": "For every value made of non-empty strings, 64-bit integers, lists and dictionaries with distinct non-empty keys, bencode.Encode succeeds and bencode.Decode of the produced bytes returns the same value (dictionaries compared as maps).", "quantifier": "all values: every nesting depth, every list/dictionary size, every string content, every int64", "why_tests_cant": "The value space is unbounded and recursive; tests only sample a few literals (and indeed miss the int64 minimum).", "anchors": ["src/bencode/encode.go:Encode", "src/bencode/decode.go:Decode"]}
{"id": "C02", "title": "Canonical documents re-encode to the same bytes", "statement": "For every byte string that is a canonical bencoding (keys strictly increasing, minimal integers, non-empty strings, nothing left over), Decode accepts it and Encode of the result reproduces exactly the same bytes. A torrent's info-hash therefore does not depend on the decode/encode detour.", "quantifier": "all canonical bencode documents whose integers lie strictly above the int64 minimum", "why_tests_cant": "Needs all documents; three sample torrent files are what the tests cover.", "anchors": ["src/bencode/encode.go:Encode", "src/bencode/decode.go:Decode", "src/torrent/torrent.go:FromTorrentFile"]}
{"id": "C03", "title": "Encoding does not depend on map order", "statement": "Encode yields the same result (same bytes, same success or failure) for two dictionaries holding the same key/value pairs whatever the iteration order of the underlying maps at any depth, and emits dictionary keys in strictly increasing byte order.", "quantifier": "all values and all iteration orders of every nested map", "why_tests_cant": "Go randomises map iteration; a test sees one order per run.", "anchors": ["src/bencode/encode.go:encodeDict"]}
{"id": "C04", "title": "Encoding is unambiguous", "statement": "Two values that Encode to the same bytes are the same value, and no encoding is a proper prefix of another one.", "quantifier": "all pairs of encodable values", "why_tests_cant": "A statement about all pairs of unbounded values.", "anchors": ["src/bencode/encode.go:Encode"]}
{"id": "C05", "title": "Decode is total on arbitrary bytes", "statement": "For every byte slice (any length, any spare capacity) Decode finishes and returns either a value or an error; it never lets a panic escape, and every string it returns inside a dictionary or list is a contiguous part of the input.", "quantifier": "all byte slices", "why_tests_cant": "Adversarial inputs are unbounded; termination over all inputs cannot be sampled.", "anchors": ["src/bencode/decode.go:Decode", "src/bencode/decode.go:decodeDict", "src/bencode/decode.go:decodeList"]}
{"id": "C06", "title": "Decode depends only on the bytes it was given", "statement": "The result of Decode is a function of the slice's visible bytes: memory behind the slice's length (its spare capacity) never influences the result.", "quantifier": "all byte slices, all contents of their spare capacity", "why_tests_cant": "Capacity is an allocator accident; unit tests use literals with nearly no spare capacity and miss it.", "anchors": ["src/bencode/decode.go:decodeString", "src/torrent/torrent.go:FromTorrentFile", "src/tracker/tracker.go:do"]}
{"id": "C07", "title": "Truncated documents are rejected", "statement": "Every proper prefix of the encoding of a value makes Decode return an error.", "quantifier": "all encodable values and all truncation points", "why_tests_cant": "All values times all cut points.", "anchors": ["src/bencode/decode.go:Decode"]}
{"id": "C08", "title": "Decode looks at one value only", "statement": "If Decode succeeds on a byte string then it succeeds with the same value when arbitrary further bytes are appended.", "quantifier": "all accepted inputs and all suffixes", "why_tests_cant": "Quantifies over all inputs and suffixes.", "anchors": ["src/bencode/decode.go:Decode"]}
{"id": "C09", "title": "Typed dictionary access is exact", "statement": "For every dictionary and key: GetString/GetInt/GetList/GetDict return the stored value exactly when the key is present with that type, a missing-key error exactly when the key is absent and a bad-type error otherwise; GetUint returns the stored integer; decoding a dictionary with repeated keys keeps the last one.", "quantifier": "all dictionaries, keys and stored values", "why_tests_cant": "Needs every stored value, including negative integers for the unsigned accessor.", "anchors": ["src/bencode/dict.go:GetString", "src/bencode/dict.go:GetInt", "src/bencode/dict.go:GetUint", "src/bencode/dict.go:GetDict", "src/bencode/dict.go:GetList"]}
{"id": "C10", "title": "Messages are encoded in the BEP 3 wire format", "statement": "For every peer message (keep-alive, choke, unchoke, interested, not-interested, have, bitfield, request, piece) Encode yields the 4-byte big-endian length, the type byte and the payload fields in order.", "quantifier": "all messages: every index, offset, length, block and bitfield content", "why_tests_cant": "Field values range over 2^32 each and blocks are arbitrary; there is no test at all for request encoding.", "anchors": ["src/p2p/message.go:Encode", "src/p2p/have.go:Encode", "src/p2p/request.go:Encode", "src/p2p/piece.go:Encode", "src/p2p/bitfield.go:Encode", "src/p2p/keepalive.go:Encode"]}
{"id": "C11", "title": "Messages round-trip through the wire format", "statement": "For every well-formed message, Decode of its wire form followed by arbitrary further bytes returns that message and reports having read exactly the length of the wire form.", "quantifier": "all messages and all following bytes", "why_tests_cant": "All field values, payloads and trailing bytes.", "anchors": ["src/p2p/message.go:Decode"]}
{"id": "C12", "title": "A stream of complete messages decodes to that stream", "statement": "For every sequence of well-formed messages, DecodeAll of the concatenated wire forms returns exactly these messages in order and reports every byte as read.", "quantifier": "all message sequences of any length", "why_tests_cant": "Sequence length and contents are unbounded.", "anchors": ["src/p2p/message.go:DecodeAll"]}
{"id": "C13", "title": "Decoding network bytes never crashes", "statement": "For every byte string received from a peer, p2p.Decode returns (a message or an error) without panicking.", "quantifier": "all byte strings", "why_tests_cant": "Crash inputs are specific bit patterns (length prefix overflow) that example-based tests do not hit.", "anchors": ["src/p2p/message.go:Decode", "src/p2p/piece.go:DecodeMsgPiece"]}
{"id": "C14", "title": "Decoding network bytes always finishes", "statement": "For every byte string received from a peer, DecodeAll finishes.", "quantifier": "all byte strings", "why_tests_cant": "Non-termination is triggered by one specific frame at any position of the stream.", "anchors": ["src/p2p/message.go:DecodeAll", "src/p2p/bitfield.go:DecodeMsgBitfield"]}
{"id": "C15", "title": "Reported read counts are exact", "statement": "Whenever Decode succeeds, Read equals 4 plus the announced length, is between 4 and the input length, and the message depends only on those bytes; whenever DecodeAll returns, its Read is the total wire length of the returned messages and never exceeds the input length.", "quantifier": "all byte strings", "why_tests_cant": "All inputs.", "anchors": ["src/p2p/message.go:Decode", "src/p2p/message.go:DecodeAll"]}
{"id": "C16", "title": "Message boundaries do not depend on TCP segmentation", "statement": "Decoding a byte stream chunk by chunk yields the same messages as decoding it in one piece.", "quantifier": "all message streams and all ways of cutting them into reads", "why_tests_cant": "All cut points of all streams; tests deliver whole messages.", "anchors": ["src/p2p/message.go:DecodeAll", "src/swarm/peerhandler.go:recvLoop"]}
{"id": "C17", "title": "A bitfield is a map from index to bit", "statement": "After any sequence of Set and Fill calls, Get(i) returns the value most recently given to bit i (false if never set); operations on one index never change another index.", "quantifier": "all sizes, all operation sequences, all in-range indices", "why_tests_cant": "All histories; byte-boundary and masking mistakes only show for specific indices.", "anchors": ["src/bf/bitfield.go:Set", "src/bf/bitfield.go:Get", "src/bf/bitfield.go:Fill", "src/bf/bitfield.go:NewBitfield"]}
{"id": "C18", "title": "The set-bit counter is exact", "statement": "After any sequence of operations, Nset equals the number of indices below Nbits whose bit is set, and Complete is true exactly when all of them are.", "quantifier": "all bitfields reachable by NewBitfield/FromBytes, Set, Fill, SetNbits", "why_tests_cant": "A counter maintained incrementally: needs an inductive invariant over histories.", "anchors": ["src/bf/bitfield.go:Nset", "src/bf/bitfield.go:Complete", "src/bf/bitfield.go:calcNset", "src/bf/bitfield.go:SetNbits"]}
{"id": "C19", "title": "Received bitfields are interpreted most significant bit first", "statement": "FromBytes accepts a buffer exactly when the number of bits fits its byte count, and then bit i is bit 7-(i mod 8) of payload byte i/8; out-of-range access panics rather than returning a value.", "quantifier": "all byte buffers, all bit counts, all indices", "why_tests_cant": "All buffers and indices.", "anchors": ["src/bf/bitfield.go:FromBytes", "src/bf/bitfield.go:Get"]}
{"id": "C20", "title": "Bitfield exchange is lossless", "statement": "If one client encodes its own bitfield as a message and another client of the same torrent decodes and registers it, the receiver sees the same bit for every piece and the same count.", "quantifier": "all piece counts and all bitfield states", "why_tests_cant": "All sizes and states, composition of four functions.", "anchors": ["src/p2p/bitfield.go:Encode", "src/p2p/bitfield.go:DecodeMsgBitfield", "src/swarm/msghandler.go:handleBitfield", "src/bf/bitfield.go:SetNbits"]}
{"id": "C21", "title": "File positions in the piece space are right", "statement": "For every list of file lengths and every piece length, the start piece/offset and inclusive end piece/offset computed for each file are those of its first and last byte in the concatenation of all files.", "quantifier": "all lists of non-negative file lengths, all positive piece lengths", "why_tests_cant": "All lists; off-by-one errors appear only when files end exactly at a piece boundary or are empty.", "anchors": ["src/torrent/filesd/flist.go:MakeFileList"]}
{"id": "C22", "title": "Looking up the files of a piece is exact", "statement": "GetFiles(p) returns, in order, exactly the files that own at least one byte of piece p (and possibly empty files located there), for every piece index including out-of-range ones.", "quantifier": "all file lists, piece lengths and piece indices", "why_tests_cant": "The contiguous-slice implementation is only right because of a global ordering argument.", "anchors": ["src/torrent/filesd/flist.go:GetFiles"]}
{"id": "C23", "title": "The piece map partitions the torrent", "statement": "For consistent metadata, concatenating the byte ranges that PieceLookup(i) returns, in order, gives exactly bytes [i*pieceLen, min((i+1)*pieceLen, length)) of the concatenated files: no byte is missing, doubled or misplaced.", "quantifier": "all file lists with non-negative lengths, all positive piece lengths, all pieces", "why_tests_cant": "Needs induction over files and pieces; tests check six hand-drawn layouts.", "anchors": ["src/torrent/info/piecemap.go:MakePieceMap", "src/torrent/filesd/entry.go:PieceInfo", "src/torrent/info/info.go:PieceLookup"]}
{"id": "C24", "title": "Only consistent metadata is accepted", "statement": "NewTorInfo succeeds only if the number of piece hashes equals the number of pieces needed for the total length, and all file lengths are non-negative; otherwise it returns an error.", "quantifier": "all piece lengths, hash strings and file length lists", "why_tests_cant": "Adversarial metadata is unbounded.", "anchors": ["src/torrent/info/info.go:NewTorInfo", "src/torrent/info/piecemap.go:MakePieceMap"]}
{"id": "C25", "title": "Last piece length is right", "statement": "For consistent metadata LastPieceLen is between 1 and the piece length and full pieces plus the last piece add up to the total length.", "quantifier": "all consistent metadata", "why_tests_cant": "Arithmetic over all lengths.", "anchors": ["src/torrent/info/info.go:NewTorInfo", "src/torrent/info/info.go:LastPieceLen"]}
{"id": "C26", "title": "Written pieces are read back, other pieces are untouched", "statement": "After files are prepared, WritePiece(i, d) with d of the piece's size and matching hash, followed by any reads: ReadPiece(i) returns d, and every other piece reads as before. Over any history of accepted writes the store behaves like an array of pieces.", "quantifier": "all consistent torrents with distinct file paths, all histories of WritePiece/ReadPiece", "why_tests_cant": "All layouts times all histories.", "anchors": ["src/torrent/fileio/fileio.go:WritePiece", "src/torrent/fileio/fileio.go:ReadPiece"]}
{"id": "C27", "title": "Data with a wrong hash never reaches disk", "statement": "WritePiece with data whose SHA-1 differs from the recorded piece hash returns an error and leaves every file unchanged; same for an out-of-range index.", "quantifier": "all torrents, indices and data", "why_tests_cant": "All data; a test can show only one rejected block.", "anchors": ["src/torrent/fileio/fileio.go:WritePiece"]}
{"id": "C28", "title": "Preparing a file sets its size and keeps its data", "statement": "After OCAT(path, n) succeeds the file is n bytes long, its first min(n, old size) bytes are the old ones, the rest is zero, other files are unchanged, and repeating it changes nothing.", "quantifier": "all prior file contents (or absence), all target lengths", "why_tests_cant": "All sizes, including those around the 1 MiB write chunk.", "anchors": ["src/utils/futils.go:OCAT", "src/utils/futils.go:AppendZeros", "src/utils/futils.go:CreateZeroFilledFile", "src/torrent/fileio/fileio.go:OCATAll"]}
{"id": "C29", "title": "Preparing a file is crash-recoverable", "statement": "If the process dies at any point while OCAT runs, running OCAT again ends in the same state as an undisturbed run.", "quantifier": "all prior contents, target lengths and crash points between system calls", "why_tests_cant": "All crash points.", "anchors": ["src/utils/futils.go:OCAT", "src/utils/futils.go:AppendZeros"]}
{"id": "C30", "title": "Created torrents carry the right piece hashes", "statement": "CreateTorInfo over readable files yields, for every piece length, the concatenated SHA-1 hashes of the consecutive pieces of the concatenated file contents, however the operating system splits the reads.", "quantifier": "all file contents, all positive piece lengths, all read splittings", "why_tests_cant": "Read splitting is nondeterministic and buffer-boundary cases are unbounded.", "anchors": ["src/torrent/info/info.go:CreateTorInfo", "src/utils/utils.go:SegmentData"]}
{"id": "C31", "title": "A created torrent validates against its own files", "statement": "Start-up validation of a torrent created from files marks every piece as present and the bitfield complete; in general bit i is set exactly if the bytes on disk of piece i hash to the recorded hash.", "quantifier": "all file contents and piece lengths", "why_tests_cant": "End-to-end composition over all contents.", "anchors": ["src/swarm/swarm.go:Validate", "src/torrent/info/info.go:CreateTorInfo"]}
{"id": "C32", "title": "The info-hash is the hash of the info dictionary in the file", "statement": "For a torrent file, the info-hash equals SHA-1 of the bytes of the info dictionary's value as they appear in the file.", "quantifier": "all torrent files accepted by FromTorrentFile", "why_tests_cant": "All files; the encoder's error is dropped, which shows only for special contents.", "anchors": ["src/torrent/torrent.go:FromTorrentFile"]}
{"id": "C33", "title": "Info dictionary survives a load/save cycle", "statement": "For an info dictionary with exactly the keys this client writes, loading it with FromDict and converting back with Bencode gives the same dictionary, so NewTorrent and FromTorrentFile agree on the info-hash.", "quantifier": "all info dictionaries of single- and multi-file torrents in the client's own format", "why_tests_cant": "All metadata; path splitting and joining must be inverse.", "anchors": ["src/torrent/info/info.go:FromDict", "src/torrent/info/info.go:Bencode", "src/torrent/filesd/entrybase.go:FromBenList", "src/torrent/filesd/entrybase.go:Bencode"]}
{"id": "C34", "title": "Torrent files stay inside the working directory", "statement": "Every local path derived from a torrent lies below the working directory.", "quantifier": "all torrent metadata (names and path components) and all working directories", "why_tests_cant": "Adversarial path components are unbounded.", "anchors": ["src/torrent/info/info.go:FromDict", "src/torrent/filesd/entrybase.go:FromBenList"]}
{"id": "C35", "title": "Loading hostile torrent metadata never crashes", "statement": "FromTorrentFile returns a torrent or an error, without panicking, for every file content.", "quantifier": "all file contents", "why_tests_cant": "Adversarial input space.", "anchors": ["src/torrent/torrent.go:FromTorrentFile", "src/torrent/info/info.go:FromDict", "src/torrent/filesd/entrybase.go:FromBenList", "src/torrent/filesd/flist.go:MakeFileList"]}
{"id": "C36", "title": "Compact peer lists are decoded exactly", "statement": "A compact peer string is accepted exactly when its length is a multiple of 6, and then peer k has the four address bytes and big-endian port at offset 6k; encoding peers compactly and decoding gives them back.", "quantifier": "all byte strings / all peer lists", "why_tests_cant": "All strings.", "anchors": ["src/tracker/tracker.go:GetPeers"]}
{"id": "C37", "title": "Tracker responses are accepted or rejected for stated reasons", "statement": "A response carrying a failure reason is always rejected; otherwise it is accepted exactly when interval, complete and incomplete are integers and peers is a valid compact or dictionary peer list; the accepted state reports those numbers; processing never panics.", "quantifier": "all response dictionaries", "why_tests_cant": "All dictionaries, including ones with wrong types anywhere.", "anchors": ["src/tracker/tracker.go:newResponse", "src/tracker/tracker.go:do"]}
{"id": "C38", "title": "The tracker can recover the announced parameters", "statement": "Percent-decoding the announce query string gives back exactly the 20 raw info-hash bytes, peer id, port and counters.", "quantifier": "all info-hashes, peer ids, ports and counter values", "why_tests_cant": "All byte values; double escaping shows only for ids with reserved bytes.", "anchors": ["src/tracker/tracker.go:newRequest"]}
{"id": "C39", "title": "Transfer statistics add up", "statement": "After any sequence of updates, uploaded and downloaded are the sums of the increments (modulo 2^64) and left is the initial amount minus the sum of decrements, never going below zero.", "quantifier": "all histories of updates", "why_tests_cant": "All histories including overflow amounts.", "anchors": ["src/tracker/stats.go:DecLeft", "src/tracker/stats.go:IncUploaded", "src/tracker/stats.go:IncDnloaded"]}
{"id": "C40", "title": "Handshakes are valid exactly when they should be", "statement": "ValidHandshake accepts exactly the 68-byte strings with the protocol header and the given info-hash at their positions; MakeHandshake output is accepted for the same 20-byte info-hash, rejected for any other, and yields the peer id back.", "quantifier": "all byte strings, info-hashes and peer ids", "why_tests_cant": "All byte strings.", "anchors": ["src/swarm/handshake.go:ValidHandshake", "src/swarm/handshake.go:MakeHandshake"]}
{"id": "C41", "title": "Incoming peers are accepted only after a full handshake", "statement": "FromIncoming registers a peer only if the peer has sent 68 handshake bytes with our info-hash, and the recorded peer id is the one it sent.", "quantifier": "all incoming byte streams and all read splittings", "why_tests_cant": "Short reads depend on the network.", "anchors": ["src/swarm/peerhandler.go:FromIncoming"]}
{"id": "C42", "title": "Outgoing connections are bound to the right torrent", "statement": "On a connection this client opens, messages are processed only after the remote side has answered with a handshake carrying our info-hash, and nothing that follows that handshake is lost.", "quantifier": "all remote byte streams", "why_tests_cant": "All remote behaviours.", "anchors": ["src/swarm/peerhandler.go:FromBootstrap", "src/swarm/peerhandler.go:recvLoop", "src/swarm/msghandler.go:handleMessage"]}
{"id": "C43", "title": "Served blocks are the requested torrent bytes", "statement": "Whenever a piece message is sent in answer to a request, its block is exactly the bytes of the torrent at index*pieceLen+begin of the requested length, and only pieces we have are served.", "quantifier": "all requests, torrents and file contents", "why_tests_cant": "All (index, begin, length) triples, stale buffer contents depend on history.", "anchors": ["src/swarm/msghandler.go:handleRequest"]}
{"id": "C44", "title": "Requests from peers never crash the client", "statement": "For every request message a peer can send, handling it either sends a block, ignores it or reports an error, without panicking.", "quantifier": "all request messages and all client states", "why_tests_cant": "Adversarial triples in 2^96.", "anchors": ["src/swarm/msghandler.go:handleRequest", "src/bf/bitfield.go:Get"]}
{"id": "C45", "title": "A received bitfield registers exactly the announced pieces", "statement": "Handling a bitfield message of the right size registers the peer for exactly the pieces whose bit is set among the torrent's pieces, replaces the peer's bitfield, and a message of the wrong size changes nothing and is an error.", "quantifier": "all bitfield messages and tracker states", "why_tests_cant": "All bit patterns.", "anchors": ["src/swarm/msghandler.go:handleBitfield", "src/swarm/piecetracker.go:RegisterBF"]}
{"id": "C46", "title": "Availability tracking survives any number of peers", "statement": "For every history of Register, RegisterBF, Unregister and NextPiece calls (in any interleaving of goroutines, since each call holds the lock), no call panics, and each piece is filed under the number of distinct peers registered for it.", "quantifier": "all operation histories, any number of peers and pieces", "why_tests_cant": "Needs an invariant over histories and a pointer-structure argument; the crash needs 64 peers.", "anchors": ["src/swarm/piecetracker.go:register", "src/swarm/piecetracker.go:Unregister", "src/utils/ds/linklist.go:Remove"]}
{"id": "C47", "title": "NextPiece returns a rarest needed piece of that peer", "statement": "NextPiece(peer) returns a piece we do not have, that this peer has, and that has the fewest registered peers among such pieces; it reports none exactly if there is no such piece.", "quantifier": "all reachable tracker states, peers and own bitfields", "why_tests_cant": "All states.", "anchors": ["src/swarm/piecetracker.go:NextPiece"]}
{"id": "C48", "title": "A piece is handed to one peer at a time", "statement": "Once NextPiece has returned index i to some peer, no NextPiece call returns i again until that peer is unregistered.", "quantifier": "all histories of tracker operations", "why_tests_cant": "A property of pairs of calls in all histories.", "anchors": ["src/swarm/piecetracker.go:NextPiece", "src/swarm/piecetracker.go:Unregister"]}
{"id": "C49", "title": "Unregistering a peer removes every trace of its availability", "statement": "After Unregister(peer) the peer is registered for no piece, every other peer's registrations are unchanged, and NextPiece(peer) reports none.", "quantifier": "all reachable tracker states", "why_tests_cant": "All states.", "anchors": ["src/swarm/piecetracker.go:Unregister"]}
{"id": "C50", "title": "The linked list behaves like a sequence", "statement": "Any sequence of AddDataFront, AddNodeFront (of detached nodes), Remove (of member nodes) and Clear leaves a list whose forward traversal is the expected sequence, whose backward links are the reverse, and whose size is its length; removing from an empty list panics.", "quantifier": "all operation sequences", "why_tests_cant": "Pointer manipulation over all histories.", "anchors": ["src/utils/ds/linklist.go:AddNodeFront", "src/utils/ds/linklist.go:Remove"]}
{"id": "C51", "title": "The keyed set behaves like a finite set", "statement": "After any sequence of Add/Remove, Has and Size agree with the mathematical set of keys, Add/Remove report whether they changed it, and Items lists exactly the members.", "quantifier": "all operation sequences", "why_tests_cant": "All histories.", "anchors": ["src/utils/ds/set.go:Add", "src/utils/ds/set.go:Remove", "src/utils/ds/set.go:Items"]}
{"id": "C52", "title": "Block requests cover a piece exactly once", "statement": "The request messages created for a piece are finitely many, at most 16384 bytes each, and tile [0, piece length) without gap or overlap.", "quantifier": "all torrents and piece indices", "why_tests_cant": "All piece lengths; non-termination cannot be observed by a passing test.", "anchors": ["src/swarm/peerhandler.go:createReqMessages"]}
{"id": "C53", "title": "The write rate limit is respected under concurrency", "statement": "With a limit r, in every schedule of concurrent Write calls and timer ticks, the bytes admitted between two consecutive ticks are less than r plus the size of one write.", "quantifier": "all numbers of goroutines, all interleavings, all write sizes", "why_tests_cant": "Schedules.", "anchors": ["src/io/ratelimit.go:Write", "src/io/ratelimit.go:Run"]}
{"id": "C54", "title": "Rate limits can be changed while writers wait", "statement": "SetWriteRate takes effect also while a Write is waiting for budget, and total counters equal the sum of admitted sizes.", "quantifier": "all interleavings", "why_tests_cant": "Schedules; the failure is a permanent block.", "anchors": ["src/io/ratelimit.go:SetWriteRate", "src/io/ratelimit.go:Write"]}
{"id": "C55", "title": "The read buffer is never overwritten while in use", "statement": "In every schedule, ReadLoop does not read into its buffer between handing it out and the consumer's Ready, and chunks are delivered in order, each exactly once.", "quantifier": "all interleavings of reader and consumer, all read sizes", "why_tests_cant": "Schedules.", "anchors": ["src/io/readloop.go:Run", "src/io/readloop.go:Ready", "src/io/readloop.go:ReadData"]}
{"id": "C56", "title": "Finish stops the read loop", "statement": "After Finish is called the read loop terminates and Finish returns.", "quantifier": "all interleavings", "why_tests_cant": "A liveness statement over schedules.", "anchors": ["src/io/readloop.go:Finish", "src/io/readloop.go:Run"]}
{"id": "C57", "title": "A failed peer connection is torn down", "statement": "When any of a peer's goroutines reports an error, all its goroutines stop and the peer loop returns.", "quantifier": "all interleavings of the four goroutines and all errors", "why_tests_cant": "A liveness statement over schedules.", "anchors": ["src/swarm/peerhandler.go:Loop", "src/swarm/peerhandler.go:recvLoop", "src/swarm/peerhandler.go:pingLoop", "src/swarm/peerhandler.go:requestLoop"]}
{"id": "C58", "title": "Size arguments are parsed exactly", "statement": "A limit argument of the form [-]digits[B|K|M|G] (any case) is accepted and denotes the number times the unit; everything else is rejected.", "quantifier": "all ASCII argument strings", "why_tests_cant": "All strings, including values whose product overflows.", "anchors": ["src/utils/opts.go:parseSizeUnits"]}
{"id": "C59", "title": "Splitting data into segments is a partition", "statement": "SegmentData returns consecutive segments whose concatenation is the data, all of the requested size except a possibly shorter non-empty last one.", "quantifier": "all data and positive segment sizes", "why_tests_cant": "All sizes.", "anchors": ["src/utils/utils.go:SegmentData", "src/utils/utils.go:HashSlices"]}
{"id": "C60", "title": "Peer ids are well-formed", "statement": "Whatever the random source delivers, a generated peer id is the 8-byte client prefix followed by 12 ASCII letters: 20 bytes, unaffected by percent-escaping.", "quantifier": "all random sources", "why_tests_cant": "All random streams.", "anchors": ["src/utils/utils.go:NewPeerId", "src/utils/utils.go:randStringBytesMaskImprSrcSB"]}
{"id": "C61", "title": "Distinct peers are never confused", "statement": "Two peers are treated as the same by the availability tracker only if peer id, address and port all agree.", "quantifier": "all pairs of peers with IPv4 addresses", "why_tests_cant": "All pairs; the key is a formatted string.", "anchors": ["src/peer/info.go:MakePeer", "src/swarm/peerhandler.go:Key", "src/utils/ds/set.go:Has"]}
{"id": "C62", "title": "Data of the wrong size is never stored as a piece", "statement": "WritePiece with data whose size differs from the size of the piece returns an error and changes no file, even if the torrent records the hash of that data.", "quantifier": "all torrents, indices and data", "why_tests_cant": "Needs metadata whose recorded hash belongs to a string of another length; only hostile torrents contain it.", "anchors": ["src/torrent/fileio/fileio.go:WritePiece"]}
{"id": "C63", "title": "Removing by swapping keeps all other elements", "statement": "RemoveSwap(slice, i) with a valid index returns the slice without element i: one shorter, every other element exactly as often as before; an invalid index panics.", "quantifier": "all slices and indices", "why_tests_cant": "All sizes and positions.", "anchors": ["src/utils/utils.go:RemoveSwap"]}
{"id": "C64", "title": "The decoder's language", "statement": "Decode accepts exactly the inputs that start with a bencode document, where beyond BEP 3 only leading zeros in string lengths, -0, unsorted or repeated keys (the last value counts) and empty strings are tolerated, and returns the value of that document; input determines the document and its value.", "quantifier": "all inputs", "why_tests_cant": "The set of inputs is infinite and the language nested; a parser that is slightly too lax or too strict passes any finite set of examples.", "anchors": ["src/bencode/decode.go:Decode", "src/bencode/decode.go:decodeInt", "src/bencode/decode.go:decodeString", "src/bencode/decode.go:decodeDict"]}
{"id": "C65", "title": "Announcing never crashes the client", "statement": "tracker.Get returns a response or an error, without panicking, for every torrent that can be loaded and everything the tracker sends back.", "quantifier": "all loadable torrents, all tracker answers, all failures of the HTTP client", "why_tests_cant": "Depends on the text of the announce URL in a file made by somebody else; tests use well-formed URLs.", "anchors": ["src/tracker/tracker.go:Get", "src/tracker/tracker.go:newRequest", "src/tracker/tracker.go:do"]}
{"id": "C66", "title": "Seeding, end to end", "statement": "A peer that connects with a handshake for the torrent and then only sends valid messages of a downloader is sent exactly: our handshake, our bitfield, unchoke, and for each request for a piece that we have, in the order of the requests, one piece message with the requested bytes of the torrent; and the availability tracker afterwards holds exactly what the peer announced.", "quantifier": "all consistent torrents and contents, all sets of pieces we have, all sequences of valid messages, all ways to cut them into received buffers", "why_tests_cant": "Sessions are unbounded sequences of messages; each depends on the file layout, the state of the read buffer after earlier requests and the fragmentation of the stream.", "anchors": ["src/swarm/peerhandler.go:FromIncoming", "src/swarm/peerhandler.go:Loop", "src/swarm/peerhandler.go:recvLoop", "src/swarm/msghandler.go:handleMessage", "src/swarm/msghandler.go:handleRequest"]}
{"id": "C67", "title": "Received blocks are stored", "statement": "When a peer sends a block in a piece message, the data ends up in the torrent's files once the piece is complete and has the recorded hash.", "quantifier": "all states, all piece messages, anywhere in the stream", "why_tests_cant": "All positions in all streams of messages.", "anchors": ["src/swarm/msghandler.go:handleMessage", "src/p2p/message.go:Decode", "src/p2p/message.go:DecodeAll"]}
{"id": "C68", "title": "Availability follows what peers announce", "statement": "A connected peer is registered for exactly the pieces it has announced in bitfield and have messages, and for none after its connection has ended.", "quantifier": "all sequences of messages, all torrents", "why_tests_cant": "Depends on the history of all connections.", "anchors": ["src/swarm/msghandler.go:handleMessage", "src/swarm/peerhandler.go:Loop", "src/swarm/piecetracker.go:Unregister"]}
{"id": "C69", "title": "Choking state", "statement": "A new connection starts choked and uninterested in both directions, choke, unchoke, interested and not interested messages are reflected in the state of the connection, and Choke sends a choke message.", "quantifier": "all connections and messages", "why_tests_cant": "Histories of messages are unbounded.", "anchors": ["src/peer/state.go:MakeState", "src/swarm/peerhandler.go:NewPeerHandler", "src/swarm/peerhandler.go:Choke", "src/swarm/msghandler.go:handleMessage"]}
{"id": "C70", "title": "Metadata survives saving and loading", "statement": "Metadata that the library accepts, written with the library's own encoder as a torrent file and loaded again, comes back unchanged: same announce URL, name, piece length, hashes, lengths and files, and the info-hash that NewTorrent computed for the original. For a torrent created from files and loaded with the same working directory the files are looked for where they are.", "quantifier": "all accepted metadata, working directories and spare capacities", "why_tests_cant": "Covers every file tree, name and length at once; a test compares one or two files.", "anchors": ["src/torrent/torrent.go:NewTorrent", "src/torrent/torrent.go:FromTorrentFile", "src/torrent/info/info.go:Bencode", "src/torrent/info/info.go:FromDict", "src/torrent/info/info.go:CreateTorInfo", "src/torrent/filesd/entrybase.go:FromBenList", "src/torrent/filesd/entrybase.go:Bencode"]}
{"id": "C71", "title": "Start-up", "statement": "NewSwarm, if it succeeds, leaves a client with the torrent of the input file, the torrent's files at their recorded lengths with their old contents, no other file changed, a bitfield that says for each piece whether its contents have the recorded hash, no registered peers, and the peers the tracker returned to a request with the torrent's info-hash, the client's port and id and the true number of missing bytes. It succeeds if the torrent file is good, the tracker answers and no system call fails; it never panics for good torrent files; a rejected torrent file leaves all files alone.", "quantifier": "all torrent files, file systems, tracker answers and failures of system calls", "why_tests_cant": "Depends on every combination of disk contents, metadata and tracker answers, and on which system calls fail.", "anchors": ["src/swarm/swarm.go:NewSwarm", "src/swarm/swarm.go:Validate", "src/torrent/torrent.go:FromTorrentFile", "src/torrent/fileio/fileio.go:OCATAll", "src/tracker/tracker.go:Get"]}
{"id": "C72", "title": "From files to answered requests", "statement": "When a torrent is created from files, saved, and a client is started on it in the same working directory, then start-up changes no file, the client has the info-hash computed at creation, and a peer that connects with it and keeps to the protocol is sent the handshake, a full bitfield and for each request exactly the bytes of the original files.", "quantifier": "all file contents, path lists, piece lengths, ways of splitting reads, and message sequences", "why_tests_cant": "An end-to-end statement through seven packages; a test runs one torrent with one peer.", "anchors": ["src/torrent/info/info.go:CreateTorInfo", "src/torrent/torrent.go:FromTorrentFile", "src/swarm/swarm.go:NewSwarm", "src/swarm/peerhandler.go:Loop", "src/swarm/msghandler.go:handleMessage"]}
{"id": "C73", "title": "The layout is computed without overflow", "statement": "The layout of a torrent (total length, number of pieces, byte ranges, piece map) computed with 64-bit integers is the one that exact arithmetic gives, for every list of non-negative 64-bit file lengths and every positive piece length.", "quantifier": "all file lists, piece lengths and hash strings", "why_tests_cant": "Overflow needs lengths near 2^63, which no test tree has, but which a metadata file can claim.", "anchors": ["src/torrent/info/info.go:NewTorInfo", "src/torrent/info/piecemap.go:MakePieceMap", "src/torrent/filesd/flist.go:MakeFileList", "src/torrent/filesd/entry.go:PieceInfo", "src/torrent/filesd/entrybase.go:CalcNumPieces"]}
{"id": "C74", "title": "Concurrent reads and writes of pieces", "statement": "Any number of goroutines may call ReadPiece and WritePiece at the same time: all calls return, none panics; a byte on disk or in a buffer that a read has filled is always the one that was there at the beginning or the one of a valid write of that piece; no other file is changed; a piece that nobody changes is read correctly, and stays correct, whatever happens to the other pieces; a write that has succeeded has stored its piece (unless another write of the same piece was made); a read delivers the piece as it was at the beginning or as one valid write left it, not a mixture.", "quantifier": "all torrents, file contents, numbers and kinds of calls, schedules, ways of splitting transfers into system calls, and failures of system calls", "why_tests_cant": "The number of schedules is astronomical, and the interesting ones need a system call that is interrupted in the middle.", "anchors": ["src/torrent/fileio/fileio.go:ReadPiece", "src/torrent/fileio/fileio.go:WritePiece", "src/torrent/fileio/fileio.go:readAt", "src/torrent/fileio/fileio.go:writeAt"]}
{"id": "C75", "title": "The command line", "statement": "A command line of options -i, -w, -p, -cmd, -u, -d (with one or two dashes, the value behind an equals sign or in the next argument, in any order, the last one counts) runs the command that was asked for with the values that were given and the documented defaults for the others. If input or working directory are missing, or the command, an option, a limit or the port (0 to 65535) is not valid, the program ends before it does anything.", "quantifier": "all command lines", "why_tests_cant": "The space of command lines is infinite; which ones are accepted depends on the flag package, on Validate and on two number parsers together.", "anchors": ["src/utils/opts.go:GetOpts", "src/utils/opts.go:initOpts", "src/utils/opts.go:Validate", "src/utils/opts.go:Port", "src/main.go:main"]}
{"id": "C76", "title": "Peers do not disturb each other", "statement": "With any number of connections handled at the same time, in any interleaving and whatever the peers send: a peer that keeps to the protocol is sent exactly the greeting, keep-alive messages and the correct answers to its requests, in order; nobody is ever sent anything but the protocol messages a seeder sends, with bytes of pieces that we have; a peer is registered exactly for the pieces it announced; and no peer can end the service for the others.", "quantifier": "all interleavings of any number of connections, all received bytes", "why_tests_cant": "The interleavings of arbitrarily many connections that share the availability tracker cannot be enumerated, and hostile input of one connection has to be combined with every state of the others.", "anchors": ["src/swarm/swarm.go:Start", "src/swarm/swarm.go:runListener", "src/swarm/peerhandler.go:Loop", "src/swarm/peerhandler.go:recvLoop", "src/swarm/peerhandler.go:requestLoop", "src/swarm/msghandler.go:handleMessage"]}
{"id": "C77", "title": "Moving and closing files", "statement": "Moving the files of a torrent to other names does not disturb reading and writing pieces: all data that was or will be written stays with the torrent's open files and is found under the new names, and a moved file can be moved again. After a file is closed nothing can be read or written through it any more; CloseAll leaves no file open.", "quantifier": "all sequences of OCAT, Move, Close, CloseAll, reads and writes, with failing system calls, and all orders in which CloseAll goes through the map", "why_tests_cant": "Whether a handle still leads to the right file after renames depends on the history of all calls, and the order of a map traversal is different in every run", "anchors": ["src/torrent/fileio/fileio.go:41-143"]}
{"id": "C78", "title": "Sizes for people", "statement": "Every size is shown, without a panic, in the largest unit (B, KiB, ..., EiB) that is not larger than the size, with the exact number of these units; the lines with the length in the output of the info command show this number correctly rounded to two digits, at least 1.00 and less than 1024.00 from 1024 bytes on, and the exact length.", "quantifier": "all sizes of 64 bits", "why_tests_cant": "Rounding in float64, overflow of the divisor and the end of the table of units show only at sizes of exabytes; a test looks at a handful of sizes", "anchors": ["src/utils/utils.go:47-63", "src/torrent/torrent.go:124-128"]}
{"id": "C79", "title": "Addresses of peers can be dialled", "statement": "For every peer that the tracker names, the address passed to net.Dial is taken apart into the host and the port that the tracker named, so that the peer is contacted; different addresses give different hosts.", "quantifier": "all addresses of 4 or 16 bytes, all ports, all compact lists", "why_tests_cant": "IPv6 peers hardly occur in a test network; a test with a few IPv4 peers never sees an address with colons", "anchors": ["src/peer/info.go:17-30", "src/swarm/peerhandler.go:50-64"]}
{"id": "C80", "title": "The listener goes on", "statement": "The listener accepts connections as long as the process runs, whatever the peers do: descriptors of peers that have left are given back, the list of peer handlers contains exactly the handlers of the peers that were accepted, and no memory outside of this list is written.", "quantifier": "all interleavings of the goroutines of arbitrarily many connections, all limits of descriptors", "why_tests_cant": "A leak of descriptors shows after as many connections as the system allows, a data race in a list only in rare interleavings; tests make a few connections one after the other", "anchors": ["src/swarm/swarm.go:138-166", "src/swarm/peerhandler.go:68-115", "src/swarm/peerhandler.go:142-185"]}
{"id": "C81", "title": "The limit for reading", "statement": "With a read limit r, in every schedule of concurrent Read calls, ticks, and calls of Run and Stop, fewer bytes than r plus the size of one buffer are read between two ticks; the total counter is the number of bytes read; Stop ends Run and returns, and leaves no reader waiting.", "quantifier": "all numbers of goroutines, all interleavings, all buffer sizes and numbers of bytes read", "why_tests_cant": "Schedules; Read is never called by the program, so that no test of the program reaches it.", "anchors": ["src/io/ratelimit.go:Read", "src/io/ratelimit.go:SetReadRate", "src/io/ratelimit.go:Run", "src/io/ratelimit.go:Stop"]}
{"id": "C82", "title": "The info command tells the torrents apart", "statement": "The output of the info command exists for every torrent that can be loaded and states its name, announce URL, info-hash, number of pieces, length and all files in order, so that torrents which differ in one of these have different outputs; the client prints the same lines, those about the tracker and all peers.", "quantifier": "all torrents, all names, URLs, paths and sizes", "why_tests_cant": "Two torrents with the same output must be constructed; a test compares one output with one expected text.", "anchors": ["src/torrent/torrent.go:String", "src/main.go:CmdTorInfo", "src/tracker/tracker.go:String", "src/peer/list.go:String", "src/swarm/swarm.go:String"]}
{"id": "C83", "title": "Missing pieces are asked for", "statement": "In every execution of a client that lacks pieces: a connection whose peer has announced a missing piece chooses such a piece, one announced by the fewest peers, and sends requests for it; and between two clients of this kind, one of which has what the other lacks, blocks are transferred.", "quantifier": "for all torrents, contents, sets of pieces we have, numbers and behaviours of peers, interleavings of the goroutines of all connections, and pairs of such clients with every way of putting whole messages into buffers", "why_tests_cant": "Whether anything can ever be downloaded depends on all interleavings of any number of connections; a test in which nothing arrives cannot tell a slow client from one that never asks.", "anchors": ["src/swarm/peerhandler.go:requestLoop", "src/swarm/peerhandler.go:createReqMessages", "src/swarm/piecetracker.go:NextPiece", "src/swarm/msghandler.go:handleMessage", "src/swarm/msghandler.go:handleRequest"]}
{"id": "C84", "title": "Documents of others fit on the stack", "statement": "No torrent file and no response of a tracker, however nested, ends the process: on a call stack of whatever limited size, Decode of every document returns a value or an error, the same as on an unlimited one.", "quantifier": "for all byte slices with any spare capacity, all sizes of the stack", "why_tests_cant": "An overflow of the stack needs a document of some megabytes made for the purpose, and it cannot be recovered from in a test.", "anchors": ["src/bencode/decode.go:Decode", "src/bencode/decode.go:decodeDict", "src/bencode/decode.go:decodeList", "src/torrent/torrent.go:FromTorrentFile", "src/tracker/tracker.go:do"]}
{"id": "C85", "title": "Files of a torrent are at different places", "statement": "No two files of a torrent that the client accepts get the same local path, so that the data of one file never overwrites that of another.", "quantifier": "all info dictionaries, working directories, file contents and states of the disk", "why_tests_cant": "The torrents in the tests have different file names; a torrent that names the same place twice (directly, or with '.' and '..') is an attack or an accident nobody tests, and what happens depends on the contents.", "anchors": ["src/torrent/info/info.go:FromDict", "src/torrent/filesd/entrybase.go:FromBenList", "src/torrent/fileio/fileio.go:WritePiece"]}
{"id": "C86", "title": "A crash loses no more than unfinished pieces", "statement": "If the process dies at any moment while pieces are read and written concurrently, and any number of attempts to start again are interrupted, the next start that succeeds loads the same torrent, marks exactly the pieces whose data has the recorded hash, has every piece that was written with success and every piece that was not written to as before, and takes no half-written piece for a whole one unless two data have the same hash.", "quantifier": "all torrents with different local paths that do not include the torrent file, all initial contents of the disk, numbers of concurrent calls, interleavings, partial writes and failures, moments of the crash, numbers and moments of interrupted restarts", "why_tests_cant": "The moment of the crash is between any two system calls of any goroutine; a test cannot kill the process at all of them.", "anchors": ["src/torrent/fileio/fileio.go:WritePiece", "src/torrent/fileio/fileio.go:OCATAll", "src/swarm/swarm.go:NewSwarm", "src/torrent/fileio/fileio.go:Validate"]}
{"id": "C87", "title": "Quiet connections stay open", "statement": "A connection is not closed for lack of data while the peer sends keep-alive messages as BEP 3 asks for (one every two minutes), and the client itself sends one often enough; a peer that has fallen silent is noticed.", "quantifier": "all executions in time: all delays until a tick is acted upon, of the network, until a read returns, all times spent on handling messages, all other data in between, any duration", "why_tests_cant": "Timeouts of minutes, and the order of a tick and a deadline that fall together, are out of reach of tests.", "anchors": ["src/swarm/peerhandler.go:pingLoop", "src/io/readloop.go:Run", "src/swarm/peerhandler.go:recvLoop", "src/swarm/msghandler.go:handleMessage"]}
{"id": "C88", "title": "Accepted torrents can be stored", "statement": "If nothing is in the way on the disk, preparing the files of any torrent that is accepted succeeds unless the operating system fails.", "quantifier": "all info dictionaries, working and current directories, all states of files and directories, all executions with failures of system calls", "why_tests_cant": "The combinations of paths in a torrent and files and directories on disk are unbounded; the tests use flat torrents and empty directories.", "anchors": ["src/torrent/info/info.go:FromDict", "src/torrent/fileio/fileio.go:OCATAll", "src/utils/futils.go:OCAT", "src/utils/futils.go:CreateZeroFilledFile"]}
{"id": "C89", "title": "Goroutines never access the same memory at the same time", "statement": "While the client runs, no two of its goroutines are ever about to access the same memory, at least one of them writing, unless both accesses are atomic operations: everything they share is written before they are started, is protected by a mutex, is handed over through a channel, or is atomic. No mutex is unlocked that is not locked, and no send on the buffered channels of a read loop waits.", "quantifier": "all numbers of incoming and outgoing connections and all interleavings of the goroutines of Start, runListener, RateLimitIO.Run, FromIncoming, FromBootstrap, Loop, pingLoop, recvLoop, requestLoop, ReadLoop.Run, with any messages, errors and decisions", "why_tests_cant": "a race detector sees only the interleavings that happen in a test; two connections that come in within microseconds, or a block that is sent before the rate limiter runs for the first time, do not happen in unit tests, and nothing visible follows", "anchors": ["src/swarm/swarm.go:120-166", "src/swarm/peerhandler.go:50-314", "src/swarm/msghandler.go:11-76", "src/swarm/piecetracker.go:76-174", "src/io/ratelimit.go:59-115", "src/io/readloop.go:65-91", "src/p2p/bitfield.go:43-47"]}
{"id": "C90", "title": "The write limit is used fully and every write gets through", "statement": "With a positive write limit r, as long as some Write has not returned, either a goroutine can go on or at least r bytes have been admitted since the last tick; between two ticks the calls come to a standstill after finitely many steps whatever the schedule; if no new calls are made and goroutines are faster than the ticker, n calls have all returned after n ticks, at least r bytes are admitted per tick until then, and a call that has returned has handed its bytes to the writer.", "quantifier": "all limits, numbers of goroutines, sizes of writes and schedules (limit plus one write below 2^63)", "why_tests_cant": "A lost wake-up, a lock that is not given back or a budget that is not reset shows only in particular schedules of several writers and ticks.", "anchors": ["src/io/ratelimit.go:Write", "src/io/ratelimit.go:Run"]}
{"id": "C91", "title": "What others send takes memory in proportion to its size", "statement": "Everything the client keeps of a torrent file, of a tracker's response or of peers' messages is at most proportional to the number of bytes received: the values decoded, the messages and their bitfields and blocks, the list of peers, the pieces, files, paths and piece locations of a torrent, and the buffers allocated for it. A small torrent file never ends the process for lack of memory.", "quantifier": "for all documents, streams, responses and torrent files, all working directories, and all amounts of memory", "why_tests_cant": "needs inputs made for the purpose; tests use ordinary torrents, for which the piece length is small and the names are short", "anchors": ["src/bencode/decode.go:Decode", "src/p2p/message.go:DecodeAll", "src/tracker/tracker.go:newResponse", "src/torrent/info/piecemap.go:MakePieceMap", "src/torrent/info/info.go:FromDict", "src/swarm/swarm.go:Validate", "src/swarm/peerhandler.go:NewPeerHandler"]}
{"id": "C92", "title": "Nobody waits for a lock in vain", "statement": "In a running client each of the two mutexes (that of the rate limiter and that of the piece tracker) is held by at most one goroutine at a time. A goroutine that holds one of them waits neither for another mutex nor for a channel before it unlocks it again; at most it waits, in a loop, for the next tick of the rate limiter. So a goroutine that waits for a mutex always waits for a different goroutine that is able to go on, and can get the mutex.", "quantifier": "for all executions of the client's goroutines with any number of connections, in every interleaving, for all messages and errors", "why_tests_cant": "A deadlock needs a particular interleaving of goroutines; a test runs a handful of interleavings with a few connections and stands a good chance of never meeting the bad one.", "anchors": ["src/io/ratelimit.go:Write", "src/swarm/piecetracker.go:RegisterBF", "src/swarm/piecetracker.go:NextPiece", "src/swarm/peerhandler.go:requestLoop", "src/swarm/msghandler.go:handleBitfield"]}
{"id": "C93", "title": "A torrent can be started again", "statement": "After a client has been started from a torrent file, it can be stopped and started again from the same file: a later start changes nothing on disk, whichever system calls fail and whatever the tracker answers, and if it succeeds it is for the same torrent with the same pieces. If the torrent file is itself one of the torrent's files, start-up resizes it to the length of that file: if that is shorter than the document in it, the torrent is lost.", "quantifier": "for all torrent files, directory contents, tracker answers and failures of system calls in the later start", "why_tests_cant": "A test starts a client once in an empty directory. That the name of the torrent file is the name of one of its files, and what is on disk after a first run, are not part of its set-up.", "anchors": ["src/swarm/swarm.go:NewSwarm", "src/torrent/fileio/fileio.go:OCATAll", "src/utils/futils.go:OCAT", "src/torrent/torrent.go:FromTorrentFile"]}
{"id": "C94", "title": "A bad message does not spoil its neighbours", "statement": "If a peer sends a message whose length does not suit its type, or whose type is unknown, then exactly this message is skipped: what is decoded are the other messages of the buffer, in order.", "quantifier": "all byte strings received from peers: any messages before and after, any payload, any type", "why_tests_cant": "A test sends a few hand-made malformed messages; what is inside their payloads and behind them is chosen by the tester, not by an attacker.", "anchors": ["src/p2p/message.go:DecodeAll", "src/p2p/message.go:Decode"]}
{"id": "C95", "title": "The client survives whatever a peer sends", "statement": "Whatever bytes a peer sends after the handshake, in whatever buffers they arrive, at most the peer's own connection ends: the process does not crash, and every buffer is dealt with in finitely many steps.", "quantifier": "all byte strings below 2^32 bytes per buffer, all sequences of buffers, all torrents, files, bitfields, registrations and outcomes of writes", "why_tests_cant": "The bytes are chosen by an attacker, and what they do depends on what other peers have announced and on what is on disk; fuzzing finds some crashes but never shows that the list is complete.", "anchors": ["src/swarm/msghandler.go:handleMessage", "src/swarm/msghandler.go:handleRequest", "src/swarm/msghandler.go:handleBitfield", "src/p2p/message.go:DecodeAll"]}
{"id": "C96", "title": "Torrents of every size can be exchanged", "statement": "However many pieces a torrent has, the bitfield of a peer reaches the client: it is recognised as a message and registered, however the bytes arrive. The same holds for messages with a block of 16 KiB, the size that clients use and this client asks for. No part of a long message is taken for another message.", "quantifier": "all torrents, all numbers of pieces, all ways in which the bytes of a message arrive in the receive buffer of a connection, all executions with any number of peers", "why_tests_cant": "A torrent with more than 130000 pieces is larger than anything in a test suite, and what the tail of a long message is taken for depends on which pieces a peer has or on the torrent's contents.", "anchors": ["src/swarm/peerhandler.go:RecvBufSize", "src/swarm/peerhandler.go:recvLoop", "src/io/readloop.go:Run", "src/p2p/message.go:DecodeAll"]}
{"id": "C97", "title": "Files changed by others", "statement": "If other programs change the contents of the torrent's files while the client runs, the client does not crash and never sends data that does not have the recorded hash: requests for pieces that are no longer intact are not answered.", "quantifier": "all torrents, all new contents of the files with any lengths, all requests, all states of a connection", "why_tests_cant": "Tests do not interfere with the files of a running client, and the interesting cases are those in which a file is cut in the middle of a piece that spans several files.", "anchors": ["src/swarm/msghandler.go:handleRequest", "src/torrent/fileio/fileio.go:ReadPiece"]}
{"id": "C98", "title": "Everybody is counted once", "statement": "The availability of a piece, which decides in what order pieces are asked for, is the number of participants that have announced it: somebody with several connections counts once, the client itself does not count, and one participant alone cannot bring the client down by announcing what it has.", "quantifier": "all executions with any number of connections, incoming and outgoing, all peer ids, addresses and ports, all bitfields, all torrents", "why_tests_cant": "Tests register made-up peers one by one. The property quantifies over who is behind the connections of a whole execution, and the crash needs 64 connections in a state that depends on everything before.", "anchors": ["src/swarm/piecetracker.go:register", "src/peer/info.go:MakePeer", "src/swarm/peerhandler.go:FromIncoming", "src/swarm/peerhandler.go:FromBootstrap"]}
{"id": "C99", "title": "Everybody in the tracker's list is called, from start-up to all peers", "statement": "After start-up the client calls every peer in the tracker's answer exactly once and nobody else: at any time each entry of the list is either connected, failed, being called or still to come, and all other connections were made by others. The port on which others can connect is the one announced to the tracker, and nobody gets connected before it is open. As long as the process lives, everybody still to be called can be connected to, and a peer that keeps to the protocol is answered exactly from the files found at start-up, with the pieces whose hashes are right, whatever the other peers do. A peer listed twice is connected to once; a peer that cannot be reached is tried again later; a port that cannot be opened is reported before the files are changed and the client is announced.", "quantifier": "for all torrent files, file systems, tracker answers (any list of peers), options, and all interleavings of the calls, the listener and the connections, with any behaviour of the peers", "why_tests_cant": "The order of the goroutines, the outcome of every call and the behaviour of all peers are arbitrary; tests only see a few schedules with a real network.", "anchors": ["src/swarm/swarm.go:Start", "src/swarm/swarm.go:runListener", "src/swarm/swarm.go:NewSwarm", "src/swarm/peerhandler.go:FromBootstrap", "src/swarm/peerhandler.go:FromIncoming"]}
{"id": "C100", "title": "The text of a message tells the message", "statement": "The text that the String methods of the messages give names the kind of the message and its fields, so that two different messages have different texts.", "quantifier": "all messages of all kinds, with all field values and blocks of any length", "why_tests_cant": "A test prints single messages; that no two of the infinitely many messages share a text needs injectivity of the number formats and of the list format for blocks", "anchors": ["src/p2p/message.go:msgBase.String", "src/p2p/no_payload.go:MsgChoke.String", "src/p2p/have.go:MsgHave.String", "src/p2p/bitfield.go:MsgBitfield.String", "src/p2p/request.go:MsgRequest.String", "src/p2p/piece.go:MsgPiece.String", "src/p2p/keepalive.go:MsgKeepAlive.String"]}
{"id": "C101", "title": "From the command line to the peers", "statement": "A command line that asks for a torrent to be served leads to a client that serves it with the options given, or the program ends with an error status if that is not possible. What serves is the torrent of the named file in the named directory on the named port; other files are never changed; peers that keep to the protocol are answered from the files as they were when the program was started; while serving, the program ends only by a panic. The command info prints the torrent, changes nothing and ends with status 0, which no other run does except a call for help. A tracker that is out of order does not keep the client from serving, and the program rests while nobody wants anything from it.", "quantifier": "for all command lines, disks with files and directories, torrent files, trackers (including those that never answer), peers, failures of system calls and interleavings", "why_tests_cant": "Tests start the program once, with a working tracker; whole-program statements over all command lines, disks and answers cannot be enumerated, and that a process never ends cannot be observed", "anchors": ["src/main.go:main", "src/main.go:CmdSwarm", "src/main.go:CmdTorInfo", "src/swarm/swarm.go:NewSwarm", "src/swarm/swarm.go:Swarm.Start", "src/tracker/tracker.go:do"]}
{"id": "C102", "title": "The limits of the command line, with all peers at once", "statement": "With an upload limit of r bytes per second (-u) and a download limit of q bytes per second (-d) the client sends no more than r and receives no more than q bytes per second, each plus at most one message, to and from all peers together, whatever they do; requests are answered as without limits; and a peer that does not read what it is sent holds up nobody else.", "quantifier": "all torrents, limits, numbers and behaviours of peers, and all interleavings of all goroutines, statement by statement in the limiter", "why_tests_cant": "the excess depends on how goroutines interleave within the limiter and on how many peers connect at once; a test sees a few schedules and measures in wall-clock time", "anchors": ["src/swarm/swarm.go:NewSwarm", "src/swarm/msghandler.go:handleRequest", "src/io/ratelimit.go:RateLimitIO.Write", "src/io/ratelimit.go:RateLimitIO.Read", "src/swarm/peerhandler.go:recvLoop"]}
{"id": "C103", "title": "What the spinner leaves on the screen", "statement": "While the spinner runs, the screen shows one line: one of its symbols, the message, and one to three dots. It runs until it is told to stop and then returns; in the end the screen shows a check mark and the message on a line of their own, and nothing else.", "quantifier": "all messages without carriage return, line feed and backspace, all numbers of frames shown, and all moments of being told to stop", "why_tests_cant": "what is on the screen is the effect of carriage returns and backspaces on what was written before; a test compares the bytes written, and those of the last line are right", "anchors": ["src/utils/utils.go:Spinner"]}
{"id": "C104", "title": "What the errors of the decoder say", "statement": "When Decode rejects its input, the text of the error tells what is wrong and where: it names the first byte with which the input cannot be continued to a document any more, or, if the input as a whole could be continued, says that the data ends too early.", "quantifier": "all inputs, and all capacities of the slice", "why_tests_cant": "the claim is about all continuations of the input; a test compares the texts for a few inputs", "anchors": ["src/bencode/decode.go:Decode", "src/bencode/decode.go:decodeString", "src/bencode/decode.go:decodeInt", "src/bencode/decode.go:DecoderError.Error"]}
{"id": "C105", "title": "What is said about a torrent file that is refused", "statement": "When a torrent file is refused, the text of the error is true and tells what is wrong with it: which key of which dictionary is missing or has a value of which other type, or which of the other conditions on the files and hashes is not met; what it quotes from the torrent file is quoted as it is.", "quantifier": "all contents of torrent files, and all working directories", "why_tests_cant": "the texts depend on all keys and values of a nested document, and one of them uses the contents of the file as a format; tests compare texts for a few files, if at all", "anchors": ["src/torrent/torrent.go:FromTorrentFile", "src/torrent/info/info.go:FromDict", "src/torrent/filesd/entrybase.go:FromBenList", "src/bencode/dict.go:DictBadTypeError.Error", "src/bencode/dict.go:DictMissingKeyError.Error", "src/torrent/info/piecemap.go:MakePieceMap"]}
{"id": "C106", "title": "What is said about an answer of the tracker that is refused", "statement": "When the tracker cannot be asked or its answer is refused, the text of the error is true and tells what is wrong: the reason that the tracker gives, word for word; which key is missing or has a value of which other type; which element of the list of peers is wrong; what was sent instead of a dictionary; that the server has answered with an error.", "quantifier": "all answers of the server: status codes, bodies of any bytes, all contents of the slice behind the body, and all errors of the HTTP client", "why_tests_cant": "which fault is reported depends on all keys and values of a nested document and on their order; a server that answers with an error page is rarely part of a test", "anchors": ["src/tracker/tracker.go:do", "src/tracker/tracker.go:newResponse", "src/tracker/tracker.go:stringSource.GetPeers", "src/tracker/tracker.go:listSource.GetPeers", "src/tracker/tracker.go:Error.Error", "src/bencode/dict.go:DictBadTypeError.Error", "src/bencode/dict.go:DictMissingKeyError.Error"]}
{"id": "C107", "title": "What is said about an argument that is refused", "statement": "A command line is refused before anything is done exactly if there is something wrong with an argument at a place where an option may be: it starts with three dashes or has an equals sign where the name should be; there is no option with its name; its value is missing; or the port is not a number or one of more than 64 bits. Then one line says the first of these things and which option it is, with the value if it is about the value, and the usage follows. The value is shown between quotation marks such that it can be read from there and stays in one line. A port that is too large is told from one that is not a number. Whoever asks for help gets the usage alone and exit status 0. The usage has one entry for each option, with the default that is used.", "quantifier": "for all lists of arguments of any lengths and contents, all names of the program, all ways to write values that are not ASCII", "why_tests_cant": "Command lines are lists of any texts; tests try a few. Which of several faults is reported, what counts as an option name, and texts that contain quotation marks, line ends or control characters are the cases that are forgotten.", "anchors": ["src/utils/opts.go:GetOpts", "src/utils/opts.go:initOpts", "src/main.go:main"]}
{"id": "C108", "title": "What is said about settings that are refused", "statement": "If the arguments are well-formed but the settings are not acceptable, the program says the first of these things: no input, no working directory, a command that does not exist (and which), an upload limit or a download limit that is not a size (and which of the two, and what was given).", "quantifier": "for all lists of arguments of any lengths and contents", "why_tests_cant": "A message for a case that cannot occur looks as if the case were handled; a test of a wrong limit sees a message and passes, whatever the message says.", "anchors": ["src/utils/opts.go:Validate", "src/utils/opts.go:parseSizeUnits", "src/utils/opts.go:initOpts"]}
{"id": "C109", "title": "Every line of the log is one entry", "statement": "Everything that the program writes to its log, from the start and while it serves, is one line for each call, beginning with the date and the time of the call. So a line that begins with a date and a time tells what the program said at that time: neither a peer nor the tracker nor the torrent file can have a line of its own choice written there.", "quantifier": "for all torrent files, answers of the tracker, peers, ids of peers, and all interleavings of any number of connections and their goroutines", "why_tests_cant": "A test looks at the log of well-behaved peers. Whether an id, an announce URL or the text of an error can contain line ends that reach the log is a question about all inputs; and with several connections the entries come in any order.", "anchors": ["src/swarm/swarm.go:NewSwarm", "src/swarm/swarm.go:Start", "src/swarm/peerhandler.go:Loop", "src/swarm/peerhandler.go:recvLoop", "src/swarm/peerhandler.go:pingLoop", "src/peer/info.go:MakePeer"]}
{"id": "C110", "title": "The log tells what happened", "statement": "What is logged about one connection is a story in order: how it came about, then for each goroutine that it starts, what it does and that it ends, and at last that the connection is killed and done. What it says is so: a handshake and a bitfield were sent exactly if it says so, every buffer that was received has one line with its length and the number of bytes used, each bitfield registered has one line, each keep-alive message that was written has one line and no other has one, every keep-alive message that could not be written is reported, nothing is sent behind the line that kills a connection, and the end of a connection is reported. The numbers of pieces that are logged at the start are those on the disk.", "quantifier": "for all torrents and states of the disk, all interleavings of any number of connections and their goroutines, at any time", "why_tests_cant": "The log is what everybody believes when something is wrong. Entries that are missing or wrong only if two things fail at the same moment, or lines that can never be printed, are not seen in a test that looks for the lines that are there.", "anchors": ["src/swarm/peerhandler.go:Loop", "src/swarm/peerhandler.go:recvLoop", "src/swarm/peerhandler.go:pingLoop", "src/swarm/peerhandler.go:requestLoop", "src/swarm/peerhandler.go:FromIncoming", "src/swarm/msghandler.go:handleMessage", "src/swarm/swarm.go:Start", "src/io/readloop.go:Run"]}
{"id": "C111", "title": "What is said about bytes that are no message", "statement": "When bytes cannot be decoded as a message, the error says what is wrong with them: which of the things that can be wrong it is, with the lengths and the id that were found and those that were required. Different errors have different texts. Errors about all kinds of messages are returned, and whoever handles the bytes gets to know.", "quantifier": "for all inputs", "why_tests_cant": "The texts are needed when another client sends something that was not expected. A wrong number in a text, a text that can never appear, and an error that is thrown away do not show in tests of messages that are right, and nobody compares texts for all ways in which bytes can be wrong.", "anchors": ["src/p2p/message.go:Decode", "src/p2p/message.go:DecodeAll", "src/p2p/have.go:DecodeMsgHave", "src/p2p/request.go:DecodeMsgRequest", "src/p2p/piece.go:DecodeMsgPiece", "src/p2p/bitfield.go:DecodeMsgBitfield", "src/bf/bitfield.go:FromBytes"]}
{"id": "C112", "title": "Why a connection is given up", "statement": "A connection is given up over a message exactly if the message is a bitfield of the wrong size, a request for a piece that does not exist, or a request whose answer cannot be sent; the error says which of these it was, and which piece. Faults of our own files are told from faults of the connection.", "quantifier": "for all torrents, all states of a running client and all sequences of messages", "why_tests_cant": "Tests use good peers and one kind of bad peer at a time. Whether an error is reported depends on the pieces that we have, on the position of the message in the buffer and on the state of our own files.", "anchors": ["src/swarm/msghandler.go:handleMessage", "src/swarm/msghandler.go:handleRequest", "src/swarm/msghandler.go:handleBitfield", "src/torrent/info/info.go:PieceLookup", "src/torrent/fileio/fileio.go:ReadPiece"]}
{"id": "C113", "title": "What is said about a value that cannot be encoded", "statement": "When a value cannot be encoded, the error says why: that a string or a key is empty, or of which type a part of the value is that the encoding does not have. It is the first such thing in the order of the document that is complained about, whatever order the maps have their keys in; nothing is said about values that can be encoded. The error says where in the value the fault is.", "quantifier": "for all values", "why_tests_cant": "The order of a map is random in Go, so a test with one fault never shows whether the complaint depends on it, and a test with several sees one order per run. Values are nested to any depth.", "anchors": ["src/bencode/encode.go:Encode", "src/bencode/encode.go:encode", "src/bencode/encode.go:encodeString", "src/bencode/encode.go:encodeDict", "src/bencode/encode.go:encodeList", "src/bencode/encode.go:EncoderError.Error"]}
{"id": "C114", "title": "What comes with an error of the encoder is no document", "statement": "The bytes that Encode returns with an error are a proper beginning of a document: they are refused by the decoder, whatever is behind them in memory, and neither are nor begin with the encoding of any value. So a caller that throws the error away, as the computation of the info-hash does, does not take the value for another one that can be encoded.", "quantifier": "for all values", "why_tests_cant": "It is a statement about pairs of values, one of them broken at any depth, and about all bytes that may be behind the end of a slice.", "anchors": ["src/bencode/encode.go:Encode", "src/bencode/encode.go:encode", "src/bencode/decode.go:Decode", "src/torrent/torrent.go:FromTorrentFile"]}
{"id": "C115", "title": "Why a piece is not written", "statement": "WritePiece refuses a piece exactly if there is no such piece, if the data does not have the hash of the piece, or if one of the files of the piece is not open. The error says which of these it is, which piece and which file. Nothing has been written when an error is returned.", "quantifier": "for all torrents that are accepted, all contents of the files, all indices and all data", "why_tests_cant": "Pieces that span several files, files that are not open and wrong data come together only in rare cases, and the order of the checks decides which error is seen and what has been written by then.", "anchors": ["src/torrent/fileio/fileio.go:WritePiece", "src/torrent/fileio/fileio.go:write", "src/torrent/fileio/fileio.go:PathError.Error", "src/torrent/info/info.go:PieceLookup", "src/torrent/filesd/entry.go:PieceInfo"]}
{"id": "C116", "title": "Reading a document takes work in proportion to its length", "statement": "The work of Decode (bytes looked at, copied or hashed) is at most a constant times the length of what it is given.", "quantifier": "for every byte slice, accepted or not, with any spare capacity", "why_tests_cant": "It is a bound on the running time for inputs of every size; the inputs that break it are not those that a test would use.", "anchors": ["src/bencode/decode.go:19-205"]}
{"id": "C117", "title": "Answering a request reads no more from the files than is asked for", "statement": "To handle the messages of a peer the client reads from its files at most the bytes that the requests ask for.", "quantifier": "for all torrents, contents, sets of pieces we have, received bytes and outcomes of the writes", "why_tests_cant": "The answers are right in any case; how much is read for them shows only in the load of the disk, and depends on the piece length.", "anchors": ["src/swarm/msghandler.go:11-76", "src/torrent/fileio/fileio.go:133-163"]}
{"id": "C118", "title": "A connection on which nothing happens comes to rest", "statement": "If no message arrives, nothing fails and no keep-alive is due, the goroutines of a connection do nothing more after finitely many steps.", "quantifier": "for all interleavings of the four goroutines of a connection, with or without missing pieces, and also after the connection was lost", "why_tests_cant": "A loop without an end that changes nothing is visible only as load of the processor.", "anchors": ["src/swarm/peerhandler.go:142-314"]}
{"id": "C119", "title": "Only metadata with sensible numbers is served", "statement": "NewSwarm succeeds only for torrents with a positive piece length, file lengths that are not negative and a hash for every piece. Metadata with other numbers ends start-up with an error and leaves all files alone.", "quantifier": "all torrent files (also with negative numbers), file systems and failures of system calls", "why_tests_cant": "Nobody writes test torrents with negative piece lengths; that the program accepts them at first, and what it has done by the time it stops, takes the whole of start-up to see.", "anchors": ["src/swarm/swarm.go:39-118", "src/torrent/info/info.go:157-192", "src/torrent/filesd/flist.go:5-35", "src/torrent/info/piecemap.go:13-62", "src/utils/futils.go:34-101"]}
{"id": "C120", "title": "Peers that the tracker names in text are found", "statement": "The address of a peer that the tracker gives as text is understood exactly if it is written as an IPv4 or IPv6 address, no text is understood as two addresses, the text that the program makes of an address is understood as that address again, and the peer is contacted at the address or host that the text names.", "quantifier": "all texts; all addresses of four and of sixteen bytes; all lists of peers; all behaviours of the network", "why_tests_cant": "Texts of any length with any mixture of digits, colons and dots, 2^128 addresses, and the networks in which a host can or cannot be reached.", "anchors": ["src/tracker/tracker.go:listSource", "src/peer/info.go:MakePeer", "src/swarm/peerhandler.go:FromBootstrap"]}
{"id": "C121", "title": "The announcement goes where the torrent file says", "statement": "A text is accepted as announce URL exactly if it is a URL, and then it means one thing only; the announcement is sent to the host and for the path that the URL names, if it names an http or https tracker, and nowhere otherwise, and the parameters in the URL reach the tracker together with those of the client.", "quantifier": "all texts of announce URLs; all torrents, statistics, ports and ids; all behaviours of the network", "why_tests_cant": "Texts of any length with any mixture of escapes, brackets, colons, at signs and percent signs, most of which differ from a URL that works in one byte.", "anchors": ["src/tracker/tracker.go:newRequest", "src/tracker/tracker.go:Get", "src/tracker/tracker.go:do"]}
{"id": "C122", "title": "Handling what a peer sends takes work in proportion to its size", "statement": "Apart from what is read from the disk to answer requests, the work that the client does for the bytes a peer sends is bounded by a constant times their number, whatever the bytes, the torrent and the state of the swarm; and choosing the next piece to ask a peer for takes at most one look at each piece that some peer has offered.", "quantifier": "all bytes, swarms, states of the availability tracker and peers; all histories of registrations and removals", "why_tests_cant": "A constant factor for all inputs cannot be measured; the inputs that break the bound are few among those of their length, and a mistake such as scanning from the start for each bit is invisible for small torrents.", "anchors": ["src/p2p/message.go:DecodeAll", "src/p2p/message.go:Decode", "src/bf/bitfield.go:calcNset", "src/swarm/msghandler.go:handleMessage", "src/swarm/msghandler.go:handleBitfield", "src/swarm/piecetracker.go:RegisterBF", "src/swarm/piecetracker.go:NextPiece"]}
{"id": "C123", "title": "Files that cannot be opened", "statement": "If the files of a torrent cannot all be opened, because the process has too few file descriptors or because some of the files must not be opened, OCATAll returns an error and no file loses data that belongs to the torrent; and it succeeds if and only if there are enough descriptors and no file is forbidden.", "quantifier": "for all lists of files and lengths, contents of the disk, limits of descriptors, descriptors in use, sets of forbidden files, points at which the garbage collector closes files that are not referred to any more, failing calls and crashes", "why_tests_cant": "OCAT creates (and empties) a file whenever opening it fails for any reason, so the loss of data depends on whether the second attempt can succeed where the first did not; that depends on the descriptors in use, on the collector and on the order of files.", "anchors": ["src/utils/futils.go:62-149", "src/torrent/fileio/fileio.go:55-77"]}
{"id": "C124", "title": "Redirections of the tracker", "statement": "If the tracker redirects an announcement, the client follows at most nine redirections, each to the URL that RFC 3986 gives for the Location relative to the request before it, and takes the body of the last answer for the tracker's response; otherwise it reports an error. The announcement goes to the host that the torrent names, with its parameters.", "quantifier": "for all announce URLs, parameters, networks (which may answer each request differently), statuses, locations and bodies", "why_tests_cant": "The relative references that matter are odd ones (dots, empty segments, queries without text, hosts without schemes), the limit matters for chains of ten requests only, and no test tracker redirects.", "anchors": ["src/tracker/tracker.go:86-103"]}
{"id": "C125", "title": "Symbolic links", "statement": "If names on the way to the files of a torrent are symbolic links, preparing the files changes nothing outside of the working directory, as long as the names in the metadata do not lead out of it, and every file is prepared as without links: the recorded length, and the old contents.", "quantifier": "for all trees of directories, files and links, working directories, torrents whose names lead below the working directory, failing calls and crashes", "why_tests_cant": "whether a name is a link, and where it leads, depends on the disk of the user, on which another program (or an earlier torrent) may have made links; the program never looks whether a name is a link, and there are infinitely many ways in which links can lead to each other and through directories that have still to be made", "anchors": ["src/utils/futils.go:13-101", "src/torrent/fileio/fileio.go:57-77", "src/torrent/info/info.go:213-244"]}
{"id": "C126", "title": "Only whole answers of the tracker are taken", "statement": "An answer of the tracker is taken only if its status says that the request succeeded and its whole body has arrived; what is taken does not depend on how the body is sent (with its length, in chunks, or up to the end of the connection) or on what follows it; and the client comes to an end whatever the tracker does.", "quantifier": "for all bodies, ways of sending them, sizes of chunks, points at which the connection ends, breaks or falls silent, and statuses", "why_tests_cant": "there are infinitely many ways to divide a body into chunks and to cut it off; whether a cut is noticed depends on the way the body is sent and, without a length, on the document itself; a tracker that falls silent is not found by a test that ends", "anchors": ["src/tracker/tracker.go:100-129", "src/tracker/tracker.go:77-84"]}
{"id": "C127", "title": "Closing files while pieces are read and written", "statement": "Close and CloseAll can be called while other goroutines read and write pieces: there is no deadlock and every call returns; once a file is closed no call under way changes it, and no call that begins later gets data through it; a read that succeeds and what is on disk in the end are, file by file, the data of the beginning or of one of the writes; a call for an existing piece fails only if one of the files of the piece was closed, and of several Close calls for a file only one succeeds.", "quantifier": "all torrents that are accepted, all numbers of concurrent calls of ReadPiece, WritePiece, Close and CloseAll, all orders of the map traversal and all schedules", "why_tests_cant": "The outcome depends on whether a file is closed before, between or after the parts of a piece in other goroutines; tests close the files when nothing else is running", "anchors": ["src/torrent/fileio/fileio.go:91-119", "src/torrent/fileio/fileio.go:121-189"]}
{"id": "C128", "title": "Files changed while they are read and written", "statement": "Other programs do not know the client's locks. Whatever they do to the contents of the files while pieces are read and written: every call returns, nothing crashes; a successful read delivers bytes each of which was in its place in the files at some moment during the call, in order, and a successful write has put each byte in its place at some moment during the call, in order; and a call for an existing piece (and data with the right hash) fails only if a system call failed or a file was unusable or, for reads, too short.", "quantifier": "all torrents that are accepted, all numbers of concurrent calls, all schedules, all changes of the files at any moments", "why_tests_cant": "A test would have to change the file between two of the system calls of one ReadAt. The statement quantifies over all moments and all new contents.", "anchors": ["src/torrent/fileio/fileio.go:ReadPiece", "src/torrent/fileio/fileio.go:WritePiece", "src/torrent/fileio/fileio.go:read", "src/torrent/fileio/fileio.go:write"]}
{"id": "C129", "title": "A whole announcement, from the URL to the response", "statement": "Announcing makes at most ten requests: the first to the announce URL of the torrent with the parameters of the announcement, each other one where the answer before redirects it. It brings a response exactly if the last request is answered by a whole answer that does not redirect and whose body is a valid response; it does not crash; and it comes to an end, unless the tracker leaves an answer unfinished that the client needs.", "quantifier": "for all announce URLs, torrents, statistics, networks (which may answer each request differently), informational answers, statuses, locations, bodies, ways of sending them and points at which connections end, break or fall silent", "why_tests_cant": "the parts (URL, redirections, ways of sending a body, decoding) are tested one by one if at all; what their composition does with an unfinished body of a redirection, which nobody needs, depends on the size of the body and is noticed only by waiting", "anchors": ["src/tracker/tracker.go:77-84", "src/tracker/tracker.go:86-98", "src/tracker/tracker.go:100-129"]}
