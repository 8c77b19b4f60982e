import Verif.Props.Session
/-
Properties C43, C44 and C45, for messages as they are received: the bytes of a message are decoded and handled (`handleMessage`).
-/
set_option autoImplicit false

namespace Verif.MsgHandler
open Verif.P2P Verif.Bf Verif.Files Verif.FileIO Verif.PieceTracker Verif.Layout Verif.Bits Verif.Wire Verif.Avail Verif.Handshake Verif.Session

theorem recv_request (fuel : Nat) (s : Swarm) (me : PH) (wok : Nat → Bool) (i b l : UInt32) (st : St) :
    handleMessage (fuel + 2) s me wok (wire (.request i b l)) st = handleRequest s i b l (wok st.out.length) st := by
  rw [handleMessage_wire fuel s me wok (.request i b l) st trivial (by simp [length_wire, body, be32_length]), handleAll_one]
  rfl

theorem recv_bitfield (fuel : Nat) (s : Swarm) (me : PH) (wok : Nat → Bool) (p : Bytes) (hp : p ≠ []) (hl : p.length + 5 < 2 ^ 32) (st : St) :
    handleMessage (fuel + 2) s me wok (wire (.bitfield p)) st = handleBitfield s me (rxBitfield p) st := by
  rw [handleMessage_wire fuel s me wok (.bitfield p) st hp (by simp only [length_wire, body, List.length_cons]; omega), handleAll_one]
  rfl

theorem get_ours {pl : Nat} {hashes : Bytes} {files : List EntryBase} {cs : List Bytes} {s : Swarm} {buf : Bytes}
    (h : Running pl hashes files cs s buf) (i : Nat) (hi : i < s.tor.numPieces) : s.bf.Get i = .ok true ↔ ours s i = true := by
  rw [get_nat, if_pos (in_range h i hi)]
  exact ⟨fun e => Res.ok.inj e, fun e => congrArg _ e⟩

theorem data_length {pl : Nat} {hashes : Bytes} {files : List EntryBase} {cs : List Bytes} {s : Swarm} {buf : Bytes}
    (h : Running pl hashes files cs s buf) : s.bf.data.length = (s.tor.numPieces + 7) / 8 ∧ s.bf.nbytes = ((s.tor.numPieces + 7) / 8 : Nat) := by
  obtain ⟨hsw, -⟩ := reachable_exact h.bf
  have h1 := hsw.data_len
  have h2 := hsw.lo8
  have h3 := hsw.hi
  have h4 := h.nbits
  omega

/-- **C44**, exact: a request panics precisely if we do not have all pieces and the index is beyond the bits of our bitfield, or we have the
piece and the requested range does not lie within `[0, piece length]`.
Missing from the property: these requests should not panic. -/
theorem C44_panic_iff_partial {pl : Nat} {hashes : Bytes} {files : List EntryBase} {cs : List Bytes} {s : Swarm} {st : St}
    (h : Running pl hashes files cs s st.buf) (me : PH) (wok : Nat → Bool) (fuel : Nat) (i b l : UInt32) :
    (handleMessage (fuel + 2) s me wok (wire (.request i b l)) st).2 = .panic ↔
      ((∃ j, j < s.tor.numPieces ∧ ours s j = false) ∧ (s.tor.numPieces + 7) / 8 * 8 ≤ i.toNat) ∨
      (i.toNat < s.tor.numPieces ∧ ours s i.toNat = true ∧ pl < b.toNat + l.toNat) := by
  have hc : s.bf.Complete = false ↔ ∃ j, j < s.tor.numPieces ∧ ours s j = false := by
    have h1 := (C18_counter_exact_partial s.bf h.bf).2
    rw [h.nbits] at h1
    constructor
    · intro e
      apply Classical.byContradiction
      intro hn
      have : s.bf.Complete = true := h1.mpr (fun j hj => by
        have hj : j < s.tor.numPieces := by omega
        refine (get_ours h j hj).mpr ?_
        cases ho : ours s j with
        | true => rfl
        | false => exact absurd ⟨j, hj, ho⟩ hn)
      rw [this] at e; cases e
    · rintro ⟨j, hj, ho⟩
      cases e : s.bf.Complete with
      | false => rfl
      | true =>
        have := (get_ours h j hj).mp (h1.mp e j (by omega))
        rw [this] at ho; cases ho
  rw [recv_request, request_panic_iff h, hc, (data_length h).1, Nat.mul_comm 8]
  constructor
  · rintro (h1 | ⟨h1, h2, h3⟩)
    · exact .inl h1
    · exact .inr ⟨h1, (get_ours h _ h1).mp h2, h3⟩
  · rintro (h1 | ⟨h1, h2, h3⟩)
    · exact .inl h1
    · exact .inr ⟨h1, (get_ours h _ h1).mpr h2, h3⟩

/-- **C44** (partial).  Requests for existing pieces that stay within the piece length never panic and never run on. -/
theorem C44_no_panic_partial {pl : Nat} {hashes : Bytes} {files : List EntryBase} {cs : List Bytes} {s : Swarm} {st : St}
    (h : Running pl hashes files cs s st.buf) (me : PH) (wok : Nat → Bool) (fuel : Nat) (i b l : UInt32) (hi : i.toNat < s.tor.numPieces)
    (hb : b.toNat + l.toNat ≤ pl) :
    (handleMessage (fuel + 2) s me wok (wire (.request i b l)) st).2 = .ok () ∨
    ∃ e, (handleMessage (fuel + 2) s me wok (wire (.request i b l)) st).2 = .err e := by
  rw [recv_request]; exact request_no_panic h i b l _ hi hb

/-- C44 refuted: for every torrent, a client that does not have all pieces is crashed by a request with index 2^32 - 1 (for fewer than
2^32 - 8 pieces), whatever else is in it. -/
theorem C44_refuted_index {pl : Nat} {hashes : Bytes} {files : List EntryBase} {cs : List Bytes} {s : Swarm} {st : St}
    (h : Running pl hashes files cs s st.buf) (hc : ∃ j, j < s.tor.numPieces ∧ ours s j = false) (hn : s.tor.numPieces < 2 ^ 32 - 8)
    (me : PH) (wok : Nat → Bool) (fuel : Nat) (b l : UInt32) :
    (handleMessage (fuel + 2) s me wok (wire (.request 4294967295 b l)) st).2 = .panic := by
  refine (C44_panic_iff_partial h _ _ _ _ _ _).mpr (.inl ⟨hc, ?_⟩)
  show _ ≤ 4294967295
  omega

/-- C44 refuted: for every torrent, a client that has any piece is crashed by a request for more than the piece length. -/
theorem C44_refuted_length {pl : Nat} {hashes : Bytes} {files : List EntryBase} {cs : List Bytes} {s : Swarm} {st : St}
    (h : Running pl hashes files cs s st.buf) (i : UInt32) (hi : i.toNat < s.tor.numPieces) (hg : ours s i.toNat = true)
    (me : PH) (wok : Nat → Bool) (fuel : Nat) :
    (handleMessage (fuel + 2) s me wok (wire (.request i 0 (UInt32.ofNat (pl + 1)))) st).2 = .panic := by
  rw [recv_request]; exact request_length h i hi ((get_ours h _ hi).mpr hg) _

/-- **C43**, exactly what is served: a message is written only for a piece we have and a range within the piece length, and then
it is one piece message, with the bytes of the buffer: those of the piece, followed by older contents of the buffer. -/
theorem C43_served_exact_partial {pl : Nat} {hashes : Bytes} {files : List EntryBase} {cs : List Bytes} {s : Swarm} {st : St}
    (h : Running pl hashes files cs s st.buf) (me : PH) (wok : Nat → Bool) (fuel : Nat) (i b l : UInt32)
    (hout : (handleMessage (fuel + 2) s me wok (wire (.request i b l)) st).1.out ≠ st.out) :
    i.toNat < s.tor.numPieces ∧ ours s i.toNat = true ∧ b.toNat + l.toNat ≤ pl ∧
    (handleMessage (fuel + 2) s me wok (wire (.request i b l)) st).1.out = st.out ++ [wire (.piece i b
      (range (pieceOf cs.flatten pl i.toNat ++ st.buf.drop (pieceOf cs.flatten pl i.toNat).length) b.toNat l.toNat))] ∧
    (handleMessage (fuel + 2) s me wok (wire (.request i b l)) st).2 = .ok () := by
  rw [recv_request] at hout ⊢
  obtain ⟨h1, h2, h3⟩ := request_served_exact h i b l _ hout
  exact ⟨h1, (get_ours h _ h1).mp h2, h3⟩

/-- **C43** (partial: requests that stay within the piece, also the last one).  The block sent is exactly that part of the
torrent, and the piece is one we have. -/
theorem C43_served_partial {pl : Nat} {hashes : Bytes} {files : List EntryBase} {cs : List Bytes} {s : Swarm} {st : St}
    (h : Running pl hashes files cs s st.buf) (me : PH) (wok : Nat → Bool) (fuel : Nat) (i b l : UInt32)
    (hout : (handleMessage (fuel + 2) s me wok (wire (.request i b l)) st).1.out ≠ st.out)
    (hl : b.toNat + l.toNat ≤ (pieceOf cs.flatten pl i.toNat).length) :
    ours s i.toNat = true ∧
    (handleMessage (fuel + 2) s me wok (wire (.request i b l)) st).1.out =
      st.out ++ [wire (.piece i b (range cs.flatten (i.toNat * pl + b.toNat) l.toNat))] ∧
    (range cs.flatten (i.toNat * pl + b.toNat) l.toNat).length = l.toNat := by
  have h0 := (C43_served_exact_partial h me wok fuel i b l hout).2.1
  rw [recv_request] at hout ⊢
  exact ⟨h0, (request_served h i b l _ hout hl).2⟩

/-- **C43**: requests within a piece that we have are answered (if the connection works), and those for other pieces are not; nothing else
changes, but for the contents of the buffer. -/
theorem C43_answered {pl : Nat} {hashes : Bytes} {files : List EntryBase} {cs : List Bytes} {s : Swarm} {st : St}
    (h : Running pl hashes files cs s st.buf) (me : PH) (fuel : Nat) (i b l : UInt32) (hi : i.toNat < s.tor.numPieces)
    (hl : b.toNat + l.toNat ≤ (pieceOf cs.flatten pl i.toNat).length) :
    ∃ st', handleMessage (fuel + 2) s me (fun _ => true) (wire (.request i b l)) st = (st', .ok ()) ∧
      st'.out = st.out ++ (if ours s i.toNat then [wire (.piece i b (range cs.flatten (i.toNat * pl + b.toNat) l.toNat))] else []) ∧
      st'.ppt = st.ppt ∧ st'.peerBf = st.peerBf ∧ st'.buf.length = pl := by
  rw [recv_request]
  cases ho : ours s i.toNat with
  | true =>
    rw [request_answered h i b l hi ((get_ours h _ hi).mpr ho) hl]
    exact ⟨_, rfl, rfl, rfl, rfl, filled_length _ _ _ _ h.buf⟩
  | false =>
    have : ¬ s.bf.Get i.toNat = .ok true := fun e => by rw [(get_ours h _ hi).mp e] at ho; cases ho
    rw [handleRequest_spec h, if_pos hi, if_neg this]
    exact ⟨_, rfl, by simp, rfl, rfl, h.buf⟩

/-- C43 refuted: whenever a request reaches beyond the end of the (short) last piece but stays within the piece length, the block
sent is not a part of the torrent: it ends with whatever the buffer held before. -/
theorem C43_refuted_stale {pl : Nat} {hashes : Bytes} {files : List EntryBase} {cs : List Bytes} {s : Swarm} {st : St}
    (h : Running pl hashes files cs s st.buf) (me : PH) (fuel : Nat) (i b l : UInt32) (hi : i.toNat < s.tor.numPieces) (hg : ours s i.toNat = true)
    (hb : b.toNat ≤ (pieceOf cs.flatten pl i.toNat).length) (hl : (pieceOf cs.flatten pl i.toNat).length < b.toNat + l.toNat) (hle : b.toNat + l.toNat ≤ pl) :
    ∃ blk, (handleMessage (fuel + 2) s me (fun _ => true) (wire (.request i b l)) st).1.out = st.out ++ [wire (.piece i b blk)] ∧
      blk = (pieceOf cs.flatten pl i.toNat).drop b.toNat ++
        range st.buf (pieceOf cs.flatten pl i.toNat).length (b.toNat + l.toNat - (pieceOf cs.flatten pl i.toNat).length) ∧
      blk ≠ range cs.flatten (i.toNat * pl + b.toNat) l.toNat := by
  rw [recv_request]; exact request_stale h i b l hi ((get_ours h _ hi).mpr hg) hb hl hle

/-- the hypotheses of C43 and C44: pieces 1 and 3 of four are there, the last one is short -/
example : ∃ s, Running 4 exHashes exFiles [[1, 2, 3, 4, 5], [], [6, 7, 8, 9, 10, 11, 12, 13]] s [91, 92, 93, 94] ∧
    s.tor.numPieces = 4 ∧ ours s 1 = true ∧ ours s 3 = true ∧ ours s 0 = false ∧
    (pieceOf [[1, 2, 3, 4, 5], [], [6, 7, 8, 9, 10, 11, 12, 13]].flatten 4 3).length = 1 := by
  obtain ⟨s, h, hn, hb, hc, h1, h3, h0⟩ := exRunning
  refine ⟨s, h, hn, (get_ours h 1 (by omega)).mp h1, (get_ours h 3 (by omega)).mp h3, ?_, by decide +kernel⟩
  cases ho : ours s 0 with
  | false => rfl
  | true => have := (get_ours h 0 (by omega)).mpr ho; rw [h0] at this; cases this

/-- **C45**: a bitfield message of the wrong size changes nothing and is an error; what comes behind it in the same buffer is not looked at. -/
theorem C45_wrong_size {pl : Nat} {hashes : Bytes} {files : List EntryBase} {cs : List Bytes} {s : Swarm} {st : St}
    (h : Running pl hashes files cs s st.buf) (me : PH) (wok : Nat → Bool) (p : Bytes) (hp : p ≠ []) (hl : p.length ≠ (s.tor.numPieces + 7) / 8)
    (ws : List Wire.Msg) (hd : ∀ w ∈ ws, Decodable w) (hlen : (stream (.bitfield p :: ws)).length < 2 ^ 32) (fuel : Nat) (hf : ws.length + 1 < fuel) :
    ∃ e, handleMessage fuel s me wok (stream (.bitfield p :: ws)) st = (st, .err e) := by
  obtain ⟨ms, e1, e2⟩ : ∃ ms, DecodeAll fuel (stream (.bitfield p :: ws)) = .ok ms ∧ ms.msgs = received (.bitfield p) :: ws.map received := by
    obtain ⟨k, rfl⟩ : ∃ k, fuel = (Wire.Msg.bitfield p :: ws).length + (k + 1) := ⟨fuel - ws.length - 2, by simp only [List.length_cons]; omega⟩
    have := loop_stream (.bitfield p :: ws) (k + 1) [] (by
      intro w hw
      rcases List.mem_cons.mp hw with rfl | hw
      · exact hp
      · exact hd w hw) (by simpa using hlen) [] 0
    rw [List.append_nil] at this
    refine ⟨_, by rw [DecodeAll, this, loop_nil], rfl⟩
  refine ⟨.other, ?_⟩
  unfold handleMessage
  rw [e1]
  simp only [e2, handleAll]
  have : handleOne s me wok (received (.bitfield p)) st = (st, .err .other) :=
    bitfield_wrong_size s me (rxBitfield p) st (by rw [(rx_wf p hp).2.2, (data_length h).2]; omega)
  rw [this]

/-- **C45**, exact for a bitfield of the right size: unless a piece gets a 64th peer (which panics), the peer's bitfield is
replaced by the announced bits for exactly the torrent's pieces, and the peer is registered for the pieces it was registered for
before and those whose bit is set; nobody else is affected, and nothing is sent.
Missing from the property: registrations from an earlier bitfield stay (`C45_refuted_second`). -/
theorem C45_right_size_partial {pl : Nat} {hashes : Bytes} {files : List EntryBase} {cs : List Bytes} {s : Swarm} {st : St}
    (h : Running pl hashes files cs s st.buf) (calls : List Call) (hr : Reached s.tor.numPieces calls st.ppt) (me : PH) (wok : Nat → Bool) (fuel : Nat)
    (p : Bytes) (hp : p ≠ []) (hl : p.length = (s.tor.numPieces + 7) / 8) (hs : p.length + 5 < 2 ^ 32) :
    (AtMost 63 (after calls) (((List.range s.tor.numPieces).filter (bit p)).map (Step.reg me.key)) →
      ∃ st', handleMessage (fuel + 2) s me wok (wire (.bitfield p)) st = (st', .ok ()) ∧ st'.buf = st.buf ∧ st'.out = st.out ∧
        st'.peerBf.nbits = s.tor.numPieces ∧ st'.peerBf.nset = count (bit p) s.tor.numPieces ∧
        (∀ i : Nat, i < s.tor.numPieces → st'.peerBf.Get i = .ok (bit p i)) ∧
        Reached s.tor.numPieces (calls ++ [.registerBF me st'.peerBf]) st'.ppt ∧
        ∀ i : Nat, i < s.tor.numPieces → ∀ k, RegisteredFor st'.ppt i k ↔ RegisteredFor st.ppt i k ∨ (k = me.key ∧ bit p i = true)) ∧
    (¬ AtMost 63 (after calls) (((List.range s.tor.numPieces).filter (bit p)).map (Step.reg me.key)) →
      (handleMessage (fuel + 2) s me wok (wire (.bitfield p)) st).2 = .panic) := by
  rw [recv_bitfield fuel s me wok p hp hs]
  obtain ⟨h1, h2, h3⟩ := rx_wf p hp
  have hg : ∀ i : Nat, i < s.tor.numPieces → (rxBitfield p).Get i = .ok (bit p i) := fun i hi => by
    rw [get_nat, h2, if_pos (by omega)]
  obtain ⟨k1, k2⟩ := bitfield_right_size h calls hr me (rxBitfield p) h1 (by rw [h3, (data_length h).2]; omega)
  rw [h2] at k1 k2
  refine ⟨fun ha => ?_, k2⟩
  obtain ⟨st', e, g1, g2, g3, g4, g5, g6, g7⟩ := k1 ha
  refine ⟨st', e, g1, g2, g3, g4, fun i hi => by rw [g5 i hi, hg i hi], g6, fun i hi k => ?_⟩
  rw [g7 i hi k, hg i hi]
  simp

/-- **C45** (partial: the first bitfield of a peer, at most 63 peers so far).  Then the peer is registered for exactly the
pieces whose bit is set. -/
theorem C45_first_partial {pl : Nat} {hashes : Bytes} {files : List EntryBase} {cs : List Bytes} {s : Swarm} {st : St}
    (h : Running pl hashes files cs s st.buf) (calls : List Call) (hr : Reached s.tor.numPieces calls st.ppt) (me : PH) (wok : Nat → Bool) (fuel : Nat)
    (p : Bytes) (hp : p ≠ []) (hl : p.length = (s.tor.numPieces + 7) / 8) (hs : p.length + 5 < 2 ^ 32)
    (hnew : ∀ i, i < s.tor.numPieces → ¬ RegisteredFor st.ppt i me.key)
    (hfew : AtMost 63 (after calls) (((List.range s.tor.numPieces).filter (bit p)).map (Step.reg me.key))) :
    ∃ st', handleMessage (fuel + 2) s me wok (wire (.bitfield p)) st = (st', .ok ()) ∧
      ∀ i : Nat, i < s.tor.numPieces → ((RegisteredFor st'.ppt i me.key ↔ bit p i = true) ∧
        ∀ k, k ≠ me.key → (RegisteredFor st'.ppt i k ↔ RegisteredFor st.ppt i k)) := by
  obtain ⟨st', e, -, -, -, -, -, -, hreg⟩ := (C45_right_size_partial h calls hr me wok fuel p hp hl hs).1 hfew
  refine ⟨st', e, fun i hi => ⟨?_, fun k hk => ?_⟩⟩
  · rw [hreg i hi]; simp [hnew i hi]
  · rw [hreg i hi]; simp [hk]

/-- C45 refuted: for every torrent with a piece and every peer, after a bitfield announcing piece 0 and a second one announcing
nothing, the peer is still registered for piece 0. -/
theorem C45_refuted_second {pl : Nat} {hashes : Bytes} {files : List EntryBase} {cs : List Bytes} {s : Swarm} {st : St}
    (h : Running pl hashes files cs s st.buf) (h0 : 0 < s.tor.numPieces) (hs : s.tor.numPieces ≤ 2 ^ 32) (hnew : NewPeerPieceTracker s.tor.numPieces = .ok st.ppt)
    (me : PH) (wok : Nat → Bool) (fuel : Nat) (p1 p2 : Bytes) (hl1 : p1.length = (s.tor.numPieces + 7) / 8) (hl2 : p2.length = (s.tor.numPieces + 7) / 8)
    (hb : bit p1 0 = true) :
    ∃ st1 st2, handleMessage (fuel + 2) s me wok (wire (.bitfield p1)) st = (st1, .ok ()) ∧
      handleMessage (fuel + 2) s me wok (wire (.bitfield p2)) st1 = (st2, .ok ()) ∧ RegisteredFor st2.ppt 0 me.key := by
  have hr : Reached s.tor.numPieces [] st.ppt := ⟨hs, (fun c hc => by cases hc), st.ppt, hnew, rfl⟩
  have hf : Few [me.key] me [] := ⟨by simp, by simp, fun c hc => by cases hc⟩
  have ne1 : p1 ≠ [] := fun e => by rw [e] at hl1; simp at hl1; omega
  have ne2 : p2 ≠ [] := fun e => by rw [e] at hl2; simp at hl2; omega
  obtain ⟨st1, e1, b1, -, -, -, -, r1, reg1⟩ := (C45_right_size_partial h [] hr me wok fuel p1 ne1 hl1 (by omega)).1 (few_atMost hf _)
  have hf1 : Few [me.key] me ([] ++ [.registerBF me st1.peerBf]) := ⟨by simp, by simp, fun c hc => by
    rw [List.nil_append, List.mem_singleton] at hc
    rw [hc]; exact List.mem_singleton.mpr rfl⟩
  obtain ⟨st2, e2, -, -, -, -, -, -, reg2⟩ :=
    (C45_right_size_partial (st := st1) (h.withBuf (by rw [b1]; exact h.buf)) _ r1 me wok fuel p2 ne2 hl2 (by omega)).1 (few_atMost hf1 _)
  exact ⟨st1, st2, e1, e2, (reg2 0 h0 _).mpr (.inl ((reg1 0 h0 _).mpr (.inr ⟨rfl, hb⟩)))⟩

/-- the hypotheses of C45: a new tracker, a peer, bitfields with two of the four pieces and with none, and one of the wrong size -/
example : ∃ s t, Running 4 exHashes exFiles [[1, 2, 3, 4, 5], [], [6, 7, 8, 9, 10, 11, 12, 13]] s [91, 92, 93, 94] ∧
    Reached s.tor.numPieces [] t ∧ NewPeerPieceTracker s.tor.numPieces = .ok t ∧ (∀ i, i < s.tor.numPieces → ¬ RegisteredFor t i [7]) ∧
    ([160] : Bytes).length = (s.tor.numPieces + 7) / 8 ∧ bit [160] 0 = true ∧ ([0, 0] : Bytes).length ≠ (s.tor.numPieces + 7) / 8 ∧
    AtMost 63 (after []) (((List.range s.tor.numPieces).filter (bit [160])).map (Step.reg [7])) := by
  obtain ⟨s, h, hn, -⟩ := exRunning
  obtain ⟨t, e, iv, -⟩ := new_spec 4
  refine ⟨s, t, h, ⟨by rw [hn]; decide, (fun c hc => by cases hc), t, by rw [hn]; exact e, rfl⟩, by rw [hn]; exact e, ?_, by rw [hn]; rfl, by decide, by rw [hn]; decide, ?_⟩
  · intro i hi
    rw [hn] at hi
    rw [iv.registered i hi]
    exact List.not_mem_nil
  · exact few_atMost (me := ⟨0, [7]⟩) (keys := [[7]]) (calls := []) ⟨by simp, by simp, fun c hc => by cases hc⟩ _

/-- **C66**, errors: after the first error of a buffer the connection is over: further buffers are not looked at, and nothing more is sent. -/
theorem C66_error_ends (fuel : Nat) (s : Swarm) (me : PH) (wok : Nat → Bool) (bufs more : List Bytes) (st st' : St) (e : Err)
    (h : recvAll fuel s me wok bufs st = (st', .err e)) : recvAll fuel s me wok (bufs ++ more) st = (st', .err e) := by
  induction bufs generalizing st with
  | nil => cases h
  | cons b bs ih =>
    rw [List.cons_append, recvAll]
    rw [recvAll] at h
    rcases hm : handleMessage fuel s me wok b st with ⟨st1, r⟩
    rw [hm] at h
    cases r with
    | ok u => exact ih st1 h
    | err e' => exact h
    | panic => exact h
    | timeout => exact h

/-- a bitfield of the wrong size is such an error -/
example : ∃ s t st e, Running 4 exHashes exFiles [[1, 2, 3, 4, 5], [], [6, 7, 8, 9, 10, 11, 12, 13]] s [91, 92, 93, 94] ∧
    st = ⟨t, s.bf, [91, 92, 93, 94], []⟩ ∧ recvAll 3 s ⟨0, [7]⟩ (fun _ => true) [stream [.bitfield [0, 0]], wire (.request 1 0 2)] st = (st, .err e) := by
  obtain ⟨s, h, hn, -⟩ := exRunning
  obtain ⟨t, -, -, -⟩ := new_spec 4
  obtain ⟨e, he⟩ := C45_wrong_size (st := ⟨t, s.bf, [91, 92, 93, 94], []⟩) h ⟨0, [7]⟩ (fun _ => true) [0, 0] (by simp) (by rw [hn]; decide) [] (by simp) (by decide) 3 (by decide)
  refine ⟨s, t, _, e, h, rfl, ?_⟩
  exact C66_error_ends 3 s _ _ [stream [.bitfield [0, 0]]] [wire (.request 1 0 2)] _ _ e (by rw [recvAll, he])

theorem handleOne_silent (s : Swarm) (me : PH) (wok : Nat → Bool) (m : P2P.Msg) (st : St) (hm : ∀ i b l, m ≠ .request i b l) :
    (handleOne s me wok m st).1.out = st.out := by
  cases m with
  | request i b l => exact absurd rfl (hm i b l)
  | bitfield n bf =>
    show (handleBitfield s me bf st).1.out = st.out
    unfold handleBitfield
    repeat' split
    all_goals rfl
  | _ => rfl

theorem handleAll_silent (s : Swarm) (me : PH) (wok : Nat → Bool) (ms : List P2P.Msg) (st : St) (hm : ∀ m ∈ ms, ∀ i b l, m ≠ .request i b l) :
    (handleAll s me wok ms st).1.out = st.out := by
  induction ms generalizing st with
  | nil => rfl
  | cons m ms ih =>
    rw [handleAll]
    have h1 := handleOne_silent s me wok m st (hm m (List.mem_cons_self ..))
    rcases hh : handleOne s me wok m st with ⟨st', r⟩
    rw [hh] at h1
    cases r with
    | ok u => exact (ih st' (fun m' h' => hm m' (List.mem_cons_of_mem _ h'))).trans h1
    | err e => exact h1
    | panic => exact h1
    | timeout => exact h1

/-- a buffer shorter than a request is not answered -/
theorem short_silent (fuel : Nat) (s : Swarm) (me : PH) (wok : Nat → Bool) (c : Bytes) (hc : c.length < 17) (st : St) :
    (handleMessage fuel s me wok c st).1.out = st.out := by
  unfold handleMessage
  cases hd : DecodeAll fuel c with
  | ok r =>
    refine handleAll_silent s me wok r.msgs st (fun m hm i b l e => ?_)
    have h1 := (C15_decodeAll_read_exact fuel c r hd).2.1.length_le
    have hsub : List.Sublist (wire m.view) (stream (r.msgs.map Msg.view)) := by
      unfold stream
      exact List.sublist_flatten_of_mem (List.mem_map_of_mem (List.mem_map_of_mem hm))
    have h2 := hsub.length_le
    have h3 : (wire m.view).length = 17 := by
      subst e
      simp only [Msg.view, length_wire, body, List.length_cons, List.length_append, be32_length]
    omega
  | err e => rfl
  | panic => rfl
  | timeout => rfl

/-- **C66** refuted for other buffers: a request that is received in two parts is not answered, whatever pieces we have. -/
theorem C66_refuted_split (fuel : Nat) (s : Swarm) (me : PH) (wok : Nat → Bool) (i b l : UInt32) (x y : Bytes) (hxy : x ++ y = wire (.request i b l))
    (hx : x ≠ []) (hy : y ≠ []) (st : St) : (recvAll fuel s me wok [x, y] st).1.out = st.out := by
  have h17 : (wire (.request i b l)).length = 17 := by simp only [length_wire, body, List.length_cons, List.length_append, be32_length]
  have h0 : x.length + y.length = 17 := by rw [← List.length_append, hxy, h17]
  have h1 := List.length_pos_iff.mpr hx
  have h2 := List.length_pos_iff.mpr hy
  rw [recvAll]
  have k1 := short_silent fuel s me wok x (by omega) st
  rcases hh : handleMessage fuel s me wok x st with ⟨st', r⟩
  rw [hh] at k1
  cases r with
  | ok u =>
    have k2 := short_silent fuel s me wok y (by omega) st'
    show (recvAll fuel s me wok [y] st').1.out = st.out
    rw [recvAll]
    rcases hh2 : handleMessage fuel s me wok y st' with ⟨st2, r2⟩
    rw [hh2] at k2
    cases r2 <;> exact k2.trans k1
  | err e => exact k1
  | panic => exact k1
  | timeout => exact k1

/-- while the same bytes in one buffer are answered -/
example : ∃ s, Running 4 exHashes exFiles [[1, 2, 3, 4, 5], [], [6, 7, 8, 9, 10, 11, 12, 13]] s [91, 92, 93, 94] ∧ ∀ ppt pb out,
    (recvAll 2 s ⟨0, [7]⟩ (fun _ => true) [wire (.request 1 2 2)] ⟨ppt, pb, [91, 92, 93, 94], out⟩).1.out = out ++ [wire (.piece 1 2 [7, 8])] ∧
    (wire (.request 1 2 2)).take 6 ++ (wire (.request 1 2 2)).drop 6 = wire (.request 1 2 2) ∧
    (recvAll 2 s ⟨0, [7]⟩ (fun _ => true) [(wire (.request 1 2 2)).take 6, (wire (.request 1 2 2)).drop 6] ⟨ppt, pb, [91, 92, 93, 94], out⟩).1.out = out := by
  obtain ⟨s, h, hn, -, -, h1, -⟩ := exRunning
  refine ⟨s, h, fun ppt pb out => ⟨?_, List.take_append_drop .., ?_⟩⟩
  · obtain ⟨st', e1, e2, -⟩ := C43_answered (st := ⟨ppt, pb, [91, 92, 93, 94], out⟩) h ⟨0, [7]⟩ 0 1 2 2 (by rw [hn]; decide) (by decide +kernel)
    rw [recvAll, e1]
    simp only [recvAll]
    have h1' : ours s (1 : UInt32).toNat = true := (get_ours h 1 (by omega)).mp h1
    rw [e2, h1']
    simp only [if_true, List.append_cancel_left_eq]
    decide +kernel
  · exact C66_refuted_split 2 s ⟨0, [7]⟩ (fun _ => true) 1 2 2 _ _ (List.take_append_drop 6 _) (by decide +kernel) (by decide +kernel) _

end Verif.MsgHandler
