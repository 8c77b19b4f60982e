import Verif.Lemmas.P2P
/-
Properties C10–C16: /repo/src/p2p.
-/
set_option autoImplicit false

namespace Verif.P2P
open Verif.Bf Verif.Wire

/-- the abstract message a message struct stands for -/
def Msg.view : Msg → Wire.Msg
  | .keepAlive => .keepAlive
  | .choke => .choke
  | .unchoke => .unchoke
  | .interested => .interested
  | .notInterested => .notInterested
  | .have i => .have i
  | .bitfield _ b => .bitfield b.data
  | .request i b l => .request i b l
  | .piece _ i b blk => .piece i b blk

/-- the messages `Decode` can handle: all but piece messages and empty bitfields -/
def Decodable : Wire.Msg → Prop
  | .piece _ _ _ => False
  | .bitfield bs => bs ≠ []
  | _ => True

/-! ### C10 -/

theorem putAt_eq (pl : Bytes) (k : Nat) (v : UInt32) (h : k + 4 ≤ pl.length) :
    Msg.putAt pl k v = .ok (pl.take k ++ be32 v.toNat ++ pl.drop (k + 4)) := by
  unfold Msg.putAt; rw [if_pos h, putU32_eq]

theorem ofInt_toNat (k : Nat) (h : k < 2 ^ 32) : (UInt32.ofInt (k : Int)).toNat = k := by
  have : UInt32.ofInt (k : Int) = UInt32.ofNat k := by
    unfold UInt32.ofInt
    congr 1
    omega
  rw [this]
  exact UInt32.toNat_ofNat_of_lt' h

/-- C10 (partial: all messages except request): `Encode` of the message built by the constructor is the
wire form. -/
theorem C10_encode_wire_partial :
    Msg.Encode .keepAlive = .ok (wire .keepAlive) ∧
    Msg.Encode .choke = .ok (wire .choke) ∧
    Msg.Encode .unchoke = .ok (wire .unchoke) ∧
    Msg.Encode .interested = .ok (wire .interested) ∧
    Msg.Encode .notInterested = .ok (wire .notInterested) ∧
    (∀ i, (NewMsgHave i).Encode = .ok (wire (.have i))) ∧
    (∀ i b blk, Fits (.piece i b blk) → (NewMsgPiece i b blk).Encode = .ok (wire (.piece i b blk))) ∧
    (∀ bf : Bitfield, Wf bf → Fits (.bitfield bf.data) →
      (NewMsgBitfield bf).Encode = .ok (wire (.bitfield bf.data))) := by
  refine ⟨rfl, rfl, rfl, rfl, rfl, ?_, ?_, ?_⟩
  · intro i
    unfold NewMsgHave Msg.Encode Msg.fillBase
    simp only [List.length_replicate]
    rw [if_neg (by decide)]
    simp only [Res.ok_bind]
    rw [putAt_eq _ _ _ (by simp [putU32]), putU32_eq]
    simp [be32, wire, body, Msg.Length, Msg.Mtype]
  · intro i b blk hf
    have hlen : (body (.piece i b blk)).length = 1 + 8 + blk.length := by
      simp [body, be32_length]; omega
    unfold NewMsgPiece Msg.Encode Msg.fillBase
    simp only [List.length_replicate]
    rw [if_neg (by decide)]
    simp only [Res.ok_bind]
    rw [putAt_eq _ _ _ (by simp [putU32])]
    simp only [Res.ok_bind]
    rw [putAt_eq _ _ _ (by simp [putU32, be32])]
    simp only [Res.ok_bind]
    rw [wire, hlen]
    have : (Msg.piece (UInt32.ofNat (1 + 8 + blk.length)) i b blk).Length.toNat = 1 + 8 + blk.length := by
      unfold Fits at hf
      rw [hlen] at hf
      exact UInt32.toNat_ofNat_of_lt' hf
    rw [putU32_eq, this]
    simp [be32, body, Msg.Mtype]
  · intro bf hw hf
    have hl := hw.data_len
    have hlen : (body (.bitfield bf.data)).length = 1 + bf.data.length := by
      simp [body]; omega
    unfold Fits at hf
    rw [hlen] at hf
    unfold NewMsgBitfield Msg.Encode Msg.fillBase
    have h5 := hw.len
    have hhi := hw.hi
    have hlo := hw.lo
    have h5' : ¬ bf.data5.length < 5 := by omega
    simp only
    rw [if_neg h5', putU32_eq]
    have : (Msg.bitfield (UInt32.ofInt (1 + bf.nbytes)) bf).Length.toNat = 1 + bf.data.length := by
      show (UInt32.ofInt (1 + bf.nbytes)).toNat = _
      rw [← hl, show (1 + (bf.data.length : Int)) = ((1 + bf.data.length : Nat) : Int) by omega]
      exact ofInt_toNat _ hf
    rw [this, wire, hlen]
    simp [body, Msg.Mtype, Bitfield.data]

example : Fits (.piece 1 16384 [1, 2, 3]) ∧ wire (.piece 1 16384 [1, 2, 3]) =
    [0, 0, 0, 12, 7, 0, 0, 0, 1, 0, 0, 64, 0, 1, 2, 3] := by
  constructor
  · simp [Fits, body, be32]
  · decide
example : Wf ⟨[0, 0, 0, 0, 0, 160], 1, 3, 2⟩ := ⟨by decide, by decide, by decide, by decide⟩

/-- C10 refuted for request messages: what `Encode` produces is the requested length followed by the type
byte, for every request; this is never the wire form. -/
theorem C10_refuted_request (i b l : UInt32) :
    (NewMsgRequest i b l).Encode = .ok (be32 l.toNat ++ [6]) ∧
    (NewMsgRequest i b l).Encode ≠ .ok (wire (.request i b l)) := by
  have h : (NewMsgRequest i b l).Encode = .ok (be32 l.toNat ++ [6]) := by
    unfold NewMsgRequest Msg.Encode Msg.baseEncode
    simp only
    rw [putAt_eq _ _ _ (by simp [putU32])]
    simp only [Res.ok_bind]
    rw [putAt_eq _ _ _ (by simp [putU32, be32])]
    simp only [Res.ok_bind]
    rw [putAt_eq _ _ _ (by simp [putU32, be32])]
    simp [putU32, be32, Msg.Mtype]
  refine ⟨h, ?_⟩
  rw [h]
  intro hc
  have := congrArg List.length (Res.ok.inj hc)
  simp [wire, body, be32] at this

/-! ### C11, C15 -/

theorem length_wire (w : Wire.Msg) : (wire w).length = 4 + (body w).length := by
  simp [wire, be32_length]

theorem drop_be32 (a : Nat) (r : Bytes) : (be32 a ++ r).drop 4 = r := rfl

/-- what `Decode` returns for the wire form of a message -/
def received (w : Wire.Msg) : Msg :=
  match w with
  | .keepAlive => .keepAlive
  | .choke => .choke
  | .unchoke => .unchoke
  | .interested => .interested
  | .notInterested => .notInterested
  | .have i => .have i
  | .bitfield p => .bitfield (UInt32.ofNat (p.length + 1)) (rxBitfield p)
  | .request i b l => .request i b l
  | .piece i b blk => .piece (UInt32.ofNat (9 + blk.length)) i b blk

theorem view_received (w : Wire.Msg) : (received w).view = w := by
  cases w <;> rfl

theorem decode_wire (w : Wire.Msg) (rest : Bytes) (hd : Decodable w) (hlen : (wire w ++ rest).length < 2 ^ 32) :
    Decode (wire w ++ rest) = .ok ⟨some (received w), (wire w).length⟩ := by
  have hb : ∀ (l : Nat) (t : UInt8) (p : Bytes), body w = t :: p → p.length + 1 = l →
      wire w ++ rest = be32 l ++ t :: (p ++ rest) := by
    intro l t p h h2
    rw [wire, h]; simp [h2]
  rw [List.length_append, length_wire] at hlen
  cases w with
  | keepAlive =>
    match rest with
    | [] => rfl
    | t :: r =>
      have := decode_be32 0 (by decide) t r
      rw [if_pos rfl] at this
      exact this
  | choke =>
    rw [hb 1 0 [] rfl rfl, decode_frame 1 0 [] rest rfl (by decide) (by simp [body] at hlen ⊢; omega) (by simp)]
    rfl
  | unchoke =>
    rw [hb 1 1 [] rfl rfl, decode_frame 1 1 [] rest rfl (by decide) (by simp [body] at hlen ⊢; omega) (by simp)]
    rfl
  | interested =>
    rw [hb 1 2 [] rfl rfl, decode_frame 1 2 [] rest rfl (by decide) (by simp [body] at hlen ⊢; omega) (by simp)]
    rfl
  | notInterested =>
    rw [hb 1 3 [] rfl rfl, decode_frame 1 3 [] rest rfl (by decide) (by simp [body] at hlen ⊢; omega) (by simp)]
    rfl
  | «have» i =>
    rw [hb 5 4 (be32 i.toNat) rfl rfl, decode_frame 5 4 (be32 i.toNat) rest rfl (by decide)
      (by simp [body, be32_length] at hlen ⊢; omega) (by simp)]
    have : prefixLen (be32 i.toNat) = i.toNat := by
      have := prefixLen_be32 i.toNat [] i.toNat_lt
      rwa [List.append_nil] at this
    show Res.ok (DecodeResult.mk (if (be32 i.toNat).length = 4 then _ else _) 9) = _
    rw [if_pos (by rfl), this]
    simp [received, length_wire, body, be32_length]
  | bitfield p =>
    have hp : p ≠ [] := hd
    rw [hb (p.length + 1) 5 p rfl rfl, decode_frame (p.length + 1) 5 p rest rfl (by simp [body] at hlen; omega)
      (by simp [body] at hlen ⊢; omega) (by simp)]
    show Res.ok (if p = [] then _ else _) = _
    rw [if_neg hp]
    simp [received, length_wire, body]
  | request i b l =>
    rw [hb 13 6 (be32 i.toNat ++ be32 b.toNat ++ be32 l.toNat) rfl rfl, decode_frame 13 6 _ rest rfl (by decide)
      (by simp [body, be32_length] at hlen ⊢; omega) (by simp)]
    show Res.ok (DecodeResult.mk (if (be32 i.toNat ++ be32 b.toNat ++ be32 l.toNat).length = 12 then _ else _) 17) = _
    rw [if_pos (by rfl)]
    have e1 : prefixLen (be32 i.toNat ++ be32 b.toNat ++ be32 l.toNat) = i.toNat := by
      rw [List.append_assoc, prefixLen_be32 _ _ i.toNat_lt]
    have e2 : prefixLen ((be32 i.toNat ++ be32 b.toNat ++ be32 l.toNat).drop 4) = b.toNat := by
      rw [List.append_assoc, drop_be32, prefixLen_be32 _ _ b.toNat_lt]
    have e3 : prefixLen ((be32 i.toNat ++ be32 b.toNat ++ be32 l.toNat).drop 8) = l.toNat := by
      rw [List.append_assoc, show 8 = 4 + 4 from rfl, ← List.drop_drop, drop_be32, drop_be32]
      have := prefixLen_be32 l.toNat [] l.toNat_lt
      rwa [List.append_nil] at this
    rw [e1, e2, e3]
    simp [received, length_wire, body, be32_length]
  | piece i b blk => exact hd.elim

/-- C11 (partial: all messages except piece messages and empty bitfields): decoding the wire form followed
by anything returns the message and the length of the wire form.  The total length is limited to what
fits `uint32`, since `Decode` compares lengths in `uint32`. -/
theorem C11_roundtrip_partial (w : Wire.Msg) (rest : Bytes) (hd : Decodable w)
    (hlen : (wire w ++ rest).length < 2 ^ 32) :
    ∃ m, Decode (wire w ++ rest) = .ok ⟨some m, (wire w).length⟩ ∧ m.view = w ∧
      m.Length.toNat = (body w).length := by
  refine ⟨received w, decode_wire w rest hd hlen, view_received w, ?_⟩
  rw [List.length_append, length_wire] at hlen
  cases w with
  | bitfield p =>
    simp only [body, List.length_cons] at hlen ⊢
    exact UInt32.toNat_ofNat_of_lt' (by simp only [UInt32.size]; omega)
  | piece i b blk => exact hd.elim
  | _ => rfl

example : Decodable (.request 3 16384 16384) ∧ (wire (.request 3 16384 16384) ++ [0, 0, 0]).length < 2 ^ 32 :=
  ⟨trivial, by decide⟩

/-- C11, sent by this program: encoding with `Encode` and decoding with `Decode` gives the message back, for
every message except requests and pieces and the bitfield of an empty torrent. -/
theorem C11_encode_decode_partial (i : UInt32) (bf : Bitfield) (hw : Wf bf) (hne : bf.data ≠ [])
    (hf : bf.data.length < 2 ^ 32 - 5) :
    (∀ m ∈ [Msg.keepAlive, .choke, .unchoke, .interested, .notInterested, NewMsgHave i],
      ∃ bs, m.Encode = .ok bs ∧ Decode bs = .ok ⟨some m, bs.length⟩) ∧
    (∃ bs b', (NewMsgBitfield bf).Encode = .ok bs ∧ Decode bs = .ok ⟨some (.bitfield (UInt32.ofInt (1 + bf.nbytes)) b'), bs.length⟩ ∧
      b'.data = bf.data) := by
  obtain ⟨e1, e2, e3, e4, e5, e6, -, e8⟩ := C10_encode_wire_partial
  have fin (w : Wire.Msg) (hd : Decodable w) (hl : (wire w).length < 2 ^ 32) :
      Decode (wire w) = .ok ⟨some (received w), (wire w).length⟩ := by
    have := decode_wire w [] hd (by simpa using hl)
    simpa using this
  constructor
  · intro m hm
    simp only [List.mem_cons, List.not_mem_nil, or_false] at hm
    rcases hm with rfl | rfl | rfl | rfl | rfl | rfl
    · exact ⟨_, e1, fin .keepAlive trivial (by decide)⟩
    · exact ⟨_, e2, fin .choke trivial (by decide)⟩
    · exact ⟨_, e3, fin .unchoke trivial (by decide)⟩
    · exact ⟨_, e4, fin .interested trivial (by decide)⟩
    · exact ⟨_, e5, fin .notInterested trivial (by decide)⟩
    · exact ⟨_, e6 i, fin (.have i) trivial (by simp [length_wire, body, be32_length])⟩
  · have hl := hw.data_len
    refine ⟨_, rxBitfield bf.data, e8 bf hw (by simp [Fits, body]; omega), ?_, rfl⟩
    rw [fin (.bitfield bf.data) hne (by simp [length_wire, body]; omega)]
    simp only [received]
    have : UInt32.ofInt (1 + bf.nbytes) = UInt32.ofNat (bf.data.length + 1) := by
      apply UInt32.toNat.inj
      rw [← hl, show (1 + (bf.data.length : Int)) = ((bf.data.length + 1 : Nat) : Int) by omega,
        ofInt_toNat _ (by omega), UInt32.toNat_ofNat_of_lt' (by simp only [UInt32.size]; omega)]
    rw [this]

example : (⟨[0, 0, 0, 0, 0, 160], 1, 3, 2⟩ : Bitfield).data ≠ [] := by decide

/-- C11 refuted for piece messages: decoding any complete piece message panics. -/
theorem C11_refuted_piece (i b : UInt32) (blk rest : Bytes) (h : (wire (.piece i b blk) ++ rest).length < 2 ^ 32) :
    Decode (wire (.piece i b blk) ++ rest) = .panic := by
  rw [List.length_append, length_wire] at h
  have e : wire (.piece i b blk) ++ rest =
      be32 (9 + blk.length) ++ 7 :: ((be32 i.toNat ++ be32 b.toNat ++ blk) ++ rest) := by
    simp [wire, body, be32_length]; congr 1; omega
  have hl : (be32 i.toNat ++ be32 b.toNat ++ blk).length + 1 = 9 + blk.length := by
    simp [be32_length]; omega
  simp [body, be32_length] at h
  rw [e, decode_frame (9 + blk.length) 7 (be32 i.toNat ++ be32 b.toNat ++ blk) rest hl (by omega) (by omega) (by simp)]
  rfl

example : (wire (.piece 0 0 [1, 2]) ++ [9]).length < 2 ^ 32 := by decide

/-- The decoder of piece messages itself is right: given the payload and the length of the payload, it returns the message with this index,
offset and block.  `Decode` calls it with the length of the whole message, which is one greater. -/
theorem C11_piece_payload (i b : UInt32) (blk : Bytes) (h : 8 + blk.length < 2 ^ 32) (l : UInt32) :
    DecodeMsgPiece (be32 i.toNat ++ be32 b.toNat ++ blk) l =
      if l.toNat = 8 + blk.length then .ok (NewMsgPiece i b blk) else .err .other := by
  have hl : (be32 i.toNat ++ be32 b.toNat ++ blk).length = 8 + blk.length := by simp [be32_length]; omega
  have hu : (UInt32.ofNat (8 + blk.length)).toNat = 8 + blk.length := UInt32.toNat_ofNat_of_lt' h
  unfold DecodeMsgPiece
  rw [hl]
  by_cases e : l.toNat = 8 + blk.length
  · rw [if_pos e, if_neg (by rw [Ne, Classical.not_not, ← UInt32.toNat_inj, hu, e]),
      if_neg (by rw [UInt32.lt_iff_toNat_lt, hu]; show ¬ _ < 8; omega), slice_ok (by omega) (by omega), Res.ok_bind,
      slice_ok (by omega) (by omega)]
    have d1 : ((be32 i.toNat ++ be32 b.toNat ++ blk).take 4).drop 0 = be32 i.toNat ++ [] := by
      rw [List.append_assoc, List.take_append_of_le_length (by simp [be32_length]), List.take_of_length_le (by simp [be32_length])]
      simp
    have d2 : ((be32 i.toNat ++ be32 b.toNat ++ blk).take 8).drop 4 = be32 b.toNat ++ [] := by
      rw [List.take_append_of_le_length (by simp [be32_length]), List.take_of_length_le (by simp [be32_length]),
        List.drop_append_of_le_length (by simp [be32_length]), List.drop_of_length_le (by simp [be32_length])]
      simp
    have d3 : (be32 i.toNat ++ be32 b.toNat ++ blk).drop 8 = blk := by
      rw [List.drop_append_of_le_length (by simp [be32_length]), List.drop_of_length_le (by simp [be32_length]), List.nil_append]
    rw [d1, getU32_be32, Res.ok_bind, Res.ok_bind, d2, getU32_be32, Res.ok_bind, d3]
  · rw [if_neg e, if_pos (fun hh => e (by rw [← hh, hu]))]

example : DecodeMsgPiece [0, 0, 0, 1, 0, 0, 0, 2, 7, 7, 7] 11 = .ok (.piece 12 1 2 [7, 7, 7]) := by decide +kernel

/-- C11 refuted for the bitfield message of a torrent without pieces: rejected, and nothing counts as read. -/
theorem C11_refuted_empty_bitfield : Decode (wire (.bitfield [])) = .ok ⟨none, 0⟩ := by decide +kernel

theorem prefixLen_len4 (p : Bytes) (h : p.length = 4) : be32 (prefixLen p) = p := by
  match p, h with
  | [b0, b1, b2, b3], _ => exact be32_prefixLen b0 b1 b2 b3 []

theorem be32_ofNat_prefixLen (p : Bytes) : be32 (UInt32.ofNat (prefixLen p)).toNat = be32 (prefixLen p) := by
  rw [ofNat_prefixLen]

theorem decode_sound (data : Bytes) (m : Msg) (n : Nat) (h : Decode data = .ok ⟨some m, n⟩) :
    Decodable m.view ∧ Fits m.view ∧ m = received m.view ∧ n = (wire m.view).length ∧ ∃ rest, data = wire m.view ++ rest := by
  by_cases h5 : 5 ≤ data.length
  · obtain ⟨t, r, hdata⟩ := split_frame data h5
    have hlt := prefixLen_lt data
    generalize hl : prefixLen data = l at hdata hlt
    subst hdata
    rw [decode_be32 l hlt t r] at h
    by_cases h0 : l = 0
    · subst h0
      rw [if_pos rfl] at h
      cases h
      exact ⟨trivial, by simp [Msg.view, Fits, body], rfl, rfl, t :: r, rfl⟩
    · rw [if_neg h0] at h
      by_cases h1 : t.toNat ≤ 3 ∧ l ≠ 1
      · rw [if_pos h1] at h; cases h
      · rw [if_neg h1] at h
        by_cases h2 : (5 + r.length) % 2 ^ 32 < (4 + l) % 2 ^ 32
        · rw [if_pos h2] at h; cases h
        · rw [if_neg h2] at h
          by_cases h3 : 2 ^ 32 - 4 ≤ l
          · rw [if_pos h3] at h; cases h
          · -- a complete frame
            rw [if_neg h3] at h
            have hrl : l - 1 ≤ r.length := by omega
            have hsplit : r = r.take (l - 1) ++ r.drop (l - 1) := (List.take_append_drop _ _).symm
            have hpl : (r.take (l - 1)).length + 1 = l := by rw [List.length_take]; omega
            have hf := decode_frame l t (r.take (l - 1)) (r.drop (l - 1)) hpl (by omega) (by
              have : 5 + (r.take (l - 1)).length + (r.drop (l - 1)).length = 5 + r.length := by
                rw [List.length_drop]; omega
              rw [this]; omega) h1
            rw [← hsplit, decode_be32 l hlt t r, if_neg h0, if_neg h1, if_neg h2, if_neg h3, h] at hf
            have tail (w : Wire.Msg) (hw : body w = t :: r.take (l - 1)) :
                (wire w).length = 4 + l ∧ ∃ rest, be32 l ++ t :: r = wire w ++ rest := by
              have hbl : (body w).length = l := by rw [hw, List.length_cons, hpl]
              refine ⟨by rw [length_wire, hbl], r.drop (l - 1), ?_⟩
              rw [wire, hbl, hw]
              simp [List.take_append_drop]
            generalize r.take (l - 1) = p at hf hpl tail
            have htt : ∀ k : UInt8, t.toNat = k.toNat → t = k := fun k hk => UInt8.toNat.inj hk
            have nopay (k : UInt8) (hk : t.toNat = k.toNat) (h3 : t.toNat ≤ 3) : t = k ∧ p = [] ∧ l = 1 := by
              have hl1 : l = 1 := by
                rcases Nat.decEq l 1 with hne | he
                · exact absurd ⟨h3, hne⟩ h1
                · exact he
              exact ⟨htt k hk, List.eq_nil_of_length_eq_zero (by omega), hl1⟩
            split at hf
            · rename_i ht
              obtain ⟨rfl, rfl, rfl⟩ := nopay 0 ht (by omega)
              cases hf
              exact ⟨trivial, by simp [Msg.view, Fits, body], rfl, rfl, (tail .choke rfl).2⟩
            · rename_i ht
              obtain ⟨rfl, rfl, rfl⟩ := nopay 1 ht (by omega)
              cases hf
              exact ⟨trivial, by simp [Msg.view, Fits, body], rfl, rfl, (tail .unchoke rfl).2⟩
            · rename_i ht
              obtain ⟨rfl, rfl, rfl⟩ := nopay 2 ht (by omega)
              cases hf
              exact ⟨trivial, by simp [Msg.view, Fits, body], rfl, rfl, (tail .interested rfl).2⟩
            · rename_i ht
              obtain ⟨rfl, rfl, rfl⟩ := nopay 3 ht (by omega)
              cases hf
              exact ⟨trivial, by simp [Msg.view, Fits, body], rfl, rfl, (tail .notInterested rfl).2⟩
            · rename_i ht
              have := htt 4 ht; subst this
              by_cases hp : p.length = 4
              · rw [if_pos hp] at hf
                cases hf
                refine ⟨trivial, by simp [Msg.view, Fits, body, be32_length], rfl, ?_⟩
                have hb : body (.have (UInt32.ofNat (prefixLen p))) = 4 :: p := by
                  rw [body, be32_ofNat_prefixLen, prefixLen_len4 p hp]
                obtain ⟨a, b⟩ := tail _ hb
                exact ⟨by rw [Msg.view, a]; omega, b⟩
              · rw [if_neg hp] at hf; cases hf
            · rename_i ht
              have := htt 5 ht; subst this
              by_cases hp : p = []
              · rw [if_pos hp] at hf; cases hf
              · rw [if_neg hp] at hf
                cases hf
                have hv : (Msg.bitfield (UInt32.ofNat l) (rxBitfield p)).view = .bitfield p := rfl
                rw [hv]
                obtain ⟨a, b⟩ := tail (.bitfield p) rfl
                refine ⟨hp, by simp only [Fits, body, List.length_cons]; omega, by rw [received, hpl], a.symm, b⟩
            · rename_i ht
              have := htt 6 ht; subst this
              by_cases hp : p.length = 12
              · rw [if_pos hp] at hf
                cases hf
                refine ⟨trivial, by simp [Msg.view, Fits, body, be32_length], rfl, ?_⟩
                have hb : body (.request (UInt32.ofNat (prefixLen p)) (UInt32.ofNat (prefixLen (p.drop 4)))
                    (UInt32.ofNat (prefixLen (p.drop 8)))) = 6 :: p := by
                  rw [body, be32_ofNat_prefixLen, be32_ofNat_prefixLen, be32_ofNat_prefixLen]
                  match p, hp with
                  | [a0, a1, a2, a3, a4, a5, a6, a7, a8, a9, a10, a11], _ =>
                    simp only [List.drop_succ_cons, List.drop_zero]
                    rw [be32_prefixLen, be32_prefixLen, be32_prefixLen]
                    rfl
                obtain ⟨a, b⟩ := tail _ hb
                exact ⟨by rw [Msg.view, a]; omega, b⟩
              · rw [if_neg hp] at hf; cases hf
            · cases hf
            · cases hf
  · -- fewer than five bytes: only a keep-alive can be there
    match data, h5 with
    | [], _ => cases h
    | [a], _ => cases h
    | [a, b], _ => cases h
    | [a, b, c], _ => cases h
    | [a, b, c, d], _ =>
      unfold Decode at h
      rw [if_neg (by simp)] at h
      rw [show [a, b, c, d].take 4 = [a, b, c, d] from rfl, getU32_cons] at h
      simp only [Res.ok_bind] at h
      split at h
      · rename_i hz
        have hz' : prefixLen [a, b, c, d] = 0 := by
          have := congrArg UInt32.toNat hz
          rw [ofNat_prefixLen] at this
          exact this
        cases h
        refine ⟨trivial, by simp [Msg.view, Fits, body], rfl, rfl, [], ?_⟩
        have := be32_prefixLen a b c d []
        rw [hz'] at this
        rw [← this]
        rfl
      · simp at h
    | _ :: _ :: _ :: _ :: _ :: _, h5 => simp at h5

/-- C15, `Decode`: when it succeeds, the input begins with the wire form of the returned message, and `Read` is
the length of that wire form, i.e. four plus the announced length. -/
theorem C15_decode_read_exact (data : Bytes) (m : Msg) (n : Nat) (h : Decode data = .ok ⟨some m, n⟩) :
    data.take n = wire m.view ∧ n = 4 + prefixLen data ∧ 4 ≤ n ∧ n ≤ data.length ∧
    ∀ rest, (data.take n ++ rest).length < 2 ^ 32 → Decode (data.take n ++ rest) = .ok ⟨some m, n⟩ := by
  obtain ⟨hd, hb, hm, hn, rest, hdata⟩ := decode_sound data m n h
  have htake : data.take n = wire m.view := by rw [hdata, hn, List.take_left]
  have hw := length_wire m.view
  refine ⟨htake, ?_, by omega, by rw [hdata, hn, List.length_append]; omega, ?_⟩
  · rw [hn, hw, hdata, wire, List.append_assoc, prefixLen_be32 _ _ hb]
  · intro r hr
    rw [htake] at hr ⊢
    rw [decode_wire _ r hd hr, hn, ← hm]

example : Decode [0, 0, 0, 5, 4, 0, 0, 1, 0, 77] = .ok ⟨some (.have 256), 9⟩ := by decide +kernel

/-! ### DecodeAll -/

theorem loop_wire (fuel : Nat) (w : Wire.Msg) (rest : Bytes) (hd : Decodable w)
    (hlen : (wire w ++ rest).length < 2 ^ 32) (msgs : List Msg) (read : Nat) :
    decodeAllLoop (fuel + 1) (wire w ++ rest) msgs read =
      decodeAllLoop fuel rest (msgs ++ [received w]) (read + (wire w).length) := by
  have hpos : ¬ (wire w ++ rest).length = 0 := by rw [List.length_append, length_wire]; omega
  rw [decodeAllLoop, if_neg hpos, decode_wire w rest hd hlen]
  simp only [Res.ok_bind, List.drop_left]

theorem stream_cons (w : Wire.Msg) (ws : List Wire.Msg) : stream (w :: ws) = wire w ++ stream ws := by
  simp [stream]

theorem loop_stream (ws : List Wire.Msg) (fuel : Nat) (rest : Bytes) (hd : ∀ w ∈ ws, Decodable w)
    (hlen : (stream ws ++ rest).length < 2 ^ 32) (msgs : List Msg) (read : Nat) :
    decodeAllLoop (ws.length + fuel) (stream ws ++ rest) msgs read =
      decodeAllLoop fuel rest (msgs ++ ws.map received) (read + (stream ws).length) := by
  induction ws generalizing msgs read with
  | nil => simp [stream]
  | cons w ws ih =>
    rw [stream_cons, List.append_assoc] at hlen ⊢
    rw [List.length_cons, show ws.length + 1 + fuel = (ws.length + fuel) + 1 by omega,
      loop_wire _ w _ (hd w (by simp)) hlen, ih (fun x hx => hd x (by simp [hx])) (by
        rw [List.length_append] at hlen; omega)]
    simp only [List.map_cons, List.append_assoc, List.singleton_append, List.length_append]
    congr 1
    omega

theorem loop_nil (fuel : Nat) (msgs : List Msg) (read : Nat) :
    decodeAllLoop (fuel + 1) [] msgs read = .ok ⟨msgs, read⟩ := by
  rw [decodeAllLoop, if_pos List.length_nil]

/-! ### C12 -/

/-- C12 (partial: no piece messages, no empty bitfields): a stream of complete messages decodes to these messages,
in order, and every byte is reported as read. -/
theorem C12_stream_partial (ws : List Wire.Msg) (hd : ∀ w ∈ ws, Decodable w) (hlen : (stream ws).length < 2 ^ 32) :
    ∃ ms, ms.map Msg.view = ws ∧ ∀ fuel, ws.length < fuel → DecodeAll fuel (stream ws) = .ok ⟨ms, (stream ws).length⟩ := by
  refine ⟨ws.map received, ?_, ?_⟩
  · rw [List.map_map]
    conv => rhs; rw [← List.map_id ws]
    exact List.map_congr_left fun w _ => view_received w
  · intro fuel hf
    obtain ⟨k, rfl⟩ : ∃ k, fuel = ws.length + (k + 1) := ⟨fuel - ws.length - 1, by omega⟩
    have := loop_stream ws (k + 1) [] hd (by simpa using hlen) [] 0
    rw [List.append_nil] at this
    rw [DecodeAll, this, loop_nil]
    simp

example : (∀ w ∈ [Wire.Msg.keepAlive, .have 3, .bitfield [128]], Decodable w) ∧
    (stream [Wire.Msg.keepAlive, .have 3, .bitfield [128]]).length < 2 ^ 32 := by
  constructor
  · intro w hw
    simp only [List.mem_cons, List.not_mem_nil, or_false] at hw
    rcases hw with rfl | rfl | rfl <;> simp [Decodable]
  · decide

/-- C12 refuted: a piece message anywhere behind decodable messages makes the whole call panic. -/
theorem C12_refuted_piece (ws : List Wire.Msg) (hd : ∀ w ∈ ws, Decodable w) (i b : UInt32) (blk rest : Bytes)
    (hlen : (stream ws ++ (wire (.piece i b blk) ++ rest)).length < 2 ^ 32) (fuel : Nat) (hf : ws.length < fuel) :
    DecodeAll fuel (stream ws ++ (wire (.piece i b blk) ++ rest)) = .panic := by
  obtain ⟨k, rfl⟩ : ∃ k, fuel = ws.length + (k + 1) := ⟨fuel - ws.length - 1, by omega⟩
  rw [DecodeAll, loop_stream ws (k + 1) _ hd hlen [] 0, decodeAllLoop,
    if_neg (by rw [List.length_append, length_wire]; omega),
    C11_refuted_piece i b blk rest (by rw [List.length_append] at hlen; omega)]
  rfl

/-! ### C13 -/

/-- C13: exactly when `Decode` panics.  The input has at least five bytes and either announces a length of
`2^32 - 4` or more for a type above 3 (the sum `4 + length` wraps), or is a complete piece message. -/
theorem C13_panic_iff (data : Bytes) (hlen : data.length < 2 ^ 32) :
    Decode data = .panic ↔ ∃ t, data[4]? = some t ∧
      ((3 < t.toNat ∧ 2 ^ 32 - 4 ≤ prefixLen data) ∨
        (t.toNat = 7 ∧ prefixLen data ≠ 0 ∧ 4 + prefixLen data ≤ data.length)) := by
  by_cases h5 : 5 ≤ data.length
  · obtain ⟨t, r, hdata⟩ := split_frame data h5
    have hlt := prefixLen_lt data
    generalize hl : prefixLen data = l at hdata hlt
    subst hdata
    have hget : (be32 l ++ t :: r)[4]? = some t := rfl
    have hll : (be32 l ++ t :: r).length = 5 + r.length := by simp [be32_length]; omega
    rw [hll] at hlen
    rw [decode_be32 l hlt t r, hget, hll]
    simp only [Option.some.injEq, exists_eq_left', Nat.mod_eq_of_lt hlen]
    by_cases h0 : l = 0
    · rw [if_pos h0]; simp; omega
    · rw [if_neg h0]
      by_cases h1 : t.toNat ≤ 3 ∧ l ≠ 1
      · rw [if_pos h1]; simp; omega
      · rw [if_neg h1]
        by_cases h3 : 2 ^ 32 - 4 ≤ l
        · rw [if_neg (by omega), if_pos h3]; simp only [true_iff]; omega
        · rw [if_neg h3]
          by_cases h2 : 5 + r.length < (4 + l) % 2 ^ 32
          · rw [if_pos h2]; simp; omega
          · rw [if_neg h2]
            have hsplit : r = r.take (l - 1) ++ r.drop (l - 1) := (List.take_append_drop _ _).symm
            have hpl : (r.take (l - 1)).length + 1 = l := by rw [List.length_take]; omega
            have hf := decode_frame l t (r.take (l - 1)) (r.drop (l - 1)) hpl (by omega) (by
              have : 5 + (r.take (l - 1)).length + (r.drop (l - 1)).length = 5 + r.length := by
                rw [List.length_drop]; omega
              rw [this]; omega) h1
            rw [← hsplit, decode_be32 l hlt t r, if_neg h0, if_neg h1, if_neg (by omega), if_neg h3] at hf
            rw [hf]
            have hw : (4 + l) % 2 ^ 32 = 4 + l := by omega
            rw [hw] at h2
            rw [iff_comm]
            split <;> rename_i ht
            case h_8 => exact ⟨fun _ => rfl, fun _ => .inr ⟨ht, h0, by omega⟩⟩
            all_goals
              refine ⟨fun hc => ?_, fun hc => by cases hc⟩
              exfalso
              rcases hc with hc | hc
              · omega
              · first
                | exact ht hc.1
                | omega
  · have hn : data[4]? = none := List.getElem?_eq_none (by omega)
    rw [hn]
    constructor
    · intro h
      unfold Decode at h
      by_cases h4 : data.length < 4
      · rw [if_pos h4] at h; cases h
      · rw [if_neg h4, getU32_of_len _ (by rw [List.length_take]; omega)] at h
        simp only [Res.ok_bind, hn] at h
        split at h <;> cases h
    · rintro ⟨t, ht, -⟩; cases ht

/-- C13 (partial: excludes the two kinds of input above): everything else is answered with a message or an
error. -/
theorem C13_no_panic_partial (data : Bytes) (hlen : data.length < 2 ^ 32) (h7 : data[4]? ≠ some 7)
    (hp : prefixLen data < 2 ^ 32 - 4) : ∃ r, Decode data = .ok r := by
  have hne : Decode data ≠ .panic := by
    intro h
    obtain ⟨t, ht, h | h⟩ := (C13_panic_iff data hlen).mp h
    · omega
    · exact h7 (by rw [ht]; congr 1; apply UInt8.toNat.inj; exact h.1)
  by_cases h5 : 5 ≤ data.length
  · obtain ⟨t, r, hdata⟩ := split_frame data h5
    have hlt := prefixLen_lt data
    generalize hl : prefixLen data = l at hdata hlt
    subst hdata
    rw [decode_be32 l hlt t r] at hne ⊢
    split
    · exact ⟨_, rfl⟩
    split
    · exact ⟨_, rfl⟩
    split
    · exact ⟨_, rfl⟩
    split
    · exact absurd (by simp_all) hne
    · rename_i h0 h1 h2 h3
      have hsplit : r = r.take (l - 1) ++ r.drop (l - 1) := (List.take_append_drop _ _).symm
      have hpl : (r.take (l - 1)).length + 1 = l := by rw [List.length_take]; omega
      have hf := decode_frame l t (r.take (l - 1)) (r.drop (l - 1)) hpl (by omega) (by
        have : 5 + (r.take (l - 1)).length + (r.drop (l - 1)).length = 5 + r.length := by
          rw [List.length_drop]; omega
        rw [this]; omega) h1
      rw [← hsplit, decode_be32 l hlt t r] at hf
      rw [if_neg h0, if_neg h1, if_neg h2, if_neg h3] at hf hne
      rw [hf] at hne ⊢
      split at hne
      all_goals first
        | exact absurd rfl hne
        | exact ⟨_, rfl⟩
  · unfold Decode
    by_cases h4 : data.length < 4
    · rw [if_pos h4]; exact ⟨_, rfl⟩
    · rw [if_neg h4, getU32_of_len _ (by rw [List.length_take]; omega)]
      have hn : data[4]? = none := List.getElem?_eq_none (by omega)
      simp only [Res.ok_bind, hn]
      split
      · exact ⟨_, rfl⟩
      · exact ⟨_, rfl⟩

example : ([0, 0, 0, 3, 9, 1, 2] : Bytes)[4]? ≠ some 7 ∧ prefixLen [0, 0, 0, 3, 9, 1, 2] < 2 ^ 32 - 4 := by decide

/-- C13 refuted: five bytes with an overflowing length prefix crash the decoder. -/
theorem C13_refuted_length_overflow : Decode [255, 255, 255, 255, 4] = .panic := by decide +kernel

/-- C13 refuted: every complete piece message crashes the decoder; this is the smallest one. -/
theorem C13_refuted_piece : Decode [0, 0, 0, 9, 7, 0, 0, 0, 0, 0, 0, 0, 0] = .panic := by decide +kernel

/-! ### C14 -/

theorem decode_read_pos (data : Bytes) (hpos : 0 < data.length) (dr : DecodeResult) (h : Decode data = .ok dr)
    (hz : dr.read = 0) : ∃ rest, data = [0, 0, 0, 1, 5] ++ rest := by
  by_cases h5 : 5 ≤ data.length
  · obtain ⟨t, r, hdata⟩ := split_frame data h5
    have hlt := prefixLen_lt data
    generalize hl : prefixLen data = l at hdata hlt
    subst hdata
    rw [decode_be32 l hlt t r] at h
    split at h
    · cases h; simp at hz
    split at h
    · cases h; simp at hz
    split at h
    · cases h; simp at hz
    split at h
    · cases h
    · rename_i h0 h1 h2 h3
      have hsplit : r = r.take (l - 1) ++ r.drop (l - 1) := (List.take_append_drop _ _).symm
      have hpl : (r.take (l - 1)).length + 1 = l := by rw [List.length_take]; omega
      have hf := decode_frame l t (r.take (l - 1)) (r.drop (l - 1)) hpl (by omega) (by
        have : 5 + (r.take (l - 1)).length + (r.drop (l - 1)).length = 5 + r.length := by
          rw [List.length_drop]; omega
        rw [this]; omega) h1
      rw [← hsplit, decode_be32 l hlt t r, if_neg h0, if_neg h1, if_neg h2, if_neg h3, h] at hf
      split at hf
      all_goals try (cases hf; simp at hz; done)
      · rename_i ht
        have ht' : t = 5 := UInt8.toNat.inj ht
        subst ht'
        split at hf
        · rename_i hnil
          have hl1 : l = 1 := by rw [hnil] at hpl; simp at hpl; omega
          subst hl1
          exact ⟨r, rfl⟩
        · cases hf; simp at hz
      · cases hf
  · unfold Decode at h
    by_cases h4 : data.length < 4
    · rw [if_pos h4] at h; cases h; simp at hz; simp [hz] at hpos
    · rw [if_neg h4, getU32_of_len _ (by rw [List.length_take]; omega)] at h
      have hn : data[4]? = none := List.getElem?_eq_none (by omega)
      simp only [Res.ok_bind, hn] at h
      split at h
      · cases h; simp at hz
      · cases h; simp at hz; simp [hz] at hpos

theorem decode_not_timeout (data : Bytes) : Decode data ≠ .timeout := by
  by_cases h5 : 5 ≤ data.length
  · obtain ⟨t, r, hdata⟩ := split_frame data h5
    have hlt := prefixLen_lt data
    generalize hl : prefixLen data = l at hdata hlt
    subst hdata
    rw [decode_be32 l hlt t r]
    split
    · simp
    split
    · simp
    split
    · simp
    split
    · simp
    · rename_i h0 h1 h2 h3
      have hsplit : r = r.take (l - 1) ++ r.drop (l - 1) := (List.take_append_drop _ _).symm
      have hpl : (r.take (l - 1)).length + 1 = l := by rw [List.length_take]; omega
      have hf := decode_frame l t (r.take (l - 1)) (r.drop (l - 1)) hpl (by omega) (by
        have : 5 + (r.take (l - 1)).length + (r.drop (l - 1)).length = 5 + r.length := by
          rw [List.length_drop]; omega
        rw [this]; omega) h1
      rw [← hsplit, decode_be32 l hlt t r, if_neg h0, if_neg h1, if_neg h2, if_neg h3] at hf
      rw [hf]
      split <;> simp
  · unfold Decode
    by_cases h4 : data.length < 4
    · rw [if_pos h4]; simp
    · rw [if_neg h4, getU32_of_len _ (by rw [List.length_take]; omega)]
      have hn : data[4]? = none := List.getElem?_eq_none (by omega)
      simp only [Res.ok_bind, hn]
      split <;> simp

theorem loop_finishes (fuel : Nat) (data : Bytes) (msgs : List Msg) (read : Nat) (hf : data.length < fuel)
    (hno : ∀ pre rest, data ≠ pre ++ ([0, 0, 0, 1, 5] ++ rest)) :
    decodeAllLoop fuel data msgs read ≠ .timeout := by
  induction fuel generalizing data msgs read with
  | zero => omega
  | succ fuel ih =>
    rw [decodeAllLoop]
    by_cases h0 : data.length = 0
    · rw [if_pos h0]; simp
    · rw [if_neg h0]
      cases hd : Decode data with
      | ok dr =>
        simp only [Res.ok_bind]
        have hpos : 0 < dr.read := by
          rcases Nat.eq_zero_or_pos dr.read with hz | hp
          · obtain ⟨rest, hr⟩ := decode_read_pos data (by omega) dr hd hz
            exact absurd hr (by have := hno [] rest; simpa using this)
          · exact hp
        have hlen : (data.drop dr.read).length < fuel := by rw [List.length_drop]; omega
        have hno' : ∀ pre rest, data.drop dr.read ≠ pre ++ ([0, 0, 0, 1, 5] ++ rest) := by
          intro pre rest hc
          apply hno (data.take dr.read ++ pre) rest
          rw [List.append_assoc, ← hc, List.take_append_drop]
        split
        · exact ih _ _ _ hlen hno'
        · exact ih _ _ _ hlen hno'
      | err e => simp
      | panic => simp
      | timeout => exact absurd hd (decode_not_timeout data)

/-- C14 (partial: inputs that nowhere contain the five bytes of an empty bitfield message): `DecodeAll` ends
after at most one iteration per byte. -/
theorem C14_finishes_partial (data : Bytes) (hno : ∀ pre rest, data ≠ pre ++ ([0, 0, 0, 1, 5] ++ rest))
    (fuel : Nat) (hf : data.length < fuel) : DecodeAll fuel data ≠ .timeout :=
  loop_finishes fuel data [] 0 hf hno

example : ∀ pre rest, ([0, 0, 0, 1, 4, 9] : Bytes) ≠ pre ++ ([0, 0, 0, 1, 5] ++ rest) := by
  intro pre rest h
  match pre, h with
  | [], h => simp at h
  | [_], h => simp at h
  | _ :: _ :: p, h => have := congrArg List.length h; simp at this; omega

theorem decode_empty_bitfield (rest : Bytes) (h : 5 + rest.length < 2 ^ 32) :
    Decode ([0, 0, 0, 1, 5] ++ rest) = .ok ⟨none, 0⟩ := by
  have := decode_frame 1 5 [] rest rfl (by decide) (by simp; omega) (by simp)
  exact this

theorem loop_empty_bitfield (fuel : Nat) (rest : Bytes) (h : 5 + rest.length < 2 ^ 32) (msgs : List Msg) (read : Nat) :
    decodeAllLoop fuel ([0, 0, 0, 1, 5] ++ rest) msgs read = .timeout := by
  induction fuel with
  | zero => rfl
  | succ fuel ih =>
    rw [decodeAllLoop, if_neg (by simp), decode_empty_bitfield rest h]
    simpa using ih

/-- C14 refuted: an empty bitfield message behind any sequence of valid messages, followed by anything, makes
`DecodeAll` loop for ever. -/
theorem C14_refuted_empty_bitfield (ws : List Wire.Msg) (hd : ∀ w ∈ ws, Decodable w) (rest : Bytes)
    (hlen : (stream ws ++ ([0, 0, 0, 1, 5] ++ rest)).length < 2 ^ 32) (fuel : Nat) :
    DecodeAll fuel (stream ws ++ ([0, 0, 0, 1, 5] ++ rest)) = .timeout := by
  have key : ∀ fuel msgs read, decodeAllLoop fuel (stream ws ++ ([0, 0, 0, 1, 5] ++ rest)) msgs read = .timeout := by
    intro fuel
    induction ws generalizing fuel with
    | nil =>
      intro msgs read
      exact loop_empty_bitfield fuel rest (by simp [stream] at hlen; omega) msgs read
    | cons w ws ih =>
      intro msgs read
      cases fuel with
      | zero => rfl
      | succ fuel =>
        rw [stream_cons, List.append_assoc] at hlen ⊢
        rw [loop_wire fuel w _ (hd w (by simp)) hlen]
        exact ih (fun x hx => hd x (by simp [hx])) (by rw [List.length_append] at hlen; omega) fuel _ _
  exact key fuel [] 0

example : (stream [Wire.Msg.keepAlive] ++ ([0, 0, 0, 1, 5] ++ [])).length < 2 ^ 32 := by decide

/-! ### C15, DecodeAll -/

theorem loop_sound (fuel : Nat) (data : Bytes) (msgs : List Msg) (read : Nat) (r : DecodeAllResult)
    (h : decodeAllLoop fuel data msgs read = .ok r) :
    ∃ new, r.msgs = msgs ++ new ∧ r.read = read + (stream (new.map Msg.view)).length ∧
      List.Sublist (stream (new.map Msg.view)) data ∧ ∀ m ∈ new, Decodable m.view ∧ m = received m.view := by
  induction fuel generalizing data msgs read with
  | zero => cases h
  | succ fuel ih =>
    rw [decodeAllLoop] at h
    by_cases h0 : data.length = 0
    · rw [if_pos h0] at h
      cases h
      exact ⟨[], by simp, by simp [stream], by simp [stream], by simp⟩
    · rw [if_neg h0] at h
      obtain ⟨dr, hdec, h⟩ := Res.bind_eq_ok.mp h
      split at h
      · rename_i m hm
        have hdr : dr = ⟨some m, dr.read⟩ := by rw [← hm]
        rw [hdr] at hdec
        obtain ⟨hd, -, hmr, hn, rest, hdata⟩ := decode_sound data m dr.read hdec
        obtain ⟨new, h1, h2, h3, h4⟩ := ih _ _ _ h
        refine ⟨m :: new, ?_, ?_, ?_, ?_⟩
        · rw [h1]; simp
        · rw [h2, List.map_cons, stream_cons, List.length_append, hn]; omega
        · rw [List.map_cons, stream_cons]
          rw [hdata, hn, List.drop_left] at h3
          rw [hdata]
          exact List.Sublist.append (List.Sublist.refl _) h3
        · intro x hx
          rcases List.mem_cons.mp hx with rfl | hx
          · exact ⟨hd, hmr⟩
          · exact h4 x hx
      · obtain ⟨new, h1, h2, h3, h4⟩ := ih _ _ _ h
        exact ⟨new, h1, h2, h3.trans (List.drop_sublist _ _), h4⟩

/-- C15, `DecodeAll`: the reported number of bytes is the total wire length of the returned messages, these wire
forms occur in this order in the input (with the discarded bytes between them), and the number does not exceed
the input length. -/
theorem C15_decodeAll_read_exact (fuel : Nat) (data : Bytes) (r : DecodeAllResult) (h : DecodeAll fuel data = .ok r) :
    r.read = (stream (r.msgs.map Msg.view)).length ∧ List.Sublist (stream (r.msgs.map Msg.view)) data ∧
      r.read ≤ data.length := by
  obtain ⟨new, h1, h2, h3, -⟩ := loop_sound fuel data [] 0 r h
  rw [List.nil_append] at h1
  subst h1
  refine ⟨by omega, h3, ?_⟩
  have := h3.length_le
  omega

example : DecodeAll 9 [0, 0, 0, 0, 0, 0, 0, 1, 1, 0, 0, 0, 1, 99, 5] = .ok ⟨[.keepAlive, .unchoke], 9⟩ := by
  decide +kernel

/-! ### C16 -/

/-- decode a list of chunks one after the other, as `recvLoop` does, and collect the messages -/
def decodeChunks (fuel : Nat) : List Bytes → Res (List Msg)
  | [] => .ok []
  | c :: cs => do
    let r ← DecodeAll fuel c
    let rest ← decodeChunks fuel cs
    .ok (r.msgs ++ rest)

/-- C16 (partial: the chunks end at message boundaries): chunk-wise decoding gives the same messages as decoding
the whole stream. -/
theorem C16_boundary_chunks_partial (chunks : List (List Wire.Msg)) (hd : ∀ ws ∈ chunks, ∀ w ∈ ws, Decodable w)
    (hlen : (stream chunks.flatten).length < 2 ^ 32) (fuel : Nat) (hf : chunks.flatten.length < fuel) :
    ∃ ms, decodeChunks fuel (chunks.map stream) = .ok ms ∧
      DecodeAll fuel (chunks.map stream).flatten = .ok ⟨ms, (stream chunks.flatten).length⟩ ∧
      ms.map Msg.view = chunks.flatten := by
  have one : ∀ ws : List Wire.Msg, (∀ w ∈ ws, Decodable w) → (stream ws).length < 2 ^ 32 → ws.length < fuel →
      DecodeAll fuel (stream ws) = .ok ⟨ws.map received, (stream ws).length⟩ := by
    intro ws h1 h2 h3
    obtain ⟨k, rfl⟩ : ∃ k, fuel = ws.length + (k + 1) := ⟨fuel - ws.length - 1, by omega⟩
    have := loop_stream ws (k + 1) [] h1 (by simpa using h2) [] 0
    rw [List.append_nil] at this
    rw [DecodeAll, this, loop_nil]
    simp
  have happ : ∀ a b : List Wire.Msg, stream (a ++ b) = stream a ++ stream b := by
    intro a b; simp [stream]
  have hflat : (chunks.map stream).flatten = stream chunks.flatten := by
    clear hd hlen hf
    induction chunks with
    | nil => rfl
    | cons c cs ih => rw [List.map_cons, List.flatten_cons, ih, List.flatten_cons, happ]
  refine ⟨chunks.flatten.map received, ?_, ?_, ?_⟩
  · clear hflat
    induction chunks with
    | nil => rfl
    | cons c cs ih =>
      rw [List.flatten_cons, happ, List.length_append] at hlen
      rw [List.flatten_cons, List.length_append] at hf
      rw [List.map_cons, decodeChunks, one c (hd c (by simp)) (by omega) (by omega),
        ih (fun ws h => hd ws (by simp [h])) (by omega) (by omega)]
      simp
  · rw [hflat]
    exact one _ (by
      intro w hw
      obtain ⟨ws, h1, h2⟩ := List.mem_flatten.mp hw
      exact hd ws h1 w h2) hlen hf
  · rw [List.map_map]
    conv => rhs; rw [← List.map_id chunks.flatten]
    exact List.map_congr_left fun w _ => view_received w

example : ∀ ws ∈ [[Wire.Msg.keepAlive, .have 1], [.unchoke]], ∀ w ∈ ws, Decodable w := by
  intro ws h w hw
  simp only [List.mem_cons, List.not_mem_nil, or_false] at h
  rcases h with rfl | rfl <;> simp at hw
  · rcases hw with rfl | rfl <;> trivial
  · subst hw; trivial

/-- C16 refuted, for every message and every cut inside it: the whole message decodes to itself, but if the bytes
arrive in two reads, the message is never delivered (whatever the two calls return). -/
theorem C16_refuted_every_cut (w : Wire.Msg) (hd : Decodable w) (a b : Bytes) (hab : a ++ b = wire w)
    (ha : a ≠ []) (hb : b ≠ []) (hlen : (wire w).length < 2 ^ 32) (fuel : Nat) (hfuel : 1 < fuel) :
    (∃ m, DecodeAll fuel (wire w) = .ok ⟨[m], (wire w).length⟩ ∧ m.view = w) ∧
    ∀ ms, decodeChunks fuel [a, b] = .ok ms → w ∉ ms.map Msg.view := by
  constructor
  · obtain ⟨k, rfl⟩ : ∃ k, fuel = k + 1 + 1 := ⟨fuel - 2, by omega⟩
    refine ⟨received w, ?_, view_received w⟩
    have := loop_wire (k + 1) w [] hd (by simpa using hlen) [] 0
    rw [List.append_nil, loop_nil] at this
    rw [DecodeAll, this]
    simp
  · intro ms hms hmem
    have short : ∀ c : Bytes, c.length < (wire w).length → ∀ r, DecodeAll fuel c = .ok r → w ∉ r.msgs.map Msg.view := by
      intro c hc r hr hin
      have := (C15_decodeAll_read_exact fuel c r hr).2.1.length_le
      have hsub : List.Sublist (wire w) (stream (r.msgs.map Msg.view)) := by
        unfold stream
        exact List.sublist_flatten_of_mem (List.mem_map.mpr ⟨w, hin, rfl⟩)
      have := hsub.length_le
      omega
    have la : 0 < a.length := List.length_pos_iff.mpr ha
    have lb : 0 < b.length := List.length_pos_iff.mpr hb
    have ll : a.length + b.length = (wire w).length := by rw [← hab, List.length_append]
    simp only [decodeChunks] at hms
    obtain ⟨r1, h1, hms⟩ := Res.bind_eq_ok.mp hms
    obtain ⟨rest, h2, hms⟩ := Res.bind_eq_ok.mp hms
    obtain ⟨r2, h3, h2⟩ := Res.bind_eq_ok.mp h2
    simp only [Res.ok_bind, Res.ok.injEq] at h2
    cases hms
    subst h2
    rw [List.map_append, List.mem_append] at hmem
    rcases hmem with hmem | hmem
    · exact short a (by omega) r1 h1 hmem
    · rw [List.append_nil] at hmem
      exact short b (by omega) r2 h3 hmem

example : decodeChunks 5 [[0, 0, 0, 5, 4], [0, 0, 0, 7]] = .ok [] ∧
    DecodeAll 5 [0, 0, 0, 5, 4, 0, 0, 0, 7] = .ok ⟨[.have 7], 9⟩ := by decide +kernel

end Verif.P2P
