import Verif.Props.P2P
import Verif.Spec.Framing
/-
Property C94: /repo/src/p2p/message.go, messages that are malformed or unknown and their neighbours;
with it exact versions of C13 and C14 for `DecodeAll`.
-/
set_option autoImplicit false

namespace Verif.P2P
open Verif.Bf Verif.Wire Verif.Framing

theorem understood_iff (w : Wire.Msg) : Understood w ↔ Decodable w := by
  cases w <;> simp [Understood, Decodable]

theorem frame_length (t : UInt8) (p : Bytes) : (frame t p).length = 5 + p.length := by
  simp [frame, be32_length]; omega

theorem frame_append (t : UInt8) (p rest : Bytes) : frame t p ++ rest = be32 (p.length + 1) ++ t :: (p ++ rest) := by
  simp [frame]

theorem frame_drop (t : UInt8) (p rest : Bytes) (n : Nat) : (frame t p ++ rest).drop (n + 5) = (p ++ rest).drop n := by
  rw [frame_append]; rfl

/-- a complete frame, as `Decode` sees it -/
theorem decode_frame' (t : UInt8) (p rest : Bytes) (hlen : (frame t p ++ rest).length < 2 ^ 32) (ht : ¬ (t.toNat ≤ 3 ∧ p ≠ [])) :
    Decode (frame t p ++ rest) =
      match t.toNat with
      | 0 => .ok ⟨some .choke, 5⟩
      | 1 => .ok ⟨some .unchoke, 5⟩
      | 2 => .ok ⟨some .interested, 5⟩
      | 3 => .ok ⟨some .notInterested, 5⟩
      | 4 => .ok ⟨if p.length = 4 then some (.have (UInt32.ofNat (prefixLen p))) else none, 9⟩
      | 5 => .ok (if p = [] then ⟨none, 0⟩ else ⟨some (.bitfield (UInt32.ofNat (p.length + 1)) (rxBitfield p)), 4 + (p.length + 1)⟩)
      | 6 => .ok ⟨if p.length = 12 then some (.request (UInt32.ofNat (prefixLen p))
          (UInt32.ofNat (prefixLen (p.drop 4))) (UInt32.ofNat (prefixLen (p.drop 8)))) else none, 17⟩
      | 7 => .panic
      | _ => .ok ⟨none, 5 + p.length + rest.length⟩ := by
  rw [List.length_append, frame_length] at hlen
  by_cases hbig : p.length + 1 < 2 ^ 32 - 4
  · rw [frame_append]
    refine decode_frame (p.length + 1) t p rest rfl hbig (by omega) ?_
    rintro ⟨h1, h2⟩
    refine ht ⟨h1, ?_⟩
    rintro rfl
    simp at h2
  · omega

/-- one round of the loop over a frame that is skipped -/
theorem loop_skip (fuel n : Nat) (data : Bytes) (hpos : data.length ≠ 0) (h : Decode data = .ok ⟨none, n⟩) (msgs : List Msg) (read : Nat) :
    decodeAllLoop (fuel + 1) data msgs read = decodeAllLoop fuel (data.drop n) msgs read := by
  rw [decodeAllLoop, if_neg hpos, h]
  rfl

theorem decode_givenUp (data : Bytes) (hlen : data.length < 2 ^ 32) (h : GivenUp data) : Decode data = .ok ⟨none, data.length⟩ := by
  rcases h with ⟨h0, h4⟩ | ⟨h4, hp⟩ | ⟨t, ht, hp, h⟩
  · unfold Decode; rw [if_pos h4]
  · unfold Decode
    rw [if_neg (by omega), getU32_of_len _ (by rw [List.length_take]; omega)]
    have e : prefixLen (data.take 4) = prefixLen data := by unfold prefixLen; rw [List.take_take]; rfl
    have hn : data[4]? = none := List.getElem?_eq_none (by omega)
    have hne : UInt32.ofNat (prefixLen data) ≠ 0 := by
      intro hh
      have := ofNat_prefixLen data
      rw [hh] at this
      exact hp this.symm
    simp only [Res.ok_bind, hn, e, if_neg hne]
  · have h5 : 5 ≤ data.length := by
      have := (List.getElem?_eq_some_iff.mp ht).1
      omega
    obtain ⟨t', r, hdata⟩ := split_frame data h5
    have hlt := prefixLen_lt data
    have htt : t' = t := by
      rw [hdata] at ht
      simpa [be32] using ht
    subst htt
    have hl : data.length = 5 + r.length := by rw [hdata]; simp [be32_length]; omega
    generalize hq : prefixLen data = l at *
    rw [hl] at h ⊢
    rw [hdata, decode_be32 l hlt t' r, if_neg hp]
    rcases h with h | ⟨h1, h2⟩ | ⟨h1, h2⟩
    · rw [if_pos h]
    · by_cases h3 : t'.toNat ≤ 3 ∧ l ≠ 1
      · rw [if_pos h3]
      · rw [if_neg h3, if_pos (by omega)]
    · have hsplit : r = r.take (l - 1) ++ r.drop (l - 1) := (List.take_append_drop _ _).symm
      have hpl : (r.take (l - 1)).length + 1 = l := by rw [List.length_take]; omega
      have hf := decode_frame l t' (r.take (l - 1)) (r.drop (l - 1)) hpl (by omega) (by
        have : 5 + (r.take (l - 1)).length + (r.drop (l - 1)).length = 5 + r.length := by
          rw [List.length_drop]; omega
        rw [this]; omega) (by omega)
      have e2 : 5 + (r.take (l - 1)).length + (r.drop (l - 1)).length = 5 + r.length := by
        rw [List.length_drop]; omega
      rw [← hsplit, decode_be32 l hlt t' r, if_neg hp, e2] at hf
      rw [hf]
      split <;> first | omega | rfl

/-- what a run of `DecodeAll` over bytes that read as `ws` and end with `e` comes to, started with something in hand -/
theorem loop_reads (data : Bytes) (ws : List Wire.Msg) (e : End) (h : Reads data ws e) :
    data.length < 2 ^ 32 → ∀ fuel (msgs : List Msg) (read : Nat),
      match e with
      | .normal => data.length < fuel →
          decodeAllLoop fuel data msgs read = .ok ⟨msgs ++ ws.map received, read + (stream ws).length⟩
      | .crash => data.length < fuel → decodeAllLoop fuel data msgs read = .panic
      | .stuck => decodeAllLoop fuel data msgs read = .timeout := by
  induction h with
  | nil =>
    intro _ fuel msgs read hf
    obtain ⟨k, rfl⟩ : ∃ k, fuel = k + 1 := ⟨fuel - 1, by simp at hf; omega⟩
    rw [loop_nil]; simp [stream]
  | message w rest ws e hw h ih =>
    intro hlen fuel msgs read
    have hd := (understood_iff w).mp hw
    have hlr : rest.length < 2 ^ 32 := by rw [List.length_append] at hlen; omega
    have hl : (wire w ++ rest).length = (wire w).length + rest.length := List.length_append
    have hw4 := length_wire w
    have := ih hlr
    cases fuel with
    | zero => cases e <;> simp [decodeAllLoop]
    | succ fuel =>
      have := this fuel (msgs ++ [received w]) (read + (wire w).length)
      cases e with
      | normal =>
        intro hf
        rw [loop_wire fuel w rest hd hlen, this (by omega), stream_cons]
        simp only [List.map_cons, List.append_assoc, List.singleton_append, List.length_append]
        congr 2
        omega
      | crash => intro hf; rw [loop_wire fuel w rest hd hlen, this (by omega)]
      | stuck => show _ = _; rw [loop_wire fuel w rest hd hlen]; exact this
  | oddHave p rest ws e hp h ih =>
    intro hlen fuel msgs read
    have hl : (frame 4 p ++ rest).length = 5 + p.length + rest.length := by rw [List.length_append, frame_length]
    have hdec : Decode (frame 4 p ++ rest) = .ok ⟨none, 9⟩ := by
      rw [decode_frame' 4 p rest hlen (by simp)]
      show Res.ok (DecodeResult.mk (if p.length = 4 then _ else _) 9) = _
      rw [if_neg hp]
    have hle : ((frame 4 p ++ rest).drop 9).length < (frame 4 p ++ rest).length := by rw [List.length_drop]; omega
    have := ih (by omega)
    cases fuel with
    | zero => cases e <;> simp [decodeAllLoop]
    | succ fuel =>
      have := this fuel msgs read
      cases e with
      | normal => intro hf; rw [loop_skip fuel 9 _ (by omega) hdec, this (by omega)]
      | crash => intro hf; rw [loop_skip fuel 9 _ (by omega) hdec, this (by omega)]
      | stuck => show _ = _; rw [loop_skip fuel 9 _ (by omega) hdec]; exact this
  | oddRequest p rest ws e hp h ih =>
    intro hlen fuel msgs read
    have hl : (frame 6 p ++ rest).length = 5 + p.length + rest.length := by rw [List.length_append, frame_length]
    have hdec : Decode (frame 6 p ++ rest) = .ok ⟨none, 17⟩ := by
      rw [decode_frame' 6 p rest hlen (by simp)]
      show Res.ok (DecodeResult.mk (if p.length = 12 then _ else _) 17) = _
      rw [if_neg hp]
    have hle : ((frame 6 p ++ rest).drop 17).length < (frame 6 p ++ rest).length := by rw [List.length_drop]; omega
    have := ih (by omega)
    cases fuel with
    | zero => cases e <;> simp [decodeAllLoop]
    | succ fuel =>
      have := this fuel msgs read
      cases e with
      | normal => intro hf; rw [loop_skip fuel 17 _ (by omega) hdec, this (by omega)]
      | crash => intro hf; rw [loop_skip fuel 17 _ (by omega) hdec, this (by omega)]
      | stuck => show _ = _; rw [loop_skip fuel 17 _ (by omega) hdec]; exact this
  | givenUp data h =>
    intro hlen fuel msgs read hf
    have hpos : 0 < data.length := by
      rcases h with h | h | ⟨t, ht, -⟩
      · exact h.1
      · omega
      · have := (List.getElem?_eq_some_iff.mp ht).1; omega
    obtain ⟨k, rfl⟩ : ∃ k, fuel = k + 1 + 1 := ⟨fuel - 2, by omega⟩
    rw [loop_skip (k + 1) _ _ (by omega) (decode_givenUp data hlen h), List.drop_length, loop_nil]
    simp [stream]
  | piece p rest =>
    intro hlen fuel msgs read hf
    have hl : (frame 7 p ++ rest).length = 5 + p.length + rest.length := by rw [List.length_append, frame_length]
    obtain ⟨k, rfl⟩ : ∃ k, fuel = k + 1 := ⟨fuel - 1, by omega⟩
    rw [decodeAllLoop, if_neg (by omega), decode_frame' 7 p rest hlen (by simp)]
    rfl
  | overflow data t ht h3 hp =>
    intro hlen fuel msgs read hf
    have h5 := (List.getElem?_eq_some_iff.mp ht).1
    obtain ⟨k, rfl⟩ : ∃ k, fuel = k + 1 := ⟨fuel - 1, by omega⟩
    rw [decodeAllLoop, if_neg (by omega), (C13_panic_iff data hlen).mpr ⟨t, ht, .inl ⟨h3, hp⟩⟩]
    rfl
  | emptyBitfield rest =>
    intro hlen fuel msgs read
    exact loop_empty_bitfield fuel rest (by rw [List.length_append, frame_length] at hlen; simpa using hlen) msgs read

/-- every input of less than 2^32 bytes can be taken apart -/
theorem reads_total (n : Nat) : ∀ data : Bytes, data.length ≤ n → data.length < 2 ^ 32 → ∃ ws e, Reads data ws e := by
  induction n with
  | zero =>
    intro data h _
    have : data = [] := List.length_eq_zero_iff.mp (by omega)
    subst this
    exact ⟨_, _, .nil⟩
  | succ n ih =>
    intro data hn hlen
    by_cases h0 : data.length = 0
    · have : data = [] := List.length_eq_zero_iff.mp h0
      subst this
      exact ⟨_, _, .nil⟩
    by_cases h4 : data.length < 4
    · exact ⟨_, _, .givenUp data (.inl ⟨by omega, h4⟩)⟩
    by_cases hz : prefixLen data = 0
    · match data, (show 4 ≤ data.length by omega), hz, hn, hlen with
      | b0 :: b1 :: b2 :: b3 :: r, _, hz, hn, hlen =>
        have hb : [b0, b1, b2, b3] = be32 0 := by
          have := be32_prefixLen b0 b1 b2 b3 r
          rw [hz] at this
          exact this.symm
        obtain ⟨ws, e, h⟩ := ih r (by simp at hn; omega) (by simp at hlen; omega)
        refine ⟨.keepAlive :: ws, e, ?_⟩
        have := Reads.message .keepAlive r ws e trivial h
        have heq : wire .keepAlive ++ r = b0 :: b1 :: b2 :: b3 :: r := by
          show be32 0 ++ [] ++ r = _
          rw [← hb]; rfl
        rw [heq] at this
        exact this
    by_cases h5 : data.length = 4
    · exact ⟨_, _, .givenUp data (.inr (.inl ⟨h5, hz⟩))⟩
    obtain ⟨t, r, hdata⟩ := split_frame data (by omega)
    have hlt := prefixLen_lt data
    have ht : data[4]? = some t := by rw [hdata]; simp [be32]
    have hl : data.length = 5 + r.length := by rw [hdata]; simp [be32_length]; omega
    by_cases hc : t.toNat ≤ 3 ∧ prefixLen data ≠ 1
    · exact ⟨_, _, .givenUp data (.inr (.inr ⟨t, ht, hz, .inl hc⟩))⟩
    by_cases hbig : 2 ^ 32 - 4 ≤ prefixLen data
    · by_cases h3 : 3 < t.toNat
      · exact ⟨_, _, .overflow data t ht h3 hbig⟩
      · omega
    by_cases hinc : data.length < 4 + prefixLen data
    · exact ⟨_, _, .givenUp data (.inr (.inr ⟨t, ht, hz, .inr (.inl ⟨by omega, hinc⟩)⟩))⟩
    by_cases h8 : 8 ≤ t.toNat
    · exact ⟨_, _, .givenUp data (.inr (.inr ⟨t, ht, hz, .inr (.inr ⟨h8, by omega⟩)⟩))⟩
    -- a complete frame of a known type
    obtain ⟨p, rest, hr, hpl⟩ : ∃ p rest, r = p ++ rest ∧ p.length + 1 = prefixLen data :=
      ⟨r.take (prefixLen data - 1), r.drop (prefixLen data - 1), (List.take_append_drop _ _).symm, by rw [List.length_take]; omega⟩
    have hd : data = frame t p ++ rest := by rw [frame_append, hpl, ← hr]; exact hdata
    have hlp : data.length = 5 + p.length + rest.length := by rw [hl, hr, List.length_append]; omega
    have known : ∀ w : Wire.Msg, Understood w → body w = t :: p → ∃ ws e, Reads data ws e := by
      intro w hw hb
      obtain ⟨ws, e, h⟩ := ih rest (by omega) (by omega)
      refine ⟨w :: ws, e, ?_⟩
      have := Reads.message w rest ws e hw h
      rw [wire, hb] at this
      rw [hd, frame]
      exact this
    have skip : ∀ k, 0 < k → ∃ ws e, Reads (data.drop k) ws e := fun k hk =>
      ih _ (by rw [List.length_drop]; omega) (by rw [List.length_drop]; omega)
    have hcases : t = 0 ∨ t = 1 ∨ t = 2 ∨ t = 3 ∨ t = 4 ∨ t = 5 ∨ t = 6 ∨ t = 7 := by
      have : t.toNat = 0 ∨ t.toNat = 1 ∨ t.toNat = 2 ∨ t.toNat = 3 ∨ t.toNat = 4 ∨ t.toNat = 5 ∨ t.toNat = 6 ∨ t.toNat = 7 := by omega
      rcases this with h | h | h | h | h | h | h | h
      · exact .inl (UInt8.toNat.inj h)
      · exact .inr (.inl (UInt8.toNat.inj h))
      · exact .inr (.inr (.inl (UInt8.toNat.inj h)))
      · exact .inr (.inr (.inr (.inl (UInt8.toNat.inj h))))
      · exact .inr (.inr (.inr (.inr (.inl (UInt8.toNat.inj h)))))
      · exact .inr (.inr (.inr (.inr (.inr (.inl (UInt8.toNat.inj h))))))
      · exact .inr (.inr (.inr (.inr (.inr (.inr (.inl (UInt8.toNat.inj h)))))))
      · exact .inr (.inr (.inr (.inr (.inr (.inr (.inr (UInt8.toNat.inj h)))))))
    have hnil : t.toNat ≤ 3 → p = [] := fun h => List.length_eq_zero_iff.mp (by omega)
    rcases hcases with rfl | rfl | rfl | rfl | rfl | rfl | rfl | rfl
    · exact known .choke trivial (by rw [hnil (by decide)]; rfl)
    · exact known .unchoke trivial (by rw [hnil (by decide)]; rfl)
    · exact known .interested trivial (by rw [hnil (by decide)]; rfl)
    · exact known .notInterested trivial (by rw [hnil (by decide)]; rfl)
    · by_cases hp : p.length = 4
      · refine known (.have (UInt32.ofNat (prefixLen p))) trivial ?_
        show 4 :: be32 _ = _
        rw [be32_ofNat_prefixLen, prefixLen_len4 p hp]
      · obtain ⟨ws, e, h⟩ := skip 9 (by omega)
        rw [hd] at h ⊢
        exact ⟨_, _, .oddHave p rest ws e hp h⟩
    · by_cases hp : p = []
      · subst hp
        rw [hd]
        exact ⟨_, _, .emptyBitfield rest⟩
      · exact known (.bitfield p) hp rfl
    · by_cases hp : p.length = 12
      · refine known (.request (UInt32.ofNat (prefixLen p)) (UInt32.ofNat (prefixLen (p.drop 4))) (UInt32.ofNat (prefixLen (p.drop 8)))) trivial ?_
        show 6 :: (be32 _ ++ be32 _ ++ be32 _) = _
        have e1 : be32 (prefixLen p) = p.take 4 := by
          rw [show prefixLen p = prefixLen (p.take 4) by unfold prefixLen; rw [List.take_take]; rfl, prefixLen_len4 _ (by rw [List.length_take]; omega)]
        have e2 : be32 (prefixLen (p.drop 4)) = (p.drop 4).take 4 := by
          rw [show prefixLen (p.drop 4) = prefixLen ((p.drop 4).take 4) by unfold prefixLen; rw [List.take_take]; rfl,
            prefixLen_len4 _ (by rw [List.length_take, List.length_drop]; omega)]
        have e3 : be32 (prefixLen (p.drop 8)) = p.drop 8 := prefixLen_len4 _ (by rw [List.length_drop]; omega)
        rw [be32_ofNat_prefixLen, be32_ofNat_prefixLen, be32_ofNat_prefixLen, e1, e2, e3]
        congr 1
        rw [List.append_assoc, show p.drop 8 = (p.drop 4).drop 4 by rw [List.drop_drop], List.take_append_drop, List.take_append_drop]
      · obtain ⟨ws, e, h⟩ := skip 17 (by omega)
        rw [hd] at h ⊢
        exact ⟨_, _, .oddRequest p rest ws e hp h⟩
    · rw [hd]; exact ⟨_, _, .piece p rest⟩

theorem views_received (ws : List Wire.Msg) : (ws.map received).map Msg.view = ws := by
  rw [List.map_map]
  conv => rhs; rw [← List.map_id ws]
  exact List.map_congr_left fun w _ => view_received w

/-- **C94** (partial: it says exactly what is read).  All bytes (less than 2^32) can be taken apart in the way described by `Reads`, and this way
determines what `DecodeAll` does: it returns exactly these messages and their total length, or panics, or never ends.
Missing from the property: that a message of the wrong size or of an unknown type is skipped alone (the refutations below). -/
theorem C94_exact_partial (data : Bytes) (hlen : data.length < 2 ^ 32) :
    (∃ ws e, Reads data ws e) ∧
    ∀ ws e, Reads data ws e → ∀ fuel, data.length < fuel →
      match e with
      | .normal => ∃ ms, DecodeAll fuel data = .ok ⟨ms, (stream ws).length⟩ ∧ ms.map Msg.view = ws
      | .crash => DecodeAll fuel data = .panic
      | .stuck => ∀ f, DecodeAll f data = .timeout := by
  refine ⟨reads_total data.length data (Nat.le_refl _) hlen, ?_⟩
  intro ws e h fuel hf
  have := loop_reads data ws e h hlen
  cases e with
  | normal =>
    refine ⟨ws.map received, ?_, views_received ws⟩
    have := this fuel [] 0 hf
    simpa [DecodeAll] using this
  | crash => exact this fuel [] 0 hf
  | stuck => intro f; exact this f [] 0

example : Reads (frame 4 [9] ++ [0, 0, 0, 0, 0, 0, 1, 1]) [.unchoke] .normal :=
  .oddHave [9] _ _ _ (by decide) (.message .unchoke [] [] .normal trivial .nil)

/-- **C14**, exact: `DecodeAll` never ends precisely if the bytes, taken apart, lead to an empty bitfield. -/
theorem C14_loops_iff (data : Bytes) (hlen : data.length < 2 ^ 32) :
    (∀ fuel, DecodeAll fuel data = .timeout) ↔ ∃ ws, Reads data ws .stuck := by
  obtain ⟨⟨ws, e, h⟩, hall⟩ := C94_exact_partial data hlen
  constructor
  · intro ht
    have := hall ws e h (data.length + 1) (by omega)
    cases e with
    | normal => obtain ⟨ms, hm, -⟩ := this; rw [ht] at hm; cases hm
    | crash => rw [ht] at this; cases this
    | stuck => exact ⟨ws, h⟩
  · rintro ⟨ws, h⟩ fuel
    exact hall ws .stuck h (data.length + 1) (by omega) fuel

example : ∃ ws, Reads [0, 0, 0, 1, 1, 0, 0, 0, 1, 5] ws .stuck :=
  ⟨[.unchoke], .message .unchoke _ [] .stuck trivial (.emptyBitfield [])⟩

/-- **C13** for whole buffers, exact: `DecodeAll` panics precisely if the bytes, taken apart, lead to a piece message or to an overflowing length. -/
theorem C13_buffer_panics_iff (data : Bytes) (hlen : data.length < 2 ^ 32) (fuel : Nat) (hf : data.length < fuel) :
    DecodeAll fuel data = .panic ↔ ∃ ws, Reads data ws .crash := by
  obtain ⟨⟨ws, e, h⟩, hall⟩ := C94_exact_partial data hlen
  constructor
  · intro hp
    have := hall ws e h fuel hf
    cases e with
    | normal => obtain ⟨ms, hm, -⟩ := this; rw [hp] at hm; cases hm
    | crash => exact ⟨ws, h⟩
    | stuck => have := this fuel; rw [hp] at this; cases this
  · rintro ⟨ws, h⟩
    exact hall ws .crash h fuel hf

example : ∃ ws, Reads [0, 0, 0, 1, 1, 0, 0, 0, 1, 7] ws .crash :=
  ⟨[.unchoke], .message .unchoke _ [] .crash trivial (.piece [] [])⟩

theorem reads_stream (ws : List Wire.Msg) (hw : ∀ w ∈ ws, Understood w) (rest : Bytes) (vs : List Wire.Msg) (e : End) (h : Reads rest vs e) :
    Reads (stream ws ++ rest) (ws ++ vs) e := by
  induction ws with
  | nil => exact h
  | cons w ws ih =>
    rw [stream_cons, List.append_assoc]
    exact .message w _ _ e (hw w (by simp)) (ih fun x hx => hw x (by simp [hx]))

theorem reads_stream' (ws : List Wire.Msg) (hw : ∀ w ∈ ws, Understood w) : Reads (stream ws) ws .normal := by
  have := reads_stream ws hw [] [] .normal .nil
  rwa [List.append_nil, List.append_nil] at this

/-- **C94** (partial: the messages before).  Whatever comes behind them, messages that are understood are delivered, first and in order,
unless the bytes behind them crash the decoder or keep it for ever. -/
theorem C94_before_partial (ws : List Wire.Msg) (hw : ∀ w ∈ ws, Understood w) (rest : Bytes) (hlen : (stream ws ++ rest).length < 2 ^ 32)
    (fuel : Nat) (hf : (stream ws ++ rest).length < fuel) (r : DecodeAllResult) (hr : DecodeAll fuel (stream ws ++ rest) = .ok r) :
    ∃ vs, r.msgs.map Msg.view = ws ++ vs ∧ Reads rest vs .normal := by
  have hl : rest.length < 2 ^ 32 := by rw [List.length_append] at hlen; omega
  obtain ⟨vs, e, h⟩ := reads_total rest.length rest (Nat.le_refl _) hl
  have := (C94_exact_partial _ hlen).2 _ _ (reads_stream ws hw rest vs e h) fuel hf
  cases e with
  | normal =>
    obtain ⟨ms, hm, hv⟩ := this
    rw [hr] at hm
    cases hm
    exact ⟨vs, hv, h⟩
  | crash => rw [hr] at this; cases this
  | stuck => have := this fuel; rw [hr] at this; cases this

example : DecodeAll 20 (stream [.unchoke] ++ [0, 0, 0, 1, 99, 5]) = .ok ⟨[.unchoke], 5⟩ := by decide +kernel

/-- C94 refuted: one have message that is too long is not skipped; behind its first four bytes of payload, which may be anything, whatever
messages its payload contains are delivered as if the peer had sent them. -/
theorem C94_refuted_smuggled (q : Bytes) (hq : q.length = 4) (ws : List Wire.Msg) (hne : ws ≠ []) (hw : ∀ w ∈ ws, Understood w)
    (hlen : (frame 4 (q ++ stream ws)).length < 2 ^ 32) (fuel : Nat) (hf : (frame 4 (q ++ stream ws)).length < fuel) :
    ∃ ms, DecodeAll fuel (frame 4 (q ++ stream ws)) = .ok ⟨ms, (stream ws).length⟩ ∧ ms.map Msg.view = ws := by
  have hs : 0 < (stream ws).length := by
    cases ws with
    | nil => exact absurd rfl hne
    | cons w ws => rw [stream_cons, List.length_append, length_wire]; omega
  have hp : (q ++ stream ws).length ≠ 4 := by rw [List.length_append]; omega
  have h : Reads (frame 4 (q ++ stream ws) ++ []) ws .normal := by
    refine .oddHave _ [] ws .normal hp ?_
    rw [show (9 : Nat) = 4 + 5 from rfl, frame_drop, List.append_nil, List.drop_left' hq]
    exact reads_stream' ws hw
  rw [List.append_nil] at h
  exact (C94_exact_partial _ hlen).2 ws .normal h fuel hf

example : DecodeAll 30 (frame 4 ([1, 2, 3, 4] ++ stream [.unchoke, .have 7])) = .ok ⟨[.unchoke, .have 7], 14⟩ := by decide +kernel

/-- C94 refuted: a have message that is too short takes bytes of what follows with it: four bytes of payload are skipped in any case.
So a message of five bytes behind an empty have message is lost. -/
theorem C94_refuted_swallowed (p rest : Bytes) (hp : p.length < 4) (hlen : (frame 4 p ++ rest).length < 2 ^ 32) (fuel : Nat) :
    DecodeAll (fuel + 1) (frame 4 p ++ rest) = DecodeAll fuel (rest.drop (4 - p.length)) ∧
    ∀ w : Wire.Msg, w = .choke ∨ w = .unchoke ∨ w = .interested ∨ w = .notInterested →
      DecodeAll (fuel + 3) (frame 4 [] ++ wire w) = .ok ⟨[], 0⟩ := by
  constructor
  · have hdec : Decode (frame 4 p ++ rest) = .ok ⟨none, 9⟩ := by
      rw [decode_frame' 4 p rest hlen (by simp)]
      show Res.ok (DecodeResult.mk (if p.length = 4 then _ else _) 9) = _
      rw [if_neg (by omega)]
    rw [DecodeAll, loop_skip fuel 9 _ (by rw [List.length_append, frame_length]; omega) hdec, show (9 : Nat) = 4 + 5 from rfl, frame_drop,
      List.drop_append, List.drop_of_length_le (by omega), List.nil_append]
    rfl
  · intro w hw
    rcases hw with rfl | rfl | rfl | rfl <;> rfl

example : (frame 4 [7] ++ [0]).length < 2 ^ 32 := by decide

/-- C94 refuted: a message of a type this client does not know – such as cancel (8), port (9) or an extension message (20) of another client –
takes everything that was received together with it with it. -/
theorem C94_refuted_unknown (t : UInt8) (ht : 8 ≤ t.toNat) (p : Bytes) (ws : List Wire.Msg)
    (hlen : (frame t p ++ stream ws).length < 2 ^ 32) (fuel : Nat) (hf : (frame t p ++ stream ws).length < fuel) :
    DecodeAll fuel (frame t p ++ stream ws) = .ok ⟨[], 0⟩ := by
  have hl : (frame t p ++ stream ws).length = 5 + p.length + (stream ws).length := by rw [List.length_append, frame_length]
  have hpre : prefixLen (frame t p ++ stream ws) = p.length + 1 := by
    rw [frame_append]; exact prefixLen_be32 _ _ (by omega)
  have h : Reads (frame t p ++ stream ws) [] .normal := by
    refine .givenUp _ (.inr (.inr ⟨t, ?_, by omega, .inr (.inr ⟨ht, by omega⟩)⟩))
    rw [frame_append]; simp [be32]
  obtain ⟨ms, hm, hv⟩ := (C94_exact_partial _ hlen).2 [] .normal h fuel hf
  have : ms = [] := by simpa using hv
  subst this
  exact hm

example : DecodeAll 40 (frame 20 [0, 1] ++ stream [.unchoke, .have 7]) = .ok ⟨[], 0⟩ := by decide +kernel

end Verif.P2P
