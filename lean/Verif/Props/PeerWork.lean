import Verif.Model.PeerWork
import Verif.Lemmas.Work
import Verif.Props.PieceTracker
import Verif.Props.MsgWire
/-
C122: what handling the messages of a peer costs.
-/
set_option autoImplicit false

namespace Verif.PeerWork
open Verif.Work Verif.P2P Verif.Bf Verif.DS Verif.PieceTracker Verif.MsgHandler Verif.Avail Verif.Bits Verif.Wire

/-! ### the results are the same -/

theorem calcNsetW_fst (data : Bytes) (nbits : Int) : (calcNsetW data nbits).1 = calcNset data nbits := by
  simp only [calcNsetW, calcNset]
  repeat' split
  all_goals first | rfl | simp_all

theorem fromBytesW_fst (bytes5 : Bytes) (nbits : Int) : (FromBytesW bytes5 nbits).1 = FromBytes bytes5 nbits := by
  simp only [FromBytesW, FromBytes]
  split
  · rfl
  · split
    · rfl
    · rw [bind_fst, calcNsetW_fst]

theorem decodeMsgBitfieldW_fst (data : Bytes) (n : UInt32) : (DecodeMsgBitfieldW data n).1 = DecodeMsgBitfield data n := by
  simp only [DecodeMsgBitfieldW, DecodeMsgBitfield]
  cases slice data 0 (4 + n).toNat with
  | ok d => simp only [bind_ok, bind_fst, fromBytesW_fst, Res.ok_bind]
  | _ => rfl

theorem decodeTypedW_fst (data : Bytes) (n : UInt32) (t : UInt8) : (decodeTypedW data n t).1 = decodeTyped data n t := by
  simp only [decodeTypedW, decodeTyped]
  split
  · rfl
  · split
    · rfl
    · cases slice data 5 (5 + n - 1).toNat with
      | ok p =>
        simp only [Res.ok_bind]
        split <;> first | rfl | simp_all [decodeMsgBitfieldW_fst]
      | _ => rfl

theorem decodeW_fst (data : Bytes) : (DecodeW data).1 = P2P.Decode data := by
  simp only [DecodeW, P2P.Decode]
  split
  · rfl
  · cases getU32 (data.take 4) with
    | ok n =>
      simp only [Res.ok_bind]
      split
      · rfl
      · cases data[4]? with
        | none => rfl
        | some t => exact decodeTypedW_fst data n t
    | _ => rfl

theorem decodeAllLoopW_fst (fuel : Nat) : ∀ data msgs read, (decodeAllLoopW fuel data msgs read).1 = decodeAllLoop fuel data msgs read := by
  induction fuel with
  | zero => intros; rfl
  | succ fuel ih =>
    intro data msgs read
    rw [decodeAllLoopW, decodeAllLoop]
    split
    · rfl
    · rw [bind_fst, decodeW_fst]
      congr 1
      funext dr
      cases dr.msg with
      | none => exact ih _ _ _
      | some m => exact ih _ _ _

theorem setNbitsW_fst (b : Bitfield) (n : Int) : (SetNbitsW b n).1 = b.SetNbits n := by
  simp only [SetNbitsW, Bitfield.SetNbits]
  split
  · rfl
  · rw [bind_fst, calcNsetW_fst]

theorem registerBFLoopW_fst (b : Bitfield) (w : PH) (left : Nat) : ∀ i t, (registerBFLoopW b w left i t).1 = registerBFLoop b w left i t := by
  induction left with
  | zero => intros; rfl
  | succ left ih =>
    intro i t
    rw [registerBFLoopW, registerBFLoop, bind_fst]
    congr 1
    funext has
    rw [bind_fst]
    cases has with
    | true => simp only [if_true]; congr 1; funext t; exact ih _ _
    | false => exact ih _ _

theorem handleBitfieldW_fst (s : Swarm) (me : PH) (b : Bitfield) (st : St) : (handleBitfieldW s me b st).1 = handleBitfield s me b st := by
  simp only [handleBitfieldW, handleBitfield]
  split
  · rfl
  · rw [← setNbitsW_fst]
    rcases SetNbitsW b s.tor.numPieces with ⟨r, n⟩
    cases r with
    | ok b' =>
      simp only [RegisterBFW, RegisterBF]
      rw [← registerBFLoopW_fst]
      rcases registerBFLoopW b' me b'.nbits.toNat 0 st.ppt with ⟨r, k⟩
      cases r <;> rfl
    | _ => rfl

theorem handleAllW_fst (s : Swarm) (me : PH) (wok : Nat → Bool) (ms : List P2P.Msg) : ∀ st, (handleAllW s me wok ms st).1 = handleAll s me wok ms st := by
  induction ms with
  | nil => intro st; rfl
  | cons m ms ih =>
    intro st
    have h1 : (handleOneW s me wok m st).1 = handleOne s me wok m st := by
      cases m with
      | bitfield n b => exact handleBitfieldW_fst s me b st
      | _ => rfl
    rw [handleAllW, handleAll, ← h1]
    rcases handleOneW s me wok m st with ⟨⟨st', r⟩, n⟩
    cases r with
    | ok _ => exact ih st'
    | _ => rfl

/-- C122: the handler whose work is counted does what the handler does. -/
theorem C122_same (fuel : Nat) (s : Swarm) (me : PH) (wok : Nat → Bool) (buf : Bytes) (st : St) :
    (handleMessageW fuel s me wok buf st).1 = handleMessage fuel s me wok buf st ∧ (DecodeAllW fuel buf).1 = DecodeAll fuel buf := by
  have h1 : (DecodeAllW fuel buf).1 = DecodeAll fuel buf := decodeAllLoopW_fst fuel buf [] 0
  refine ⟨?_, h1⟩
  unfold handleMessageW handleMessage
  rw [← h1]
  rcases DecodeAllW fuel buf with ⟨r, n⟩
  cases r with
  | ok dar => exact handleAllW_fst s me wok dar.msgs st
  | _ => rfl

theorem scanListW_fst (h : Heap Piece) (own : Bitfield) (w : PH) (fuel : Nat) : ∀ a, (scanListW h own w fuel a).1 = scanList h own w fuel a := by
  induction fuel with
  | zero => intro a; cases a <;> rfl
  | succ fuel ih =>
    intro a
    cases a with
    | none => rfl
    | some a =>
      rw [scanListW, scanList, bind_fst]
      congr 1
      funext nd
      rw [bind_fst]
      congr 1
      funext hv
      split
      · rfl
      · exact ih _

theorem scanBucketsW_fst (h : Heap Piece) (own : Bitfield) (w : PH) (lls : List LinkedList) : (scanBucketsW h own w lls).1 = scanBuckets h own w lls := by
  induction lls with
  | nil => rfl
  | cons ll lls ih =>
    rw [scanBucketsW, scanBuckets, bind_fst, scanListW_fst]
    congr 1
    funext r
    cases r with
    | some i => rfl
    | none => exact ih

/-- C122: the search whose steps are counted is the search. -/
theorem C122_same_next (t : Tracker) (own : Bitfield) (w : PH) : (NextPieceW t own w).1 = NextPiece t own w := by
  unfold NextPieceW NextPiece
  rw [bind_fst, scanBucketsW_fst]
  congr 1
  funext r
  cases r <;> rfl

/-! ### taking apart -/

theorem sum_eights (l : Bytes) : (l.map fun _ => 8).sum = 8 * l.length := by
  induction l with
  | nil => rfl
  | cons b l ih => simp [ih]; omega

theorem calcNsetW_le (data : Bytes) (nbits : Int) : (calcNsetW data nbits).2 ≤ 8 * data.length := by
  have h8 : nbits.tmod 8 < 8 := Int.tmod_lt_of_pos _ (by decide)
  simp only [calcNsetW, sum_eights]
  generalize (data.length : Int) - 1 + (if nbits.tmod 8 = 0 then 1 else 0) = last
  have h1 : (data.take last.toNat).length ≤ data.length := by rw [List.length_take]; omega
  by_cases hr : 0 < nbits.tmod 8
  · rw [if_pos hr]
    by_cases hl : last < 0
    · rw [if_pos hl]; show 8 * _ ≤ _; omega
    · rw [if_neg hl]
      cases hb : data[last.toNat]? with
      | none => show 8 * _ ≤ _; omega
      | some b =>
        have hlt := (List.getElem?_eq_some_iff.mp hb).1
        show 8 * (data.take last.toNat).length + (nbits.tmod 8).toNat ≤ _
        rw [List.length_take]
        omega
  · rw [if_neg hr]; show 8 * _ ≤ _; omega

theorem bind_zero {α β : Type} (x : W α) (f : α → β) : (W.bind x fun a => (.ok (f a), 0)).2 = x.2 := by
  obtain ⟨r, n⟩ := x
  cases r <;> rfl

theorem slice_zero {data d : Bytes} {k : Nat} (h : slice data 0 k = .ok d) : k ≤ data.length ∧ d.length = k := by
  unfold slice at h
  split at h
  · cases h
    rename_i hk
    refine ⟨hk.2, ?_⟩
    rw [List.drop_zero, List.length_take]; omega
  · cases h

theorem bitfieldW_le (data : Bytes) (n : UInt32) : (DecodeMsgBitfieldW data n).2 = 0 ∨
    ((4 + n).toNat ≤ data.length ∧ (DecodeMsgBitfieldW data n).2 ≤ (4 + n).toNat + 8 * ((4 + n).toNat - 5)) := by
  unfold DecodeMsgBitfieldW
  cases hs : slice data 0 (4 + n).toNat with
  | ok d =>
    have hd := slice_zero hs
    right
    simp only [bind_ok, bind_zero]
    have : (FromBytesW d ((n - 1).toNat * 8)).2 ≤ 8 * (d.length - 5) := by
      unfold FromBytesW
      simp only
      split
      · exact Nat.zero_le _
      · split
        · exact Nat.zero_le _
        · rw [bind_zero]
          have := calcNsetW_le (d.drop 5) ((n - 1).toNat * 8)
          rw [List.length_drop] at this
          omega
    omega
  | _ => exact .inl rfl

theorem withRead_read {n : Nat} {r : Res P2P.Msg} {dr : DecodeResult} (h : withRead n r = .ok dr) : dr.read = n := by
  cases r <;> simp [withRead] at h <;> rw [← h]

/-- no `piece` message is ever decoded by `Decode` (C13): its payload is one byte shorter than the length that is passed on -/
theorem piece_never {data p : Bytes} {n : UInt32} (h : slice data 5 (5 + n - 1).toNat = .ok p) (m : P2P.Msg) : DecodeMsgPiece p n ≠ .ok m := by
  unfold slice at h
  split at h
  · rename_i hk
    cases h
    unfold DecodeMsgPiece
    have : UInt32.ofNat ((data.take (5 + n - 1).toNat).drop 5).length ≠ n := by
      intro e
      have := congrArg UInt32.toNat e
      rw [List.length_drop, List.length_take, Nat.min_eq_left hk.2, UInt32.toNat_ofNat'] at this
      have h1 := n.toNat_lt
      have h2 := hk.1
      rw [UInt32.toNat_sub, UInt32.toNat_add] at this h2
      simp only [UInt32.reduceToNat] at this h2
      omega
    rw [if_pos this]
    nofun
  · cases h

/-- what one call of `Decode` costs: nothing is lost, unless nothing was read -/
theorem decodeW_le (data : Bytes) (hne : data ≠ []) : (∀ dr, (DecodeW data).1 = .ok dr → dr.msg = none ∧ dr.read = 0 ∨ (DecodeW data).2 ≤ 10 * min dr.read data.length) ∧
    ((∀ dr, (DecodeW data).1 ≠ .ok dr) → (DecodeW data).2 ≤ 10 * data.length) := by
  have hpos : 0 < data.length := List.length_pos_iff.mpr hne
  unfold DecodeW
  by_cases h4 : data.length < 4
  · rw [if_pos h4]
    exact ⟨fun dr h => by cases h; right; show 1 ≤ _; simp only; omega, fun h => absurd rfl (h _)⟩
  · rw [if_neg h4]
    cases getU32 (data.take 4) with
    | ok n =>
      simp only
      by_cases hn : n = 0
      · rw [if_pos hn]
        exact ⟨fun dr h => by cases h; right; show 5 ≤ _; simp only; omega, fun h => absurd rfl (h _)⟩
      · rw [if_neg hn]
        cases ht : data[4]? with
        | none => exact ⟨fun dr h => by cases h; right; show 5 ≤ _; simp only; omega, fun h => absurd rfl (h _)⟩
        | some t =>
          have h5 : 5 ≤ data.length := (List.getElem?_eq_some_iff.mp ht).1
          simp only [bind_ok]
          unfold decodeTypedW
          split
          · exact ⟨fun dr h => by cases h; right; show 6 ≤ _; simp only; omega, fun h => absurd rfl (h _)⟩
          · split
            · exact ⟨fun dr h => by cases h; right; show 6 ≤ _; simp only; omega, fun h => absurd rfl (h _)⟩
            · cases hsl : slice data 5 (5 + n - 1).toNat with
              | ok p =>
                simp only
                have fixed : ∀ (r : Nat) (x : Res P2P.Msg) (k : Nat), 5 ≤ r → k ≤ 12 →
                    (∀ dr, withRead r x = .ok dr → dr.msg = none ∧ dr.read = 0 ∨ 6 + k ≤ 10 * min dr.read data.length) ∧
                    ((∀ dr, withRead r x ≠ .ok dr) → 6 + k ≤ 10 * data.length) := by
                  intro r x k hr hk
                  refine ⟨fun dr h => .inr ?_, fun _ => by omega⟩
                  rw [withRead_read h]; omega
                split
                all_goals try exact ⟨fun dr h => by cases h; right; show 6 ≤ _; simp only; omega, fun h => absurd rfl (h _)⟩
                · exact fixed 9 _ 4 (by decide) (by decide)
                · rw [decodeMsgBitfieldW_fst]
                  have hle := bitfieldW_le data n
                  cases hb : DecodeMsgBitfield data n with
                  | ok m =>
                    refine ⟨fun dr h => .inr ?_, fun h => absurd rfl (h _)⟩
                    cases h
                    have key : m.Length = n ∧ 6 ≤ (4 + n).toNat ∧ (4 + n).toNat ≤ data.length := by
                      unfold DecodeMsgBitfield at hb
                      cases hs : slice data 0 (4 + n).toNat with
                      | ok d =>
                        rw [hs, Res.ok_bind] at hb
                        have hd := slice_zero hs
                        have hf : ∃ bf, FromBytes d ((n - 1).toNat * 8) = .ok bf ∧ m = .bitfield n bf := by
                          cases e : FromBytes d ((n - 1).toNat * 8) with
                          | ok bf => rw [e] at hb; cases hb; exact ⟨bf, rfl, rfl⟩
                          | _ => rw [e] at hb; cases hb
                        obtain ⟨bf, hf, rfl⟩ := hf
                        refine ⟨rfl, ?_, hd.1⟩
                        by_cases h6 : (d.length : Int) ≤ 5
                        · simp only [FromBytes] at hf
                          rw [if_pos h6] at hf; cases hf
                        · omega
                      | _ => rw [hs] at hb; cases hb
                    rw [key.1]
                    show 6 + _ ≤ 10 * min (4 + n).toNat data.length
                    omega
                  | err e => exact ⟨fun dr h => by cases h; exact .inl ⟨rfl, rfl⟩, fun h => absurd rfl (h _)⟩
                  | panic =>
                    refine ⟨nofun, fun _ => ?_⟩
                    show 6 + _ ≤ _
                    omega
                  | timeout =>
                    refine ⟨nofun, fun _ => ?_⟩
                    show 6 + _ ≤ _
                    omega
                · exact fixed 17 _ 12 (by decide) (by decide)
                · cases hp : DecodeMsgPiece p n with
                  | ok m =>
                    exact absurd hp (piece_never hsl m)
                  | _ => exact ⟨nofun, fun _ => by show 6 + 8 ≤ _; omega⟩
              | _ => exact ⟨nofun, fun _ => by show 6 ≤ _; omega⟩
    | _ => exact ⟨nofun, fun _ => by show 1 ≤ _; omega⟩

theorem stuck_loop (data : Bytes) (hne : data ≠ []) (dr : DecodeResult) (h : Decode data = .ok dr) (hn : dr.msg = none) (h0 : dr.read = 0) (msgs : List P2P.Msg) (r : Nat) :
    ∀ fuel, decodeAllLoop fuel data msgs r = .timeout
  | 0 => rfl
  | fuel + 1 => by
    have := stuck_loop data hne dr h hn h0 msgs r fuel
    unfold decodeAllLoop
    rw [if_neg (by rw [List.length_eq_zero_iff]; exact hne), h, Res.ok_bind, hn, h0]
    exact this

theorem loopW_le : ∀ (fuel : Nat) (data : Bytes) (msgs : List P2P.Msg) (r : Nat), (decodeAllLoopW fuel data msgs r).1 ≠ .timeout →
    (decodeAllLoopW fuel data msgs r).2 ≤ 10 * data.length
  | 0, _, _, _, h => absurd rfl h
  | fuel + 1, data, msgs, r, h => by
    unfold decodeAllLoopW at h ⊢
    by_cases hl : data.length = 0
    · rw [if_pos hl]; exact Nat.zero_le _
    · rw [if_neg hl] at h ⊢
      have hne : data ≠ [] := fun e => hl (by rw [e]; rfl)
      have hc := decodeW_le data hne
      have hf := decodeW_fst data
      generalize DecodeW data = x at h hc hf ⊢
      obtain ⟨x, c⟩ := x
      cases x with
      | ok dr =>
        rw [bind_ok] at h ⊢
        simp only at h hc hf ⊢
        have hcc := hc.1 dr rfl
        cases hm : dr.msg with
        | some m =>
          rw [hm] at h hcc
          have := loopW_le fuel _ _ _ h
          rw [List.length_drop] at this
          simp only [reduceCtorEq, false_and, false_or] at hcc ⊢
          omega
        | none =>
          rw [hm] at h hcc
          rcases hcc with ⟨-, h0⟩ | hcc
          · simp only [decodeAllLoopW_fst, h0, List.drop_zero] at h
            exact absurd (stuck_loop data hne dr hf.symm hm h0 msgs r fuel) h
          · have := loopW_le fuel _ _ _ h
            rw [List.length_drop] at this
            simp only at hcc ⊢
            omega
      | _ => exact hc.2 nofun

/-- **C122** (partial: buffers on which `DecodeAll` ends, C14_loops_iff).  Taking a buffer apart costs at most ten times its length. -/
theorem C122_apart_partial (fuel : Nat) (data : Bytes) (h : DecodeAll fuel data ≠ .timeout) : (DecodeAllW fuel data).2 ≤ 10 * data.length :=
  loopW_le fuel data [] 0 (by rw [decodeAllLoopW_fst]; exact h)

example : DecodeAll 8 [0, 0, 0, 1, 1, 0, 0, 0, 2, 5, 0xC0] ≠ .timeout ∧ (DecodeAllW 8 [0, 0, 0, 1, 1, 0, 0, 0, 2, 5, 0xC0]).2 = 6 + 6 + 6 + 8 := by decide +kernel

/-- **C122 refuted**: five bytes are enough for any amount of work. -/
theorem C122_refuted_empty_bitfield (rest : Bytes) (hlen : 5 + rest.length < 2 ^ 32) (fuel : Nat) :
    DecodeAll fuel ([0, 0, 0, 1, 5] ++ rest) = .timeout ∧ 6 * fuel ≤ (DecodeAllW fuel ([0, 0, 0, 1, 5] ++ rest)).2 := by
  refine ⟨loop_empty_bitfield fuel rest hlen [] 0, ?_⟩
  have h6 : 6 ≤ (DecodeW ([0, 0, 0, 1, 5] ++ rest)).2 := by
    unfold DecodeW
    rw [if_neg (by simp)]
    show 6 ≤ (W.bind (.ok (), 6) fun _ => decodeTypedW ([0, 0, 0, 1, 5] ++ rest) 1 5).2
    rw [bind_ok]
    exact Nat.le_add_right _ _
  have hf := (decodeW_fst ([0, 0, 0, 1, 5] ++ rest)).trans (decode_empty_bitfield rest hlen)
  have key : ∀ fuel msgs r, 6 * fuel ≤ (decodeAllLoopW fuel ([0, 0, 0, 1, 5] ++ rest) msgs r).2 := by
    intro fuel
    induction fuel with
    | zero => intros; exact Nat.le_refl _
    | succ fuel ih =>
      intro msgs r
      unfold decodeAllLoopW
      rw [if_neg (by simp)]
      generalize hx : DecodeW ([0, 0, 0, 1, 5] ++ rest) = x at hf h6 ⊢
      obtain ⟨x, c⟩ := x
      simp only at hf h6
      subst hf
      rw [bind_ok]
      simp only [List.drop_zero]
      have := ih msgs r
      omega
  exact key fuel [] 0

example : (DecodeAllW 1000 [0, 0, 0, 1, 5]).2 = 11000 := by decide +kernel

/-! ### exactly, for complete messages -/

theorem decodeW_frame (l : Nat) (t : UInt8) (p rest : Bytes) (hl : p.length + 1 = l) (hlt : l < 2 ^ 32 - 4)
    (hlen : 5 + p.length + rest.length < 2 ^ 32) (ht : ¬ (t.toNat ≤ 3 ∧ l ≠ 1)) :
    (DecodeW (be32 l ++ t :: (p ++ rest))).2 = 6 + match t.toNat with
      | 4 => 4
      | 5 => 5 + p.length + 8 * p.length
      | 6 => 12
      | 7 => 8
      | _ => 0 := by
  have hL : (be32 l ++ t :: (p ++ rest)).length = 5 + p.length + rest.length := by simp [be32_length]; omega
  have htn : (UInt32.ofNat l).toNat = l := UInt32.toNat_ofNat_of_lt' (by simp only [UInt32.size]; omega)
  have hadd : (4 + UInt32.ofNat l).toNat = 4 + l := by
    rw [UInt32.toNat_add, htn]; show (4 + l) % 2 ^ 32 = _; omega
  have hadd5 : (5 + UInt32.ofNat l - 1).toNat = 4 + l := by
    rw [UInt32.toNat_sub, UInt32.toNat_add, htn]; simp only [UInt32.reduceToNat]; omega
  have hg : getU32 ((be32 l ++ t :: (p ++ rest)).take 4) = .ok (UInt32.ofNat l) := by
    rw [List.take_left' (be32_length l), getU32_of_len _ (by rw [be32_length]; exact Nat.le_refl _)]
    have := prefixLen_be32 l [] (by omega)
    rw [List.append_nil] at this
    rw [this]
  have h4 : (be32 l ++ t :: (p ++ rest))[4]? = some t := by
    rw [List.getElem?_append_right (by rw [be32_length]; exact Nat.le_refl _), be32_length]; rfl
  have htake : (be32 l ++ t :: (p ++ rest)).take (4 + l) = be32 l ++ t :: p := by
    have : be32 l ++ t :: (p ++ rest) = (be32 l ++ t :: p) ++ rest := by simp
    rw [this, List.take_left' (by simp [be32_length]; omega)]
  have hsl : slice (be32 l ++ t :: (p ++ rest)) 5 (4 + l) = .ok p := by
    rw [slice_ok (by omega) (by omega), htake]
    congr 1
  have hs0 : slice (be32 l ++ t :: (p ++ rest)) 0 (4 + l) = .ok (be32 l ++ t :: p) := by
    rw [slice_ok (by omega) (by omega), htake]
    rfl
  unfold DecodeW
  rw [if_neg (by omega), hg]
  simp only
  rw [if_neg (by intro e; have := congrArg UInt32.toNat e; rw [htn] at this; simp at this; omega), h4]
  simp only [bind_ok]
  unfold decodeTypedW
  have c1 : ¬ (t ≤ 3 ∧ UInt32.ofNat l ≠ 1) := by
    rintro ⟨a, b⟩
    refine ht ⟨UInt8.le_iff_toNat_le.mp a, fun e => b ?_⟩
    rw [e]; rfl
  have c2 : ¬ UInt32.ofNat (be32 l ++ t :: (p ++ rest)).length < 4 + UInt32.ofNat l := by
    rw [UInt32.lt_iff_toNat_lt, hadd, hL, UInt32.toNat_ofNat_of_lt' (by simp only [UInt32.size]; omega)]
    omega
  rw [if_neg c1, if_neg c2, hadd5, hsl]
  simp only
  split <;> rename_i h5
  all_goals try rw [h5]
  · rfl
  · rfl
  · rfl
  · rfl
  · rfl
  · show 6 + (DecodeMsgBitfieldW _ _).2 = 6 + (5 + p.length + 8 * p.length)
    congr 1
    unfold DecodeMsgBitfieldW
    rw [hadd, hs0]
    have hsub : (UInt32.ofNat l - 1).toNat = p.length := by
      rw [UInt32.toNat_sub, htn]; simp only [UInt32.reduceToNat]; omega
    have hbl : (be32 l ++ t :: p).length = 5 + p.length := by simp [be32_length]; omega
    have hdr : (be32 l ++ t :: p).drop 5 = p := by
      rw [show be32 l ++ t :: p = (be32 l ++ [t]) ++ p by simp]
      exact List.drop_left' rfl
    simp only [bind_ok, bind_zero, hsub, hbl]
    congr 1
    unfold FromBytesW
    simp only [hbl, hdr]
    by_cases hp : p.length = 0
    · rw [if_pos (by omega), hp]
    · rw [if_neg (by omega), if_neg (by omega), bind_zero]
      have hrem : ((p.length : Int) * 8).tmod 8 = 0 := Int.mul_tmod_left _ _
      simp only [calcNsetW, hrem, sum_eights, if_true]
      rw [if_neg (by omega)]
      simp only [Int.sub_add_cancel, Int.toNat_natCast, List.take_length]
  · rfl
  · rfl
  · rename_i h0 h1 h2 h3 h4 h6 h7
    split <;> first | rfl | exact absurd ‹_› ‹_›

/-- what it costs to receive a message: the call, the length, the type, and the payload as far as it is looked at; a bitfield is copied and each of its bits is counted -/
def price : Wire.Msg → Nat
  | .keepAlive => 5
  | .have _ => 10
  | .request _ _ _ => 18
  | .bitfield bits => 11 + 9 * bits.length
  | .piece _ _ _ => 14
  | _ => 6

theorem decodeW_wire (w : Wire.Msg) (rest : Bytes) (hlen : (wire w ++ rest).length < 2 ^ 32) : (DecodeW (wire w ++ rest)).2 = price w := by
  have hb : ∀ (l : Nat) (t : UInt8) (p : Bytes), body w = t :: p → p.length + 1 = l →
      wire w ++ rest = be32 l ++ t :: (p ++ rest) := by
    intro l t p h h2
    rw [wire, h]; simp [h2]
  rw [List.length_append, length_wire] at hlen
  cases w with
  | keepAlive => rfl
  | choke => rw [hb 1 0 [] rfl rfl, decodeW_frame 1 0 [] rest rfl (by decide) (by simp [body] at hlen ⊢; omega) (by simp)]; rfl
  | unchoke => rw [hb 1 1 [] rfl rfl, decodeW_frame 1 1 [] rest rfl (by decide) (by simp [body] at hlen ⊢; omega) (by simp)]; rfl
  | interested => rw [hb 1 2 [] rfl rfl, decodeW_frame 1 2 [] rest rfl (by decide) (by simp [body] at hlen ⊢; omega) (by simp)]; rfl
  | notInterested => rw [hb 1 3 [] rfl rfl, decodeW_frame 1 3 [] rest rfl (by decide) (by simp [body] at hlen ⊢; omega) (by simp)]; rfl
  | «have» i =>
    rw [hb 5 4 (be32 i.toNat) rfl rfl, decodeW_frame 5 4 (be32 i.toNat) rest rfl (by decide)
      (by simp [body, be32_length] at hlen ⊢; omega) (by simp)]
    rfl
  | bitfield p =>
    rw [hb (p.length + 1) 5 p rfl rfl, decodeW_frame (p.length + 1) 5 p rest rfl (by simp [body] at hlen; omega)
      (by simp [body] at hlen ⊢; omega) (by simp)]
    show 6 + (5 + p.length + 8 * p.length) = 11 + 9 * p.length
    omega
  | request i b n =>
    rw [hb 13 6 (be32 i.toNat ++ be32 b.toNat ++ be32 n.toNat) rfl rfl, decodeW_frame 13 6 (be32 i.toNat ++ be32 b.toNat ++ be32 n.toNat) rest rfl (by decide)
      (by simp [body, be32_length] at hlen ⊢; omega) (by simp)]
    rfl
  | piece i b d =>
    have hl : (be32 i.toNat ++ be32 b.toNat ++ d).length + 1 = d.length + 9 := by simp [be32_length]; omega
    rw [hb (d.length + 9) 7 (be32 i.toNat ++ be32 b.toNat ++ d) rfl hl, decodeW_frame (d.length + 9) 7 (be32 i.toNat ++ be32 b.toNat ++ d) rest hl
      (by simp [body, be32_length] at hlen; omega) (by simp [body, be32_length] at hlen ⊢; omega) (by simp)]
    rfl

/-- **C122**, exactly, for complete messages of the kinds that `Decode` understands (C12): taking them apart costs the sum of their prices. -/
theorem C122_prices (ws : List Wire.Msg) (hd : ∀ w ∈ ws, Decodable w) (hlen : (stream ws).length < 2 ^ 32) (fuel : Nat) (hf : ws.length < fuel) :
    (DecodeAllW fuel (stream ws)).2 = (ws.map price).sum := by
  have key : ∀ (ws : List Wire.Msg) (fuel : Nat) (msgs : List P2P.Msg) (r : Nat), (∀ w ∈ ws, Decodable w) → (stream ws).length < 2 ^ 32 → ws.length < fuel →
      (decodeAllLoopW fuel (stream ws) msgs r).2 = (ws.map price).sum := by
    intro ws
    induction ws with
    | nil =>
      intro fuel msgs r _ _ hf
      cases fuel with
      | zero => cases hf
      | succ fuel => rfl
    | cons w ws ih =>
      intro fuel msgs r hd hlen hf
      cases fuel with
      | zero => cases hf
      | succ fuel =>
        rw [stream_cons] at hlen ⊢
        have h1 := decodeW_wire w (stream ws) hlen
        have h2 := (decodeW_fst (wire w ++ stream ws)).trans (decode_wire w (stream ws) (hd w (by simp)) hlen)
        have hpos : ¬ (wire w ++ stream ws).length = 0 := by rw [List.length_append, length_wire]; omega
        unfold decodeAllLoopW
        rw [if_neg hpos]
        generalize DecodeW (wire w ++ stream ws) = x at h1 h2 ⊢
        obtain ⟨x, c⟩ := x
        simp only at h1 h2
        subst h1 h2
        rw [bind_ok]
        simp only [List.drop_left]
        rw [List.length_append] at hlen
        rw [ih fuel _ _ (fun x hx => hd x (by simp [hx])) (by omega) (by simpa using hf), List.map_cons, List.sum_cons]
  exact key ws fuel [] 0 hd hlen hf

example : (∀ w ∈ [Wire.Msg.unchoke, .bitfield [0xC0, 0x80], .request 1 0 16384], Decodable w) ∧
    ([Wire.Msg.unchoke, .bitfield [0xC0, 0x80], .request 1 0 16384].map price).sum = 53 :=
  ⟨by intro w hw; simp only [List.mem_cons, List.not_mem_nil, or_false] at hw; rcases hw with rfl | rfl | rfl <;> simp [Decodable], rfl⟩

/-! ### handling the messages -/

/-- what a message weighs: one, and the bytes of a bitfield -/
def weight : P2P.Msg → Nat
  | .bitfield _ b => 1 + b.data.length
  | _ => 1

/-- a bitfield that has been decoded knows how long it is -/
def sound : P2P.Msg → Prop
  | .bitfield _ b => b.nbytes = b.data.length
  | _ => True

theorem have_plain {p : Bytes} {m : P2P.Msg} (h : DecodeMsgHave p = .ok m) : weight m = 1 ∧ sound m := by
  unfold DecodeMsgHave at h
  split at h
  · cases h
  · cases e : getU32 p with
    | ok i => rw [e] at h; cases h; exact ⟨rfl, trivial⟩
    | _ => rw [e] at h; cases h

theorem request_plain {p : Bytes} {m : P2P.Msg} (h : DecodeMsgRequest p = .ok m) : weight m = 1 ∧ sound m := by
  unfold DecodeMsgRequest at h
  split at h
  · cases h
  · obtain ⟨_, _, h⟩ := Res.bind_eq_ok.mp h
    obtain ⟨_, _, h⟩ := Res.bind_eq_ok.mp h
    obtain ⟨_, _, h⟩ := Res.bind_eq_ok.mp h
    obtain ⟨_, _, h⟩ := Res.bind_eq_ok.mp h
    obtain ⟨_, _, h⟩ := Res.bind_eq_ok.mp h
    obtain ⟨_, _, h⟩ := Res.bind_eq_ok.mp h
    cases h
    exact ⟨rfl, trivial⟩

theorem bitfield_weight {data : Bytes} {n : UInt32} {m : P2P.Msg} (h : DecodeMsgBitfield data n = .ok m) :
    weight m ≤ min (4 + m.Length).toNat data.length ∧ sound m := by
  unfold DecodeMsgBitfield at h
  obtain ⟨d, hd, h⟩ := Res.bind_eq_ok.mp h
  obtain ⟨b, hb, h⟩ := Res.bind_eq_ok.mp h
  cases h
  have hs := slice_zero hd
  simp only [FromBytes] at hb
  split at hb
  · cases hb
  · rename_i h5
    split at hb
    · cases hb
    · obtain ⟨k, hk, hb⟩ := Res.bind_eq_ok.mp hb
      cases hb
      have hl : (d.drop 5).length = d.length - 5 := List.length_drop
      refine ⟨?_, ?_⟩
      · show 1 + (d.drop 5).length ≤ min (4 + n).toNat data.length
        omega
      · show (d.length : Int) - 5 = ((d.drop 5).length : Int)
        omega

theorem decode_weight {data : Bytes} {dr : DecodeResult} {m : P2P.Msg} (h : P2P.Decode data = .ok dr) (hm : dr.msg = some m) :
    weight m ≤ min dr.read data.length ∧ sound m := by
  unfold P2P.Decode at h
  by_cases h4 : data.length < 4
  · rw [if_pos h4] at h; cases h; cases hm
  · rw [if_neg h4] at h
    obtain ⟨n, hn, h⟩ := Res.bind_eq_ok.mp h
    by_cases h0 : n = 0
    · rw [if_pos h0] at h; cases h; cases hm
      exact ⟨by show 1 ≤ min 4 _; omega, trivial⟩
    · rw [if_neg h0] at h
      cases ht : data[4]? with
      | none => rw [ht] at h; cases h; cases hm
      | some t =>
        rw [ht] at h
        simp only [decodeTyped] at h
        have one : ∀ r m', dr = ⟨some m', r⟩ → weight m' = 1 → sound m' → 1 ≤ r → weight m ≤ min dr.read data.length ∧ sound m := by
          intro r m' e hw hs hr
          subst e
          cases hm
          exact ⟨by show weight m ≤ min r _; omega, hs⟩
        split at h
        · cases h; cases hm
        · split at h
          · cases h; cases hm
          · obtain ⟨p, hp, h⟩ := Res.bind_eq_ok.mp h
            split at h
            · cases h; exact one 5 _ rfl rfl trivial (by decide)
            · cases h; exact one 5 _ rfl rfl trivial (by decide)
            · cases h; exact one 5 _ rfl rfl trivial (by decide)
            · cases h; exact one 5 _ rfl rfl trivial (by decide)
            · cases e : DecodeMsgHave p with
              | ok m' => rw [e] at h; cases h; exact one 9 _ rfl (have_plain e).1 (have_plain e).2 (by decide)
              | _ => rw [e] at h; cases h <;> cases hm
            · cases e : DecodeMsgBitfield data n with
              | ok m' => rw [e] at h; cases h; cases hm; exact bitfield_weight e
              | _ => rw [e] at h; cases h <;> cases hm
            · cases e : DecodeMsgRequest p with
              | ok m' => rw [e] at h; cases h; exact one 17 _ rfl (request_plain e).1 (request_plain e).2 (by decide)
              | _ => rw [e] at h; cases h <;> cases hm
            · cases e : DecodeMsgPiece p n with
              | ok m' => exact absurd e (piece_never hp m')
              | _ => rw [e] at h; cases h
            · cases h; cases hm

theorem loop_weight : ∀ (fuel : Nat) (data : Bytes) (msgs : List P2P.Msg) (r : Nat) (x : DecodeAllResult), decodeAllLoop fuel data msgs r = .ok x →
    ∃ new, x.msgs = msgs ++ new ∧ (new.map weight).sum ≤ data.length ∧ ∀ m ∈ new, sound m
  | 0, _, _, _, _, h => nomatch h
  | fuel + 1, data, msgs, r, x, h => by
    unfold decodeAllLoop at h
    split at h
    · cases h; exact ⟨[], (List.append_nil _).symm, Nat.zero_le _, nofun⟩
    · obtain ⟨dr, hd, h⟩ := Res.bind_eq_ok.mp h
      cases hm : dr.msg with
      | none =>
        rw [hm] at h
        obtain ⟨new, h1, h2, h3⟩ := loop_weight fuel _ _ _ _ h
        rw [List.length_drop] at h2
        exact ⟨new, h1, by omega, h3⟩
      | some m =>
        rw [hm] at h
        obtain ⟨new, h1, h2, h3⟩ := loop_weight fuel _ _ _ _ h
        rw [List.length_drop] at h2
        have hw := decode_weight hd hm
        refine ⟨m :: new, by rw [h1, List.append_assoc]; rfl, ?_, ?_⟩
        · rw [List.map_cons, List.sum_cons]; omega
        · intro m' hm'
          rcases List.mem_cons.mp hm' with rfl | h'
          · exact hw.2
          · exact h3 m' h'

theorem registerBFLoopW_le (b : Bitfield) (w : PH) (left : Nat) : ∀ i t, (registerBFLoopW b w left i t).2 ≤ 2 * left := by
  induction left with
  | zero => intros; exact Nat.zero_le _
  | succ left ih =>
    intro i t
    rw [registerBFLoopW]
    cases b.Get i with
    | ok has =>
      rw [bind_ok]
      cases has with
      | true =>
        simp only [if_true]
        cases register t w (i % 2 ^ 32) with
        | ok t' => rw [bind_ok]; have := ih (i + 1) t'; simp only; omega
        | _ => show 1 + 1 ≤ _; omega
      | false =>
        simp only [Bool.false_eq_true, if_false]
        rw [bind_ok]; have := ih (i + 1) t; simp only; omega
    | _ => show 1 ≤ _; omega

theorem handleBitfieldW_le (s : Swarm) (me : PH) (b : Bitfield) (st : St) (hb : b.nbytes = b.data.length) :
    (handleBitfieldW s me b st).2 ≤ 24 * b.data.length := by
  unfold handleBitfieldW
  split
  · exact Nat.zero_le _
  · have h1 : (SetNbitsW b s.tor.numPieces).2 ≤ 8 * b.data.length ∧ ∀ b', (SetNbitsW b s.tor.numPieces).1 = .ok b' → b'.nbits.toNat ≤ 8 * b.data.length := by
      unfold SetNbitsW
      split
      · exact ⟨Nat.zero_le _, nofun⟩
      · rename_i hr
        rw [bind_zero]
        refine ⟨calcNsetW_le _ _, fun b' e => ?_⟩
        cases e2 : (calcNsetW b.data s.tor.numPieces).1 with
        | ok k =>
          rw [bind_fst, e2] at e
          cases e
          show (s.tor.numPieces : Int).toNat ≤ _
          omega
        | _ => rw [bind_fst, e2] at e; cases e
    generalize SetNbitsW b s.tor.numPieces = x at h1 ⊢
    obtain ⟨x, n⟩ := x
    cases x with
    | ok b' =>
      have h2 := h1.2 b' rfl
      have h3 : (RegisterBFW st.ppt me b').2 ≤ 2 * b'.nbits.toNat := registerBFLoopW_le _ _ _ _ _
      simp only at h1 ⊢
      generalize RegisterBFW st.ppt me b' = y at h3 ⊢
      obtain ⟨y, k⟩ := y
      cases y <;> simp only at h3 ⊢ <;> omega
    | _ => have := h1.1; simp only at this ⊢; omega

theorem handleAllW_le (s : Swarm) (me : PH) (wok : Nat → Bool) (ms : List P2P.Msg) : ∀ st, (∀ m ∈ ms, sound m) → (handleAllW s me wok ms st).2 ≤ 24 * (ms.map weight).sum := by
  induction ms with
  | nil => intros; exact Nat.zero_le _
  | cons m ms ih =>
    intro st hs
    rw [handleAllW]
    have h1 : 1 + (handleOneW s me wok m st).2 ≤ 24 * weight m := by
      have hsm := hs m (by simp)
      cases m with
      | bitfield n b =>
        have := handleBitfieldW_le s me b st hsm
        show 1 + (handleBitfieldW s me b st).2 ≤ 24 * (1 + _)
        omega
      | _ => simp [handleOneW, weight]
    rw [List.map_cons, List.sum_cons]
    generalize handleOneW s me wok m st = x at h1 ⊢
    obtain ⟨⟨st', r⟩, n⟩ := x
    cases r with
    | ok _ =>
      have := ih st' fun m hm => hs m (by simp [hm])
      simp only at h1 ⊢
      omega
    | _ => simp only at h1 ⊢; omega

/-- **C122** (partial: buffers on which `DecodeAll` ends).  Whatever a peer sends, and whatever the swarm, the tracker of pieces and the peer look like, handling it takes at most 34
times as many steps as there are bytes (without what is read from the disk to answer requests, C117). -/
theorem C122_handle_partial (fuel : Nat) (s : Swarm) (me : PH) (wok : Nat → Bool) (buf : Bytes) (st : St) (h : DecodeAll fuel buf ≠ .timeout) :
    (handleMessageW fuel s me wok buf st).2 ≤ 34 * buf.length := by
  have h1 := C122_apart_partial fuel buf h
  have h2 := (C122_same fuel s me wok buf st).2
  unfold handleMessageW
  generalize DecodeAllW fuel buf = x at h1 h2 ⊢
  obtain ⟨x, n⟩ := x
  cases x with
  | ok dar =>
    obtain ⟨new, e, hw, hs⟩ := loop_weight fuel buf [] 0 dar h2.symm
    rw [List.nil_append] at e
    have := handleAllW_le s me wok dar.msgs st (by rw [e]; exact hs)
    rw [e] at this
    simp only at h1 ⊢
    rw [e]
    omega
  | _ => simp only at h1 ⊢; omega

/-- **C122** (partial: buffers that nowhere contain the five bytes of an empty bitfield): the bound holds, whatever the number of rounds that is allowed for. -/
theorem C122_no_empty_bitfield_partial (s : Swarm) (me : PH) (wok : Nat → Bool) (buf : Bytes) (st : St) (hno : ∀ pre rest, buf ≠ pre ++ ([0, 0, 0, 1, 5] ++ rest))
    (fuel : Nat) (hf : buf.length < fuel) : DecodeAll fuel buf ≠ .timeout ∧ (handleMessageW fuel s me wok buf st).2 ≤ 34 * buf.length :=
  have h := C14_finishes_partial buf hno fuel hf
  ⟨h, C122_handle_partial fuel s me wok buf st h⟩

/-- a bitfield of 16 bits: 6 for the call of `Decode`, 7 bytes copied, 16 bits counted, the message itself, 16 bits counted again, 16 bits tested -/
example : ∀ (s : Swarm) (me : PH) (wok : Nat → Bool) (st : St), s.bf.nbytes = 2 → s.tor.numPieces = 16 →
    (handleMessageW 8 s me wok [0, 0, 0, 3, 5, 0, 0] st).2 = 6 + 7 + 16 + 1 + 16 + 16 ∧ DecodeAll 8 [0, 0, 0, 3, 5, 0, 0] ≠ .timeout := by
  intro s me wok st h1 h2
  refine ⟨?_, by decide +kernel⟩
  have hd : DecodeAllW 8 [0, 0, 0, 3, 5, 0, 0] = (.ok ⟨[.bitfield 3 ⟨[0, 0, 0, 3, 5, 0, 0], 2, 16, 0⟩], 7⟩, 29) := by decide +kernel
  unfold handleMessageW
  rw [hd]
  have hn : SetNbitsW ⟨[0, 0, 0, 3, 5, 0, 0], 2, 16, 0⟩ 16 = (.ok ⟨[0, 0, 0, 3, 5, 0, 0], 2, 16, 0⟩, 16) := by decide +kernel
  have hr : ∀ t, RegisterBFW t me ⟨[0, 0, 0, 3, 5, 0, 0], 2, 16, 0⟩ = (.ok t, 16) := fun _ => rfl
  simp only [handleAllW, handleOneW, handleBitfieldW, h1, h2, ne_eq, not_true, if_false]
  rw [show ((16 : Nat) : Int) = 16 from rfl, hn]
  simp only [hr]

theorem registerBFLoopW_eq (b : Bitfield) (w : PH) (left : Nat) : ∀ i t t', (registerBFLoopW b w left i t).1 = .ok t' →
    (registerBFLoopW b w left i t).2 = left + ((List.range' i left).filter fun j => bit b.data j).length := by
  induction left with
  | zero => intros; rfl
  | succ left ih =>
    intro i t t' h
    rw [registerBFLoopW] at h ⊢
    rw [List.range'_succ, List.filter_cons]
    have hg := get_nat b i
    by_cases hi : i < 8 * b.data.length
    · rw [if_pos hi] at hg
      rw [hg, bind_ok] at h ⊢
      cases hb : bit b.data i with
      | true =>
        simp only [hb, if_true] at h ⊢
        cases hr : register t w (i % 2 ^ 32) with
        | ok t1 =>
          rw [hr, bind_ok] at h
          rw [bind_ok]
          have := ih (i + 1) t1 t' h
          simp only [List.length_cons]
          omega
        | _ => rw [hr] at h; cases h
      | false =>
        simp only [hb, Bool.false_eq_true, if_false] at h ⊢
        rw [bind_ok] at h ⊢
        have := ih (i + 1) t t' h
        simp only
        omega
    · rw [if_neg hi] at hg
      rw [hg] at h; cases h

/-- **C122**, exactly, for bitfields: registering one tests each of its bits and looks up each piece whose bit is set. -/
theorem C122_register (t t' : Tracker) (w : PH) (b : Bitfield) (h : RegisterBF t w b = .ok t') :
    (RegisterBFW t w b).2 = b.nbits.toNat + ((List.range b.nbits.toNat).filter fun j => bit b.data j).length := by
  rw [List.range_eq_range']
  exact registerBFLoopW_eq b w _ 0 t t' ((registerBFLoopW_fst b w _ 0 t).trans h)

example : ∃ t t', NewPeerPieceTracker 3 = .ok t ∧ RegisterBF t ⟨1, [1]⟩ ⟨[0, 0, 0, 0, 0, 0xA0], 1, 3, 2⟩ = .ok t' ∧
    ((List.range 3).filter fun j => bit [0xA0] j).length = 2 := ⟨_, _, rfl, rfl, by decide +kernel⟩

/-! ### messages that are all handled -/

theorem calcNsetW_cost (data : Bytes) (n : Nat) (hd : data.length = (n + 7) / 8) (k : Int) (h : (calcNsetW data n).1 = .ok k) : (calcNsetW data n).2 = n := by
  unfold calcNsetW at h ⊢
  have hr : (n : Int).tmod 8 = ((n % 8 : Nat) : Int) := by rw [Int.tmod_eq_emod_of_nonneg (by omega)]; omega
  simp only [hr] at h ⊢
  by_cases h0 : n % 8 = 0
  · rw [if_neg (by omega), if_pos (by omega)]
    simp only [sum_eights, List.length_take]
    omega
  · rw [if_neg (c := ((n % 8 : Nat) : Int) = 0) (by omega)] at h ⊢
    rw [if_pos (by omega)] at h ⊢
    split at h
    · cases h
    · rename_i hl
      rw [if_neg hl]
      cases hx : data[((data.length : Int) - 1 + 0).toNat]? with
      | none => simp only [hx] at h; cases h
      | some b =>
        simp only [sum_eights, List.length_take]
        omega

/-- what handling a message costs beyond taking it apart: a request is looked up in our bitfield; the bits of a bitfield that stand for pieces are counted, tested, and the pieces of those
that are set looked up -/
def toll (n : Nat) : Wire.Msg → Nat
  | .request _ _ _ => 1
  | .bitfield bits => n + (n + ((List.range n).filter fun j => bit bits j).length)
  | _ => 0

theorem handleBitfieldW_cost (s : Swarm) (me : PH) (bits : Bytes) (st st' : St) (hs : s.bf.nbytes = ((s.tor.numPieces + 7) / 8 : Nat))
    (h : (handleBitfieldW s me (rxBitfield bits) st).1 = (st', .ok ())) : (handleBitfieldW s me (rxBitfield bits) st).2 = toll s.tor.numPieces (.bitfield bits) := by
  have hnb : (rxBitfield bits).nbytes = bits.length := rfl
  have hdata : (rxBitfield bits).data = bits := rfl
  unfold handleBitfieldW at h ⊢
  split at h
  · cases h
  · rename_i hne
    rw [if_neg hne]
    have hlen : bits.length = (s.tor.numPieces + 7) / 8 := by omega
    have key : ∀ b', (SetNbitsW (rxBitfield bits) s.tor.numPieces).1 = .ok b' →
        (SetNbitsW (rxBitfield bits) s.tor.numPieces).2 = s.tor.numPieces ∧ b'.nbits = s.tor.numPieces ∧ b'.data = bits := by
      intro b' hb'
      unfold SetNbitsW at hb' ⊢
      split at hb'
      · cases hb'
      · rename_i hr
        rw [if_neg hr, bind_zero]
        cases e2 : (calcNsetW (rxBitfield bits).data s.tor.numPieces).1 with
        | ok k =>
          rw [bind_fst, e2] at hb'
          cases hb'
          exact ⟨calcNsetW_cost _ _ (by rw [hdata]; exact hlen) k e2, rfl, hdata⟩
        | _ => rw [bind_fst, e2] at hb'; cases hb'
    generalize SetNbitsW (rxBitfield bits) s.tor.numPieces = x at h key ⊢
    obtain ⟨x, n⟩ := x
    cases x with
    | ok b' =>
      obtain ⟨k1, k2, k3⟩ := key b' rfl
      have h3 : ∀ t', (RegisterBFW st.ppt me b').1 = .ok t' → (RegisterBFW st.ppt me b').2 = _ := fun t' ht =>
        C122_register st.ppt t' me b' ((registerBFLoopW_fst _ _ _ _ _).symm.trans ht)
      simp only at h k1 ⊢
      generalize RegisterBFW st.ppt me b' = y at h h3 ⊢
      obtain ⟨y, k⟩ := y
      cases y with
      | ok t =>
        have := h3 t rfl
        simp only at this ⊢
        rw [this, k1, k2, k3]
        rfl
      | _ => cases h
    | _ => cases h

theorem handleAllW_cost (s : Swarm) (me : PH) (wok : Nat → Bool) (hs : s.bf.nbytes = ((s.tor.numPieces + 7) / 8 : Nat)) (ws : List Wire.Msg) :
    ∀ st st', (∀ w ∈ ws, Decodable w) → (handleAllW s me wok (ws.map received) st).1 = (st', .ok ()) →
      (handleAllW s me wok (ws.map received) st).2 = (ws.map fun w => 1 + toll s.tor.numPieces w).sum := by
  induction ws with
  | nil => intros; rfl
  | cons w ws ih =>
    intro st st' hd h
    rw [List.map_cons, handleAllW] at h ⊢
    have h1 : ∀ st1, (handleOneW s me wok (received w) st).1 = (st1, .ok ()) → (handleOneW s me wok (received w) st).2 = toll s.tor.numPieces w := by
      intro st1 h1
      cases w with
      | bitfield bits => exact handleBitfieldW_cost s me bits st st1 hs h1
      | _ => rfl
    generalize handleOneW s me wok (received w) st = x at h h1 ⊢
    obtain ⟨⟨st1, r⟩, n⟩ := x
    cases r with
    | ok _ =>
      have h2 := ih st1 st' (fun x hx => hd x (by simp [hx])) h
      have h3 := h1 st1 rfl
      simp only [List.map_cons, List.sum_cons] at h3 ⊢
      omega
    | _ => cases h

/-- **C122**, exactly, for complete messages all of which are handled: the sum of their prices, one for each message, and the tolls. -/
theorem C122_handled (fuel : Nat) (s : Swarm) (me : PH) (wok : Nat → Bool) (hs : s.bf.nbytes = ((s.tor.numPieces + 7) / 8 : Nat)) (ws : List Wire.Msg)
    (hd : ∀ w ∈ ws, Decodable w) (hlen : (stream ws).length < 2 ^ 32) (hf : ws.length < fuel) (st st' : St)
    (h : handleMessage fuel s me wok (stream ws) st = (st', .ok ())) :
    (handleMessageW fuel s me wok (stream ws) st).2 = (ws.map price).sum + (ws.map fun w => 1 + toll s.tor.numPieces w).sum := by
  have h1 := C122_prices ws hd hlen fuel hf
  obtain ⟨h3, h2⟩ := C122_same fuel s me wok (stream ws) st
  rw [h] at h3
  have hda : DecodeAll fuel (stream ws) = .ok ⟨ws.map received, (stream ws).length⟩ := by
    obtain ⟨k, rfl⟩ : ∃ k, fuel = ws.length + (k + 1) := ⟨fuel - ws.length - 1, by omega⟩
    have := loop_stream ws (k + 1) [] hd (by simpa using hlen) [] 0
    rw [List.append_nil] at this
    rw [DecodeAll, this, loop_nil, List.nil_append, Nat.zero_add]
  rw [hda] at h2
  unfold handleMessageW at h3 ⊢
  generalize DecodeAllW fuel (stream ws) = x at h1 h2 h3 ⊢
  obtain ⟨x, n⟩ := x
  simp only at h1 h2
  subst h1 h2
  simp only at h3 ⊢
  rw [handleAllW_cost s me wok hs ws st st' hd h3]

/-- an unchoke and a bitfield for three pieces: 6 and 20 for taking them apart, one for each, three bits counted, three tested, two pieces looked up -/
example : ∀ (s : Swarm) (wok : Nat → Bool) (st : St), s.bf.nbytes = 1 → s.tor.numPieces = 3 → NewPeerPieceTracker 3 = .ok st.ppt →
    (handleMessage 3 s ⟨1, [1]⟩ wok (stream [.unchoke, .bitfield [0xA0]]) st).2 = .ok () ∧
    ([Wire.Msg.unchoke, .bitfield [0xA0]].map price).sum + ([Wire.Msg.unchoke, .bitfield [0xA0]].map fun w => 1 + toll 3 w).sum = 26 + 2 + 8 := by
  intro s wok st h1 h2 h3
  refine ⟨?_, by decide +kernel⟩
  have hd : DecodeAll 3 (stream [.unchoke, .bitfield [0xA0]]) = .ok ⟨[.unchoke, .bitfield 2 ⟨[0, 0, 0, 2, 5, 0xA0], 1, 8, 2⟩], 11⟩ := by decide +kernel
  unfold handleMessage
  rw [hd]
  have hn : (⟨[0, 0, 0, 2, 5, 0xA0], 1, 8, 2⟩ : Bitfield).SetNbits 3 = .ok ⟨[0, 0, 0, 2, 5, 0xA0], 1, 3, 2⟩ := by decide +kernel
  simp only [handleAll, handleOne, handleBitfield, h1, h2, ne_eq, not_true, if_false]
  rw [show ((3 : Nat) : Int) = 3 from rfl, hn]
  obtain ⟨t, b, o, k⟩ := st
  simp only at h3 ⊢
  have ht := Res.ok.inj h3
  subst ht
  rfl

/-! ### looking for the next piece -/

theorem scanListW_cost {t : Tracker} {size : Nat} {a : State} (h : Inv t size a) (own : Bitfield) (hown : size ≤ 8 * own.data.length) (w : PH)
    (xs : List Nat) (hxs : ∀ x ∈ xs, x < size) (p : Option Nat) (hs : Seg t.heap p xs none) (fuel : Nat) (hf : xs.length ≤ fuel) :
    (scanListW t.heap own w fuel xs.head?).1 = .ok (xs.find? (wanted own a w)) ∧ (scanListW t.heap own w fuel xs.head?).2 ≤ xs.length ∧
      (xs.find? (wanted own a w) = none → (scanListW t.heap own w fuel xs.head?).2 = xs.length) := by
  induction xs generalizing p fuel with
  | nil => rw [List.head?_nil, List.find?_nil, scanListW.eq_def]; exact ⟨rfl, Nat.le_refl _, fun _ => rfl⟩
  | cons x xs ih =>
    obtain ⟨⟨d, hd⟩, hs⟩ := hs
    cases fuel with
    | zero => cases hf
    | succ fuel =>
      have hx := hxs x (by simp)
      obtain ⟨nd, s, hdr, hget, hdat, -, hhas, -⟩ := h.deref x hx
      have hnx : nd.next = xs.head? := by
        rw [hd] at hget; cases hget; simp
      rw [List.head?_cons, scanListW, hdr, bind_ok]
      simp only [hdat, hhas, get_nat]
      rw [if_pos (by omega), bind_ok, List.find?_cons]
      by_cases hw : wanted own a w x = true
      · have hw' := hw
        unfold wanted at hw'
        simp only [Bool.not_false, Bool.true_and, hw', hw, if_true]
        exact ⟨trivial, by simp, nofun⟩
      · have hw' := hw
        unfold wanted at hw'
        simp only [Bool.not_false, Bool.true_and, hw', hw, hnx]
        obtain ⟨h1, h2, h3⟩ := ih (fun y hy => hxs y (by simp [hy])) (some x) hs fuel (by simpa using hf)
        refine ⟨h1, ?_, fun e => ?_⟩
        · simp only [List.length_cons, Bool.false_eq_true, if_false]; omega
        · have := h3 e
          simp only [List.length_cons, Bool.false_eq_true, if_false]; omega

theorem scanBucketsW_cost {t : Tracker} {size : Nat} {a : State} (h : Inv t size a) (own : Bitfield) (hown : size ≤ 8 * own.data.length) (w : PH)
    (X : Nat → List Nat) (lls : List LinkedList) (c0 : Nat) (hl : ∀ (k : Nat) (ll : LinkedList), lls[k]? = some ll → IsList t.heap ll (X (c0 + k)))
    (hys : ∀ c, c < c0 + lls.length → ∀ x ∈ X c, x < size) :
    (scanBucketsW t.heap own w lls).1 = .ok (((List.range' c0 lls.length).flatMap X).find? (wanted own a w)) ∧
    (scanBucketsW t.heap own w lls).2 ≤ ((List.range' c0 lls.length).flatMap X).length ∧
    (((List.range' c0 lls.length).flatMap X).find? (wanted own a w) = none → (scanBucketsW t.heap own w lls).2 = ((List.range' c0 lls.length).flatMap X).length) := by
  induction lls generalizing c0 with
  | nil => exact ⟨rfl, Nat.zero_le _, fun _ => rfl⟩
  | cons ll lls ih =>
    have il := hl 0 ll rfl
    rw [Nat.add_zero] at il
    have h1 := scanListW_cost h own hown w (X c0) (hys c0 (by simp)) none il.seg (t.heap.length + 1) (by
      have := nodup_length_le t.heap.length (X c0) il.nodup (fun x hx => seg_mem il.seg x hx)
      omega)
    rw [← il.head] at h1
    rw [scanBucketsW, List.length_cons, List.range'_succ, List.flatMap_cons, List.find?_append, List.length_append]
    generalize scanListW t.heap own w (t.heap.length + 1) ll.head = x at h1 ⊢
    obtain ⟨x, n⟩ := x
    obtain ⟨rfl, h2, h3⟩ := h1
    rw [bind_ok]
    cases hfnd : (X c0).find? (wanted own a w) with
    | some i =>
      simp only at h2 ⊢
      exact ⟨rfl, by omega, nofun⟩
    | none =>
      have h3 := h3 hfnd
      obtain ⟨k1, k2, k3⟩ := ih (c0 + 1) (fun k ll hk => by
          have := hl (k + 1) ll (by simpa using hk)
          rwa [show c0 + 1 + k = c0 + (k + 1) by omega])
        (fun c hc => hys c (by rw [List.length_cons]; omega))
      simp only [Option.none_or] at h2 h3 ⊢
      exact ⟨k1, by omega, fun e => by have := k3 e; omega⟩

/-- the pieces that some peer has said to have -/
def offered (size : Nat) (a : State) : List Nat := (List.range size).filter fun i => !(a i).isEmpty

/-- **C122**, `NextPiece`.  After any history it looks at each piece that some peer has offered at most once, and at no other; if it finds nothing, at all of them. -/
theorem C122_next (size : Nat) (cs : List Call) (t : Tracker) (h : Reached size cs t) (own : Bitfield) (hown : size ≤ 8 * own.data.length) (w : PH) :
    (NextPieceW t own w).2 ≤ (offered size (after cs)).length ∧
    ((¬ ∃ j : Nat, j < size ∧ own.Get j = .ok false ∧ w.key ∈ after cs j) → (NextPieceW t own w).2 = (offered size (after cs)).length) := by
  have hi := h.inv
  obtain ⟨X, hX, hm⟩ := hi.ex
  have hsc := scanBucketsW_cost hi own hown w X (t.buckets.drop 1) 1
    (by
      intro k ll hk
      rw [List.getElem?_drop] at hk
      have hlt := (List.getElem?_eq_some_iff.mp hk).1
      rw [hX.buckets] at hlt
      obtain ⟨ll', hb, il⟩ := hX.lists (1 + k) hlt
      rw [hb] at hk
      cases hk
      exact il)
    (by
      intro c hc x hx
      rw [List.length_drop, hX.buckets] at hc
      exact hX.mem_lt (by omega) hx)
  rw [List.length_drop, hX.buckets] at hsc
  have hlen : ((List.range' 1 (64 - 1)).flatMap X).length = (offered size (after cs)).length := by
    apply List.Perm.length_eq
    rw [List.perm_ext_iff_of_nodup]
    · intro i
      unfold offered
      rw [List.mem_flatMap, List.mem_filter, List.mem_range]
      constructor
      · rintro ⟨c, hc, hx⟩
        rw [List.mem_range'_1] at hc
        have hlt := hX.mem_lt (by omega) hx
        refine ⟨hlt, ?_⟩
        have := (hm i c hlt).mp hx
        cases e : after cs i with
        | nil => rw [e] at this; simp at this; omega
        | cons => rfl
      · rintro ⟨hlt, hne⟩
        refine ⟨(after cs i).length, ?_, (hm i _ hlt).mpr rfl⟩
        have := hi.le i
        rw [List.mem_range'_1]
        cases e : after cs i with
        | nil => rw [e] at hne; cases hne
        | cons b l => rw [e] at this; simp at this ⊢; omega
    · rw [List.nodup_iff_pairwise_ne, List.pairwise_flatMap]
      refine ⟨fun c hc => ?_, ?_⟩
      · rw [List.mem_range'_1] at hc
        obtain ⟨ll, -, il⟩ := hX.lists c (by omega)
        exact il.nodup
      · refine (List.nodup_range' (step := 1)).imp ?_
        intro c d hcd x hx y hy e
        subst e
        exact hcd (hX.disj c d x hx hy)
    · exact List.Pairwise.filter _ List.nodup_range
  have hcost : (NextPieceW t own w).2 = (scanBucketsW t.heap own w (t.buckets.drop 1)).2 := by
    unfold NextPieceW
    generalize scanBucketsW t.heap own w (t.buckets.drop 1) = x at hsc ⊢
    obtain ⟨x, n⟩ := x
    obtain ⟨rfl, -, -⟩ := hsc
    rw [bind_ok]
    split <;> rfl
  refine ⟨by rw [hcost, ← hlen]; exact hsc.2.1, fun hno => ?_⟩
  rw [hcost, ← hlen]
  refine hsc.2.2 (List.find?_eq_none.mpr fun j hj hw => hno ?_)
  obtain ⟨c, hc, hx⟩ := List.mem_flatMap.mp hj
  rw [List.mem_range'_1] at hc
  have hlt := hX.mem_lt (by omega) hx
  unfold wanted at hw
  simp only [Bool.and_eq_true, Bool.not_eq_true', decide_eq_true_eq] at hw
  exact ⟨j, hlt, by rw [get_nat, if_pos (by omega), hw.1], hw.2⟩

/-- pieces 0 and 2 of three are offered; a peer that has offered nothing makes `NextPiece` look at both -/
example : ∃ t, Reached 3 [.register ⟨1, [1]⟩ [0, 2], .register ⟨2, [2]⟩ [0]] t ∧
    offered 3 (after [.register ⟨1, [1]⟩ [0, 2], .register ⟨2, [2]⟩ [0]]) = [0, 2] ∧ (NextPieceW t ⟨[0, 0, 0, 0, 0, 0], 1, 3, 0⟩ ⟨3, [3]⟩).2 = 2 := by
  obtain ⟨t, h⟩ := C46_few_peers_partial 3 (by decide) [.register ⟨1, [1]⟩ [0, 2], .register ⟨2, [2]⟩ [0]]
    (by intro c hc; simp only [List.mem_cons, List.not_mem_nil, or_false] at hc; rcases hc with rfl | rfl <;> simp [Call.Valid])
    [[1], [2]] (by decide) (by intro c hc; simp only [List.mem_cons, List.not_mem_nil, or_false] at hc; rcases hc with rfl | rfl <;> simp [Call.who])
  have ho : offered 3 (after [.register ⟨1, [1]⟩ [0, 2], .register ⟨2, [2]⟩ [0]]) = [0, 2] := by
    simp [offered, after, Call.steps, Step.effect, empty, List.range, List.range.loop]
  refine ⟨t, h, ho, ?_⟩
  rw [(C122_next 3 _ t h ⟨[0, 0, 0, 0, 0, 0], 1, 3, 0⟩ (by decide) ⟨3, [3]⟩).2 ?_, ho]
  · rfl
  · rintro ⟨j, hj, -, hk⟩
    match j, hj with
    | 0, _ => simp [after, Call.steps, Step.effect, empty] at hk
    | 1, _ => simp [after, Call.steps, Step.effect, empty] at hk
    | 2, _ => simp [after, Call.steps, Step.effect, empty] at hk

end Verif.PeerWork
