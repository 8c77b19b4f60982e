import Verif.Model.Bitfield
import Verif.Spec.Bits
set_option autoImplicit false

namespace Verif.Bf
open Verif.Bits

/-! ### bytes -/

theorem mask_toNat : ∀ j : Fin 8, ((128 : UInt8) >>> UInt8.ofNat j.val).toNat = 2 ^ (7 - j.val) := by decide

theorem mask_toNat' {j : Nat} (h : j < 8) : ((128 : UInt8) >>> UInt8.ofNat j).toNat = 2 ^ (7 - j) :=
  mask_toNat ⟨j, h⟩

theorem bitOf_table : ∀ n : Fin 256, ∀ j : Fin 8, bitOf (UInt8.ofNat n.val) j.val = n.val.testBit (7 - j.val) := by
  decide +kernel

theorem bitOf_eq (b : UInt8) {j : Nat} (h : j < 8) : bitOf b j = b.toNat.testBit (7 - j) := by
  have := bitOf_table ⟨b.toNat, b.toNat_lt⟩ ⟨j, h⟩
  simpa using this

theorem testBit_or_mask (b : UInt8) {j k : Nat} (hj : j < 8) (hk : k < 8) :
    (b ||| ((128 : UInt8) >>> UInt8.ofNat j)).toNat.testBit (7 - k) =
      if k = j then true else b.toNat.testBit (7 - k) := by
  rw [UInt8.toNat_or, Nat.testBit_or, mask_toNat' hj, Nat.testBit_two_pow]
  by_cases h : k = j
  · subst h; simp
  · rw [if_neg h]
    have : ¬ (7 - j = 7 - k) := by omega
    simp [this]

theorem testBit_and_not_mask (b : UInt8) {j k : Nat} (hj : j < 8) (hk : k < 8) :
    (b &&& ~~~((128 : UInt8) >>> UInt8.ofNat j)).toNat.testBit (7 - k) =
      if k = j then false else b.toNat.testBit (7 - k) := by
  rw [UInt8.toNat_and, Nat.testBit_and, UInt8.toNat_not, mask_toNat' hj]
  have e : UInt8.size - 1 - 2 ^ (7 - j) = 2 ^ 8 - (2 ^ (7 - j) + 1) := by
    have : UInt8.size = 256 := rfl
    omega
  have hlt : 2 ^ (7 - j) < 2 ^ 8 := Nat.pow_lt_pow_right (by omega) (by omega)
  rw [e, Nat.testBit_two_pow_sub_succ hlt, Nat.testBit_two_pow]
  by_cases h : k = j
  · subst h; simp
  · rw [if_neg h]
    have : ¬ (7 - j = 7 - k) := by omega
    have : 7 - k < 8 := by omega
    simp [*]

theorem tdiv8 (i : Nat) : (i : Int).tdiv 8 = ((i / 8 : Nat) : Int) := rfl
theorem tmod8 (i : Nat) : (i : Int).tmod 8 = ((i % 8 : Nat) : Int) := rfl

/-! ### counting -/

theorem count_add (f : Nat → Bool) (a k : Nat) : count f (a + k) = count f a + count (fun j => f (a + j)) k := by
  induction k with
  | zero => rfl
  | succ k ih => rw [← Nat.add_assoc, count, ih, count]; omega

theorem count_congr {f g : Nat → Bool} {n : Nat} (h : ∀ i, i < n → f i = g i) : count f n = count g n := by
  induction n with
  | zero => rfl
  | succ n ih => rw [count, count, ih (fun i hi => h i (by omega)), h n (by omega)]

theorem count_le (f : Nat → Bool) (n : Nat) : count f n ≤ n := by
  induction n with
  | zero => exact Nat.le_refl _
  | succ n ih => rw [count]; split <;> omega

theorem count_eq_iff (f : Nat → Bool) (n : Nat) : count f n = n ↔ ∀ i, i < n → f i = true := by
  induction n with
  | zero => simp [count]
  | succ n ih =>
    rw [count]
    have := count_le f n
    constructor
    · intro h i hi
      by_cases hf : f n = true
      · rw [if_pos hf] at h
        by_cases hin : i = n
        · exact hin ▸ hf
        · exact ih.mp (by omega) i (by omega)
      · rw [if_neg hf] at h; omega
    · intro h
      rw [if_pos (h n (by omega)), ih.mpr (fun i hi => h i (by omega))]

theorem count_update (f : Nat → Bool) (i n : Nat) (v : Bool) (hi : i < n) :
    (count (fun j => if j = i then v else f j) n : Int) = count f n + (if v then 1 else 0) - (if f i then 1 else 0) := by
  induction n with
  | zero => omega
  | succ n ih =>
    rw [count, count]
    by_cases hin : i = n
    · subst hin
      have : count (fun j => if j = i then v else f j) i = count f i :=
        count_congr (fun j hj => if_neg (by omega))
      rw [this, if_pos rfl]
      cases v <;> cases f i <;> simp <;> omega
    · have hn : ¬ n = i := fun h => hin h.symm
      have := ih (by omega)
      rw [if_neg hn]
      push_cast
      omega

theorem filter_range_length (f : Nat → Bool) (n : Nat) : ((List.range n).filter f).length = count f n := by
  induction n with
  | zero => rfl
  | succ n ih =>
    rw [List.range_succ, List.filter_append, List.length_append, ih, count]
    cases h : f n <;> simp [h]

theorem countByte_eq (bs : Bytes) (b : UInt8) (m k : Nat) (hk : k ≤ 8) (hb : bs[m]? = some b) :
    countByte b k = count (fun j => bit bs (8 * m + j)) k := by
  unfold countByte
  rw [filter_range_length]
  congr 1
  apply count_congr
  intro j hj
  rw [bitOf_eq b (by omega)]
  unfold bit
  have h1 : (8 * m + j) / 8 = m := by omega
  have h2 : (8 * m + j) % 8 = j := by omega
  rw [h1, h2, hb]

theorem count_full (bs : Bytes) (m : Nat) (hm : m ≤ bs.length) :
    ((bs.take m).map fun b => countByte b 8).sum = (count (bit bs) (8 * m) : Int) := by
  induction m with
  | zero => simp [count]
  | succ m ih =>
    have hlt : m < bs.length := by omega
    rw [List.take_succ_eq_append_getElem hlt, List.map_append, List.sum_append, ih (by omega),
      show 8 * (m + 1) = 8 * m + 8 from by omega, count_add]
    simp only [List.map_cons, List.map_nil, List.sum_cons, List.sum_nil, Int.add_zero]
    rw [countByte_eq bs bs[m] m 8 (Nat.le_refl _) (List.getElem?_eq_getElem hlt)]
    push_cast; rfl

/-- `calcNset` counts exactly the bits below `nbits` when `nbits` reaches into the last byte -/
theorem calcNset_eq (bs : Bytes) (n : Nat) (h1 : 8 * bs.length < n + 8) (h2 : n ≤ 8 * bs.length) :
    calcNset bs n = .ok (count (bit bs) n) := by
  unfold calcNset
  rw [tmod8]
  by_cases hr : n % 8 = 0
  · have hn : n = 8 * bs.length := by omega
    simp only [hr, Int.natCast_zero, if_true, Int.lt_irrefl, if_false]
    have e : ((bs.length : Int) - 1 + 1).toNat = bs.length := by omega
    rw [e, count_full bs bs.length (Nat.le_refl _), hn]
  · have hlen : 0 < bs.length := by omega
    have hr' : (0 : Int) < ((n % 8 : Nat) : Int) := by omega
    have hr'' : ¬ ((n % 8 : Nat) : Int) = 0 := by omega
    have e : ((bs.length : Int) - 1 + 0).toNat = bs.length - 1 := by omega
    simp only [if_neg hr'', if_pos hr', e]
    rw [if_neg (by omega), List.getElem?_eq_getElem (by omega : bs.length - 1 < bs.length)]
    simp only
    rw [count_full bs (bs.length - 1) (by omega), Int.toNat_natCast,
      countByte_eq bs bs[bs.length - 1] (bs.length - 1) (n % 8) (by omega) (List.getElem?_eq_getElem (by omega))]
    have hn : n = 8 * (bs.length - 1) + n % 8 := by omega
    conv => rhs; rw [hn, count_add]
    push_cast
    rfl

/-! ### Get, Set, Fill -/


theorem get_nat (b : Bitfield) (i : Nat) :
    b.Get i = if i < 8 * b.data.length then .ok (bit b.data i) else .panic := by
  unfold Bitfield.Get
  simp only [tdiv8, tmod8, Int.toNat_natCast]
  rw [if_neg (by omega), if_neg (by omega)]
  by_cases h : i < 8 * b.data.length
  · have hlt : i / 8 < b.data.length := by omega
    rw [if_pos h, List.getElem?_eq_getElem hlt]
    simp only
    rw [bitOf_eq _ (by omega), bit, List.getElem?_eq_getElem hlt]
  · rw [if_neg h, List.getElem?_eq_none (by omega)]

theorem get_neg (b : Bitfield) (i : Int) (h : i < 0) : b.Get i = .panic := by
  unfold Bitfield.Get
  simp only
  by_cases h1 : i.tmod 8 < 0
  · rw [if_pos h1]
  · rw [if_neg h1]
    have h2 : i.tdiv 8 < 0 := by
      have := Int.mul_tdiv_add_tmod i 8
      have := Int.tmod_lt_of_pos i (by omega : (0 : Int) < 8)
      have hz : (i.tmod 8) ≤ 0 := by
        have : (-i).tmod 8 ≥ 0 := Int.tmod_nonneg 8 (by omega)
        rw [Int.neg_tmod] at this
        omega
      omega
    rw [if_pos h2]

theorem bit_set_data (d5 : Bytes) (e x : UInt8) (i j : Nat) (he : (d5.drop 5)[i / 8]? = some e)
    (v : Bool)
    (hx : ∀ k, k < 8 → x.toNat.testBit (7 - k) = if k = i % 8 then v else e.toNat.testBit (7 - k)) :
    bit ((d5.set (5 + i / 8) x).drop 5) j = if j = i then v else bit (d5.drop 5) j := by
  have hd : (d5.set (5 + i / 8) x).drop 5 = (d5.drop 5).set (i / 8) x := by
    rw [List.drop_set, if_neg (by omega)]
    congr 1
    omega
  rw [hd]
  unfold bit
  obtain ⟨hlt, hge⟩ := List.getElem?_eq_some_iff.mp he
  rw [List.getElem?_set]
  by_cases h8 : i / 8 = j / 8
  · rw [if_pos h8, if_pos (h8 ▸ hlt)]
    simp only
    rw [hx _ (by omega), ← h8, he]
    by_cases hij : j = i
    · subst hij; simp
    · rw [if_neg hij, if_neg (by omega)]
  · rw [if_neg h8, if_neg (by intro h; subst h; exact h8 rfl)]

/-- what a successful `Set` does -/
structure SetSpec (b b' : Bitfield) (i : Nat) (v : Bool) : Prop where
  len : b'.data5.length = b.data5.length
  hdr : b'.data5.take 5 = b.data5.take 5
  nbytes : b'.nbytes = b.nbytes
  nbits : b'.nbits = b.nbits
  bits : ∀ j, bit b'.data j = if j = i then v else bit b.data j
  nset : b'.nset = b.nset + (if v then 1 else 0) - (if bit b.data i then 1 else 0)

theorem set_nat (b : Bitfield) (i : Nat) (v : Bool) (h : i < 8 * b.data.length) :
    ∃ b', b.Set i v = .ok b' ∧ SetSpec b b' i v := by
  unfold Bitfield.Set
  simp only [tdiv8, tmod8, Int.toNat_natCast]
  rw [if_neg (by omega), if_neg (by omega)]
  have hlt : i / 8 < b.data.length := by omega
  have hge := List.getElem?_eq_getElem hlt
  rw [hge]
  have hbit : bitOf b.data[i / 8] (i % 8) = bit b.data i := by
    rw [bitOf_eq _ (by omega), bit, hge]
  simp only [hbit]
  cases hv : v with
  | true =>
    cases hb : bit b.data i with
    | true =>
      refine ⟨b, by simp, ⟨rfl, rfl, rfl, rfl, ?_, by simp [hb]⟩⟩
      intro j
      by_cases hj : j = i
      · rw [if_pos hj, hj, hb]
      · rw [if_neg hj]
    | false =>
      refine ⟨_, rfl, ⟨by simp, ?_, rfl, rfl, ?_, by simp [hb]⟩⟩
      · simp only [List.take_set]
        rw [List.set_eq_of_length_le (by rw [List.length_take]; omega)]
      · intro j
        exact bit_set_data b.data5 _ _ i j hge true (fun k hk => testBit_or_mask _ (by omega) hk)
  | false =>
    cases hb : bit b.data i with
    | true =>
      refine ⟨_, rfl, ⟨by simp, ?_, rfl, rfl, ?_, by simp [hb]⟩⟩
      · simp only [List.take_set]
        rw [List.set_eq_of_length_le (by rw [List.length_take]; omega)]
      · intro j
        exact bit_set_data b.data5 _ _ i j hge false (fun k hk => testBit_and_not_mask _ (by omega) hk)
    | false =>
      refine ⟨b, by simp, ⟨rfl, rfl, rfl, rfl, ?_, by simp [hb]⟩⟩
      intro j
      by_cases hj : j = i
      · rw [if_pos hj, hj, hb]
      · rw [if_neg hj]

theorem fill_bit (b : Bitfield) (j : Nat) : bit b.Fill.data j = if j < 8 * b.data.length then true else false := by
  unfold Bitfield.Fill Bitfield.data
  simp only
  rw [← List.map_drop]
  unfold bit
  rw [List.getElem?_map]
  by_cases h : j < 8 * (b.data5.drop 5).length
  · rw [if_pos h, List.getElem?_eq_getElem (by omega)]
    simp only [Option.map_some]
    have : ∀ k : Fin 8, (255 : UInt8).toNat.testBit (7 - k.val) = true := by decide
    exact this ⟨j % 8, by omega⟩
  · rw [if_neg h, List.getElem?_eq_none (by omega)]
    rfl

/-- well-formed bitfields: sizes agree and `nbits` reaches into the last byte -/
structure Wf (b : Bitfield) : Prop where
  len : (b.data5.length : Int) = 5 + b.nbytes
  lo : 0 ≤ b.nbits
  lo8 : 8 * b.nbytes < b.nbits + 8
  hi : b.nbits ≤ 8 * b.nbytes

theorem Wf.data_len {b : Bitfield} (h : Wf b) : (b.data.length : Int) = b.nbytes := by
  have := h.len; have := h.hi; have := h.lo
  unfold Bitfield.data
  rw [List.length_drop]
  omega

theorem new_wf (n : Nat) : ∃ b, NewBitfield n = .ok b ∧ Wf b ∧ b.nbits = n ∧ b.nset = 0 ∧
    (∀ i, bit b.data i = false) := by
  unfold NewBitfield
  simp only [tdiv8, tmod8]
  have e : ((n / 8 : Nat) : Int) + (if ((n % 8 : Nat) : Int) ≠ 0 then 1 else 0) = (((n + 7) / 8 : Nat) : Int) := by
    split <;> omega
  rw [e, if_neg (by omega)]
  have e2 : (5 + (((n + 7) / 8 : Nat) : Int)).toNat = 5 + (n + 7) / 8 := by omega
  rw [e2, if_neg (by rw [List.length_replicate]; omega)]
  refine ⟨_, rfl, ⟨?_, ?_, ?_, ?_⟩, rfl, rfl, ?_⟩
  · simp
  · simp
  · simp only; omega
  · simp only; omega
  · intro i
    unfold Bitfield.data bit
    simp only [List.drop_replicate]
    rw [List.getElem?_replicate]
    split
    · rename_i x hx
      split at hx
      · simp at hx; subst hx; simp
      · cases hx
    · rfl

theorem fromBytes_ok_iff (bs : Bytes) (n : Int) :
    (∃ b, FromBytes bs n = .ok b) ↔ 5 < bs.length ∧ ((bs.length : Int) - 6) * 8 + 1 ≤ n ∧ n ≤ ((bs.length : Int) - 5) * 8 := by
  unfold FromBytes
  simp only
  by_cases h1 : (bs.length : Int) ≤ 5
  · rw [if_pos h1]; simp; omega
  · rw [if_neg h1]
    by_cases h2 : n < ((bs.length : Int) - 5 - 1) * 8 + 1 ∨ n > ((bs.length : Int) - 5) * 8
    · rw [if_pos h2]; simp; omega
    · rw [if_neg h2]
      have hn : n = (n.toNat : Int) := by omega
      rw [hn, calcNset_eq _ _ (by simp; omega) (by simp; omega)]
      simp only [Res.ok_bind]
      constructor
      · intro _; omega
      · intro _; exact ⟨_, rfl⟩

theorem fromBytes_spec (bs : Bytes) (n : Int) (b : Bitfield) (h : FromBytes bs n = .ok b) :
    Wf b ∧ b.data5 = bs ∧ b.nbits = n ∧ b.nset = count (bit (bs.drop 5)) n.toNat := by
  obtain ⟨h1, h2, h3⟩ := (fromBytes_ok_iff bs n).mp ⟨b, h⟩
  unfold FromBytes at h
  simp only at h
  rw [if_neg (by omega), if_neg (by omega)] at h
  have hn : n = (n.toNat : Int) := by omega
  rw [hn, calcNset_eq _ _ (by simp; omega) (by simp; omega)] at h
  simp only [Res.ok_bind, Res.ok.injEq] at h
  subst h
  refine ⟨⟨?_, ?_, ?_, ?_⟩, rfl, by simp only; omega, rfl⟩ <;> simp only <;> omega

/-- the counter invariant -/
def Exact (b : Bitfield) : Prop := b.nset = count (bit b.data) b.nbits.toNat

theorem setNbits_spec (b : Bitfield) (hw : Wf b) (n : Nat) (h1 : 8 * b.nbytes < n + 8) (h2 : (n : Int) ≤ 8 * b.nbytes) :
    ∃ b', b.SetNbits n = .ok b' ∧ Wf b' ∧ Exact b' ∧ b'.data5 = b.data5 ∧ b'.nbits = n ∧ b'.nbytes = b.nbytes := by
  unfold Bitfield.SetNbits
  have hl := hw.data_len
  rw [if_neg (by omega), calcNset_eq _ _ (by omega) (by omega)]
  refine ⟨_, rfl, ⟨hw.len, by simp, h1, h2⟩, ?_, rfl, rfl, rfl⟩
  unfold Exact
  simp only [Int.toNat_natCast]
  rfl

end Verif.Bf
