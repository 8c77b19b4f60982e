import Verif.Spec.Bencode
set_option autoImplicit false

namespace Verif.Bencode
open Spec

/-! ### decimal numbers -/

theorem digitChar_toNat (n : Nat) (h : n < 10) : UInt8.ofNat n.digitChar.toNat = UInt8.ofNat (48 + n) := by
  have : n = 0 ∨ n = 1 ∨ n = 2 ∨ n = 3 ∨ n = 4 ∨ n = 5 ∨ n = 6 ∨ n = 7 ∨ n = 8 ∨ n = 9 := by omega
  rcases this with h | h | h | h | h | h | h | h | h | h <;> subst h <;> rfl

theorem natDec_toDigits (n : Nat) :
    natDec n = (Nat.toDigits 10 n).map fun c => UInt8.ofNat c.toNat := by
  induction n using Nat.strongRecOn with
  | _ n ih =>
    rw [natDec]
    split
    · rename_i h
      rw [Nat.toDigits_of_lt_base h]
      simp [digitChar_toNat n h]
    · rename_i h
      rw [Nat.toDigits_of_base_le (by omega) (by omega), ih (n / 10) (by omega)]
      simp [digitChar_toNat (n % 10) (by omega)]

theorem decNat_eq (n : Nat) : decNat n = natDec n := by
  rw [natDec_toDigits, decNat, ascii, show toString n = n.repr from rfl, Nat.repr_eq_ofList_toDigits]
  simp

theorem decInt_eq (i : Int) : decInt i = intDec i := by
  have hr : ∀ n : Nat, (n.repr.toList.map fun c => UInt8.ofNat c.toNat) = natDec n := by
    intro n
    rw [natDec_toDigits, Nat.repr_eq_ofList_toDigits]; simp
  rw [decInt, ascii, show toString i = i.repr from rfl, Int.repr_eq_if, intDec]
  by_cases h : 0 ≤ i
  · rw [if_pos h, if_neg (by omega), hr]; congr 1; omega
  · rw [if_neg h, if_pos (by omega)]
    simp only [String.toList_append, List.map_append, hr]
    rw [show (-i).toNat = i.natAbs by omega]
    rfl

theorem natDec_ne_nil (n : Nat) : natDec n ≠ [] := by
  rw [natDec]; split <;> simp

theorem isDigit_ofNat (n : Nat) (h : n < 10) : isDigit (UInt8.ofNat (48 + n)) = true := by
  have : n = 0 ∨ n = 1 ∨ n = 2 ∨ n = 3 ∨ n = 4 ∨ n = 5 ∨ n = 6 ∨ n = 7 ∨ n = 8 ∨ n = 9 := by omega
  rcases this with h | h | h | h | h | h | h | h | h | h <;> subst h <;> rfl

theorem natDec_digits (n : Nat) : ∀ c ∈ natDec n, isDigit c = true := by
  induction n using Nat.strongRecOn with
  | _ n ih =>
    rw [natDec]
    split
    · rename_i h; intro c hc; simp only [List.mem_singleton] at hc; subst hc; exact isDigit_ofNat n h
    · intro c hc
      simp only [List.mem_append, List.mem_singleton] at hc
      rcases hc with hc | hc
      · exact ih (n / 10) (by omega) c hc
      · subst hc; exact isDigit_ofNat _ (by omega)

theorem digitsVal_append (ds : Bytes) (d : UInt8) :
    digitsVal (ds ++ [d]) = 10 * digitsVal ds + (d.toNat - 48) := by
  simp [digitsVal]

theorem digitsVal_natDec (n : Nat) : digitsVal (natDec n) = n := by
  induction n using Nat.strongRecOn with
  | _ n ih =>
    rw [natDec]
    split
    · rename_i h; simp [digitsVal]; omega
    · rename_i h
      rw [digitsVal_append, ih (n / 10) (by omega)]
      simp; omega

theorem natDec_cons (n : Nat) : ∃ c r, natDec n = c :: r ∧ isDigit c = true := by
  cases h : natDec n with
  | nil => exact absurd h (natDec_ne_nil n)
  | cons c r => exact ⟨c, r, rfl, natDec_digits n c (by simp [h])⟩

/-- the first digit of a decimal number is 0 only for the number 0 -/
theorem natDec_head_zero (n : Nat) (r : Bytes) (h : natDec n = 48 :: r) : n = 0 ∧ r = [] := by
  induction n using Nat.strongRecOn generalizing r with
  | _ n ih =>
    rw [natDec] at h
    split at h
    · rename_i hn
      simp only [List.cons.injEq] at h
      have hh := congrArg UInt8.toNat h.1
      simp at hh
      refine ⟨by omega, h.2.symm⟩
    · rename_i hn
      obtain ⟨c, r', hc, _⟩ := natDec_cons (n / 10)
      rw [hc] at h
      simp only [List.cons_append, List.cons.injEq] at h
      have := ih (n / 10) (by omega) r' (by rw [hc, h.1])
      omega

theorem parseDigits_natDec (n : Nat) (h : n < 2 ^ 63) : parseDigits (natDec n) = some n := by
  unfold parseDigits
  rw [if_neg (by simp [natDec_ne_nil]), digitsVal_natDec, if_pos h]

theorem parseDigits_natDec_big (n : Nat) (h : ¬ n < 2 ^ 63) : parseDigits (natDec n) = none := by
  unfold parseDigits
  rw [if_neg (by simp [natDec_ne_nil]), digitsVal_natDec, if_neg h]

theorem takeWhile_digits (ds : Bytes) (c : UInt8) (r : Bytes)
    (h : ∀ d ∈ ds, isDigit d = true) (hc : isDigit c = false) :
    (ds ++ c :: r).takeWhile isDigit = ds := by
  rw [List.takeWhile_append_of_pos h]
  simp [hc]

theorem dropWhile_digits (ds : Bytes) (c : UInt8) (r : Bytes)
    (h : ∀ d ∈ ds, isDigit d = true) (hc : isDigit c = false) :
    (ds ++ c :: r).dropWhile isDigit = c :: r := by
  rw [List.dropWhile_append_of_pos h]
  simp [hc]

/-! ### byte-string order -/

theorem bytesLe_iff (a b : Bytes) : bytesLe a b = true ↔ ¬ b < a := by
  induction a generalizing b with
  | nil => simp [bytesLe]
  | cons x xs ih =>
    cases b with
    | nil => simp [bytesLe]
    | cons y ys =>
      rw [bytesLe, List.cons_lt_cons_iff]
      split
      · rename_i h; simp only [true_iff, not_or, not_and]
        refine ⟨by simpa using UInt8.le_of_lt h, ?_⟩
        rintro rfl; simp at h
      · rename_i h
        split
        · rename_i h2; simp [h2]
        · rename_i h2
          have : x = y := UInt8.le_antisymm (UInt8.not_lt.mp h2) (UInt8.not_lt.mp h)
          subst this
          simp [ih ys]

theorem bytesLe_refl (a : Bytes) : bytesLe a a = true := by
  rw [bytesLe_iff]; exact List.lt_irrefl a

theorem bytesLe_trans (a b c : Bytes) (h1 : bytesLe a b = true) (h2 : bytesLe b c = true) :
    bytesLe a c = true := by
  rw [bytesLe_iff] at *
  exact fun h => absurd (List.not_lt.mp h1) (fun hab => by
    have := List.le_trans hab (List.not_lt.mp h2)
    exact (List.not_lt.mpr this) h)

theorem bytesLe_total (a b : Bytes) : (bytesLe a b || bytesLe b a) = true := by
  rw [Bool.or_eq_true, bytesLe_iff, bytesLe_iff]
  by_cases h : b < a
  · right; exact List.lt_asymm h
  · left; exact h

theorem bytesLe_antisymm (a b : Bytes) (h1 : bytesLe a b = true) (h2 : bytesLe b a = true) : a = b := by
  rw [bytesLe_iff] at *
  exact List.le_antisymm (List.not_lt.mp h1) (List.not_lt.mp h2)

theorem lt_of_bytesLe_ne {a b : Bytes} (h : bytesLe a b = true) (hne : a ≠ b) : a < b := by
  by_cases hlt : a < b
  · exact hlt
  · exact absurd (bytesLe_antisymm a b h ((bytesLe_iff b a).mpr hlt)) hne

theorem bytesLe_of_lt {a b : Bytes} (h : a < b) : bytesLe a b = true := by
  rw [bytesLe_iff]; exact List.lt_asymm h

end Verif.Bencode
