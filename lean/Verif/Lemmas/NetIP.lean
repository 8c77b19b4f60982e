import Verif.Spec.NetIP
import Verif.Model.NetIP
/-
Lemmas about `net.ParseIP`.
-/
set_option autoImplicit false

namespace Verif.NetIP
open Verif.Bencode Verif.Bencode.Spec Verif.Peer Verif.Dial Verif.NetIP.Spec

/- hexadecimal digits -/

theorem hexDigit_all : ∀ i : Fin 256, ∀ d : Fin 16, (hexDigit (UInt8.ofNat i.val) = some d.val ↔
    ((ascii "0123456789abcdef")[d.val]? = some (UInt8.ofNat i.val) ∨ (ascii "0123456789ABCDEF")[d.val]? = some (UInt8.ofNat i.val))) := by
  decide +kernel

theorem hexDigit_lt {c : UInt8} {d : Nat} (h : hexDigit c = some d) : d < 16 := by
  unfold hexDigit at h
  simp only [UInt8.le_iff_toNat_le] at h
  repeat' split at h
  all_goals first | cases h | skip
  · rename_i h1; have := h1.2; simp at this; omega
  · rename_i h1; have := h1.2; simp at this; omega
  · rename_i h1; have := h1.2; simp at this; omega

theorem digit_lt {c : UInt8} {d : Nat} (h : Digit c d) : d < 16 := by
  rcases h with h | h <;>
  · have := (List.getElem?_eq_some_iff.mp h).1
    exact Nat.lt_of_lt_of_le this (by decide)

theorem digit_iff (c : UInt8) (d : Nat) : Digit c d ↔ hexDigit c = some d := by
  have key : ∀ hd : d < 16, (hexDigit c = some d ↔ Digit c d) := fun hd => by
    have := hexDigit_all ⟨c.toNat, c.toNat_lt⟩ ⟨d, hd⟩
    simpa [Digit] using this
  exact ⟨fun h => (key (digit_lt h)).mpr h, fun h => (key (hexDigit_lt h)).mp h⟩

/-- all characters are digits, and what the number becomes -/
inductive Run : Nat → Bytes → Nat → Prop where
  | nil (n : Nat) : Run n [] n
  | cons (n : Nat) (c : UInt8) (d : Nat) (t : Bytes) (m : Nat) : hexDigit c = some d → Run (n * 16 + d) t m → Run n (c :: t) m

theorem run_snoc {n m : Nat} {t : Bytes} (h : Run n t m) {c : UInt8} {d : Nat} (hc : hexDigit c = some d) : Run n (t ++ [c]) (m * 16 + d) := by
  induction h with
  | nil n => exact .cons _ _ _ _ _ hc (.nil _)
  | cons n c' d' t m h' _ ih => exact .cons _ _ _ _ _ h' ih

theorem hex_run {t : Bytes} {n : Nat} (h : Hex t n) : Run 0 t n := by
  induction h with
  | nil => exact .nil 0
  | snoc t n c d _ hc ih => exact run_snoc ih ((digit_iff c d).mp hc)

theorem run_hex {t0 : Bytes} {n m : Nat} {t : Bytes} (h0 : Hex t0 n) (h : Run n t m) : Hex (t0 ++ t) m := by
  induction h generalizing t0 with
  | nil n => simpa using h0
  | cons n c d t m hc _ ih =>
    have := ih (.snoc t0 n c d h0 ((digit_iff c d).mpr hc))
    simpa using this

theorem run_le {n m : Nat} {t : Bytes} (h : Run n t m) : n ≤ m := by
  induction h with
  | nil n => exact Nat.le_refl _
  | cons n c d t m _ _ ih => omega

/-- the text does not begin with a digit -/
def Stop (s : Bytes) : Prop := ∀ c, s.head? = some c → hexDigit c = none

theorem xtoi_some {n i : Nat} {s : Bytes} {m : Nat} {rest : Bytes} (h : xtoi n i s = some (m, rest)) :
    ∃ t, s = t ++ rest ∧ Run n t m ∧ (i = 0 → t ≠ []) ∧ Stop rest := by
  induction s generalizing n i with
  | nil =>
    simp only [xtoi] at h
    split at h
    · cases h
    · cases h; exact ⟨[], rfl, .nil _, fun h => absurd h (by assumption), fun c hc => by cases hc⟩
  | cons c r ih =>
    simp only [xtoi] at h
    cases hd : hexDigit c with
    | some d =>
      rw [hd] at h
      simp only at h
      split at h
      · cases h
      · obtain ⟨t, h1, h2, _, h4⟩ := ih h
        exact ⟨c :: t, by rw [h1]; rfl, .cons _ _ _ _ _ hd h2, fun _ => by simp, h4⟩
    | none =>
      rw [hd] at h
      simp only at h
      split at h
      · cases h
      · cases h; exact ⟨[], rfl, .nil _, fun h => absurd h (by assumption), fun c' hc => by cases hc; exact hd⟩

theorem xtoi_run {n m : Nat} {t : Bytes} (h : Run n t m) (hm : m < big) (rest : Bytes) (hr : Stop rest) (i : Nat) (hi : i = 0 → t ≠ []) :
    xtoi n i (t ++ rest) = some (m, rest) := by
  induction h generalizing i with
  | nil n =>
    have : i ≠ 0 := fun h => hi h rfl
    cases rest with
    | nil => simp only [List.nil_append, xtoi, if_neg this]
    | cons c r => simp only [List.nil_append, xtoi, hr c rfl, if_neg this]
  | cons n c d t m hc ht ih =>
    have := run_le ht
    simp only [List.cons_append, xtoi, hc]
    rw [if_neg (by omega)]
    exact ih hm (i + 1) (by omega)

/- decimal digits -/

theorem digitsVal_snoc (t : Bytes) (c : UInt8) : digitsVal (t ++ [c]) = digitsVal t * 10 + (c.toNat - 48) := by
  simp [digitsVal, List.foldl_append, Nat.mul_comm]

theorem foldl_digitsVal (t : Bytes) : t.foldl (fun n c => n * 10 + (c.toNat - 48)) 0 = digitsVal t := by
  simp [digitsVal, Nat.mul_comm]

theorem natDec_of_digits (t : Bytes) (h : t ≠ []) (hd : ∀ c ∈ t, isDigit c = true) (hz : t.head? = some 48 → t.length ≤ 1) : natDec (digitsVal t) = t := by
  induction hn : t.length generalizing t with
  | zero => exact absurd (List.length_eq_zero_iff.mp hn) h
  | succ k ih =>
    rcases List.eq_nil_or_concat t with h0 | ⟨t', c, rfl⟩
    · exact absurd h0 h
    rw [List.concat_eq_append] at *
    have hc : isDigit c = true := hd c (by simp)
    have hc' : 48 ≤ c.toNat ∧ c.toNat ≤ 57 := by
      simp [isDigit, UInt8.le_iff_toNat_le] at hc; omega
    have hu : UInt8.ofNat (48 + (c.toNat - 48)) = c := by
      rw [Nat.add_sub_cancel' hc'.1]; simp
    rw [digitsVal_snoc]
    by_cases ht : t' = []
    · subst ht
      rw [natDec, if_pos (by simp [digitsVal]; omega)]
      simp [digitsVal, hu]
    · have hne : t'.head? ≠ some 48 := fun hh => by
        have : (t' ++ [c]).head? = some 48 := by cases t' with | nil => exact absurd rfl ht | cons x y => simpa using hh
        have := hz this
        cases t' with
        | nil => exact ht rfl
        | cons x y => simp at this
      have hi := ih t' ht (fun x hx => hd x (by simp [hx])) (fun h => absurd h hne) (by simp at hn; omega)
      have hpos : 0 < digitsVal t' := by
        apply Nat.pos_of_ne_zero
        intro h0
        rw [h0] at hi
        rw [← hi] at hne
        exact hne (by rw [natDec]; rfl)
      rw [natDec, if_neg (by omega), show (digitsVal t' * 10 + (c.toNat - 48)) / 10 = digitsVal t' by omega,
        show (digitsVal t' * 10 + (c.toNat - 48)) % 10 = c.toNat - 48 by omega, hi, hu]

/-- the text does not begin with a decimal digit -/
def Stop10 (s : Bytes) : Prop := ∀ c, s.head? = some c → isDigit c = false

theorem isDigit_iff (c : UInt8) : isDigit c = true ↔ 48 ≤ c ∧ c ≤ 57 := by simp [isDigit]

theorem dtoi_some {n i : Nat} {s : Bytes} {m k : Nat} {rest : Bytes} (h : dtoi n i s = some (m, k, rest)) :
    ∃ t, s = t ++ rest ∧ (∀ c ∈ t, isDigit c = true) ∧ m = t.foldl (fun n c => n * 10 + (c.toNat - 48)) n ∧ k = i + t.length ∧ (i = 0 → t ≠ []) ∧ Stop10 rest := by
  induction s generalizing n i with
  | nil =>
    simp only [dtoi] at h
    split at h
    · cases h
    · cases h; exact ⟨[], rfl, by simp, rfl, rfl, fun h => absurd h (by assumption), fun c hc => by cases hc⟩
  | cons c r ih =>
    simp only [dtoi] at h
    split at h
    · rename_i hc
      split at h
      · cases h
      · obtain ⟨t, h1, h2, h3, h4, _, h6⟩ := ih h
        exact ⟨c :: t, by rw [h1]; rfl, fun x hx => by
          rcases List.mem_cons.mp hx with rfl | hx
          · exact (isDigit_iff _).mpr hc
          · exact h2 x hx, h3, by simp; omega, fun _ => by simp, h6⟩
    · rename_i hc
      split at h
      · cases h
      · cases h
        exact ⟨[], rfl, by simp, rfl, rfl, fun h => absurd h (by assumption), fun c' hc' => by
          cases hc'
          cases hh : isDigit c with
          | false => rfl
          | true => exact absurd ((isDigit_iff c).mp hh) hc⟩

theorem foldl_ge (t : Bytes) (n : Nat) : n ≤ t.foldl (fun n c => n * 10 + (c.toNat - 48)) n := by
  induction t generalizing n with
  | nil => exact Nat.le_refl _
  | cons c t ih => exact Nat.le_trans (by show n ≤ n * 10 + (c.toNat - 48); omega) (ih _)

theorem dtoi_run (t : Bytes) (ht : ∀ c ∈ t, isDigit c = true) (rest : Bytes) (hr : Stop10 rest) (n i : Nat) (hi : i = 0 → t ≠ [])
    (hm : t.foldl (fun n c => n * 10 + (c.toNat - 48)) n < big) :
    dtoi n i (t ++ rest) = some (t.foldl (fun n c => n * 10 + (c.toNat - 48)) n, i + t.length, rest) := by
  induction t generalizing n i with
  | nil =>
    have : i ≠ 0 := fun h => hi h rfl
    cases rest with
    | nil => simp only [List.nil_append, dtoi, if_neg this]; rfl
    | cons c r =>
      have hc : ¬ (48 ≤ c ∧ c ≤ 57) := fun h => by
        have := hr c rfl
        rw [(isDigit_iff c).mpr h] at this
        cases this
      simp only [List.nil_append, dtoi, if_neg this, if_neg hc]; rfl
  | cons c t ih =>
    have hc := (isDigit_iff c).mp (ht c (by simp))
    have hge := foldl_ge t (n * 10 + (c.toNat - 48))
    simp only [List.foldl_cons] at hm
    simp only [List.cons_append, dtoi, if_pos hc]
    rw [if_neg (by omega), ih (fun x hx => ht x (by simp [hx])) _ (i + 1) (by omega) hm]
    simp; omega

theorem v4num {s : Bytes} {a : UInt8} {r : Bytes} :
    (match dtoi 0 0 s with
      | none => none
      | some (n, c, r) => if n > 255 then none else if c > 1 ∧ s.head? = some 48 then none else some (UInt8.ofNat n, r)) = some (a, r) ↔
    s = natDec a.toNat ++ r ∧ Stop10 r := by
  constructor
  · intro h
    cases hd : dtoi 0 0 s with
    | none => rw [hd] at h; cases h
    | some x =>
      obtain ⟨n, c, r'⟩ := x
      rw [hd] at h
      simp only at h
      split at h
      · cases h
      rename_i hn
      split at h
      · cases h
      rename_i hz
      cases h
      obtain ⟨t, h1, h2, h3, h4, h5, h6⟩ := dtoi_some hd
      refine ⟨?_, h6⟩
      have hv : n = digitsVal t := by rw [← foldl_digitsVal]; exact h3
      have : (UInt8.ofNat n).toNat = n := by simp; omega
      rw [this, hv, natDec_of_digits t (h5 rfl) h2, ← h1]
      intro hh
      apply Nat.le_of_not_lt
      intro hl
      apply hz
      refine ⟨by omega, ?_⟩
      rw [h1]
      cases t with
      | nil => cases hh
      | cons x y => simpa using hh
  · rintro ⟨h, hs⟩
    have hv : (natDec a.toNat).foldl (fun n c => n * 10 + (c.toNat - 48)) 0 = a.toNat := by rw [foldl_digitsVal, digitsVal_natDec]
    have ha := a.toNat_lt
    have := dtoi_run (natDec a.toNat) (natDec_digits _) r hs 0 0 (fun _ => natDec_ne_nil _) (by rw [hv]; unfold big; omega)
    rw [hv] at this
    rw [h, this]
    simp only
    rw [if_neg (by omega), if_neg]
    · simp
    · rintro ⟨h1, h2⟩
      obtain ⟨c, r', hc, _⟩ := natDec_cons a.toNat
      rw [hc] at h2
      simp at h2
      subst h2
      have := (natDec_head_zero _ _ hc).2
      rw [hc, this] at h1
      simp at h1

theorem v4Part_first {s : Bytes} {a : UInt8} {r : Bytes} : v4Part true s = some (a, r) ↔ s = natDec a.toNat ++ r ∧ Stop10 r := by
  rw [← v4num]; rfl

theorem v4Part_next {s : Bytes} {a : UInt8} {r : Bytes} : v4Part false s = some (a, r) ↔ s = 46 :: (natDec a.toNat ++ r) ∧ Stop10 r := by
  cases s with
  | nil => simp [v4Part]
  | cons c s =>
    by_cases hc : c = 46
    · subst hc
      have : v4Part false (46 :: s) = v4Part true s := rfl
      rw [this, v4Part_first]; simp
    · have : v4Part false (c :: s) = none := by
        unfold v4Part
        simp only [Bool.false_eq_true, if_false]
        split
        · rfl
        · rename_i h
          split at h
          · rename_i heq; simp at heq; exact absurd heq.1 hc
          · cases h
      rw [this]; simp [hc]

theorem stop10_dot (r : Bytes) : Stop10 (46 :: r) := fun c hc => by cases hc; decide

theorem parseIPv4_iff (s : Bytes) (ip : IP) : parseIPv4 s = some ip ↔ ∃ a b c d, s = dotted (a, b, c, d) ∧ ip = IPv4 a b c d := by
  have e : ascii "." = [46] := by decide
  constructor
  · intro h
    unfold parseIPv4 at h
    cases h1 : v4Part true s with
    | none => rw [h1] at h; cases h
    | some x =>
      obtain ⟨a, s1⟩ := x
      rw [h1] at h
      simp only at h
      cases h2 : v4Part false s1 with
      | none => rw [h2] at h; cases h
      | some x =>
        obtain ⟨b, s2⟩ := x
        rw [h2] at h
        simp only at h
        cases h3 : v4Part false s2 with
        | none => rw [h3] at h; cases h
        | some x =>
          obtain ⟨c, s3⟩ := x
          rw [h3] at h
          simp only at h
          cases h4 : v4Part false s3 with
          | none => rw [h4] at h; cases h
          | some x =>
            obtain ⟨d, s4⟩ := x
            rw [h4] at h
            simp only at h
            split at h
            · rename_i h5
              cases h
              refine ⟨a, b, c, d, ?_, rfl⟩
              rw [(v4Part_first.mp h1).1, (v4Part_next.mp h2).1, (v4Part_next.mp h3).1, (v4Part_next.mp h4).1, h5]
              simp [dotted, decNat_eq, e]
            · cases h
  · rintro ⟨a, b, c, d, rfl, rfl⟩
    unfold parseIPv4
    have h1 : v4Part true (dotted (a, b, c, d)) = some (a, 46 :: (natDec b.toNat ++ (46 :: (natDec c.toNat ++ (46 :: natDec d.toNat))))) :=
      v4Part_first.mpr ⟨by simp [dotted, decNat_eq, e], stop10_dot _⟩
    have h2 := (v4Part_next (a := b)).mpr ⟨rfl, stop10_dot (natDec c.toNat ++ (46 :: natDec d.toNat))⟩
    have h3 := (v4Part_next (a := c)).mpr ⟨rfl, stop10_dot (natDec d.toNat)⟩
    have h4 : v4Part false (46 :: natDec d.toNat) = some (d, []) := v4Part_next.mpr ⟨by simp, fun c hc => by cases hc⟩
    rw [h1]
    simp only
    rw [h2]
    simp only
    rw [h3]
    simp only
    rw [h4]
    simp

/- groups -/

theorem pair_bytes (a b : UInt8) : pair (a.toNat * 256 + b.toNat) = [a, b] := by
  have ha := a.toNat_lt
  have hb := b.toNat_lt
  unfold pair
  rw [show (a.toNat * 256 + b.toNat) / 256 = a.toNat by omega, show (a.toNat * 256 + b.toNat) % 256 = b.toNat by omega]
  simp

theorem group_xtoi {t : Bytes} {a b : UInt8} (h : Group t a b) (rest : Bytes) (hr : Stop rest) :
    xtoi 0 0 (t ++ rest) = some (a.toNat * 256 + b.toNat, rest) := by
  have ha := a.toNat_lt
  have hb := b.toNat_lt
  exact xtoi_run (hex_run h.2) (by unfold big; omega) rest hr 0 (fun _ => h.1)

theorem xtoi_group {s : Bytes} {n : Nat} {rest : Bytes} (h : xtoi 0 0 s = some (n, rest)) (hn : ¬ n > 0xFFFF) :
    ∃ t a b, s = t ++ rest ∧ Group t a b ∧ pair n = [a, b] ∧ Stop rest := by
  obtain ⟨t, h1, h2, h3, h4⟩ := xtoi_some h
  refine ⟨t, UInt8.ofNat (n / 256), UInt8.ofNat (n % 256), h1, ⟨h3 rfl, ?_⟩, rfl, h4⟩
  have := run_hex .nil h2
  rw [show (UInt8.ofNat (n / 256)).toNat = n / 256 by simp; omega, show (UInt8.ofNat (n % 256)).toNat = n % 256 by simp,
    show n / 256 * 256 + n % 256 = n by omega]
  simpa using this

theorem stop_colon (r : Bytes) : Stop (58 :: r) := fun c hc => by cases hc; decide
theorem stop_dot (r : Bytes) : Stop (46 :: r) := fun c hc => by cases hc; decide
theorem stop_nil : Stop [] := fun c hc => by cases hc

theorem run_digits {n m : Nat} {t : Bytes} (h : Run n t m) : ∀ c ∈ t, hexDigit c ≠ none := by
  induction h with
  | nil => simp
  | cons n c d t m hc _ ih =>
    intro x hx
    rcases List.mem_cons.mp hx with rfl | hx
    · simp [hc]
    · exact ih x hx

theorem group_digits {t : Bytes} {a b : UInt8} (h : Group t a b) : ∀ c ∈ t, hexDigit c ≠ none := run_digits (hex_run h.2)

theorem group_cons {t : Bytes} {a b : UInt8} (h : Group t a b) : ∃ c r, t = c :: r ∧ hexDigit c ≠ none := by
  cases t with
  | nil => exact absurd rfl h.1
  | cons c r => exact ⟨c, r, rfl, group_digits h c (by simp)⟩

theorem run_bound {n m : Nat} {t : Bytes} (h : Run n t m) : m + 1 ≤ (n + 1) * 16 ^ t.length := by
  induction h with
  | nil => simp
  | cons n c d t m hc _ ih =>
    have := hexDigit_lt hc
    rw [List.length_cons, Nat.pow_succ, Nat.mul_comm _ 16, ← Nat.mul_assoc]
    exact Nat.le_trans ih (Nat.mul_le_mul_right _ (by omega))

theorem digits_run (t : Bytes) (h : ∀ c ∈ t, isDigit c = true) (n : Nat) : ∃ m, Run n t m := by
  induction t generalizing n with
  | nil => exact ⟨n, .nil n⟩
  | cons c t ih =>
    obtain ⟨m, hm⟩ := ih (fun x hx => h x (by simp [hx])) (n * 16 + (c.toNat - 48))
    refine ⟨m, .cons _ _ _ _ _ ?_ hm⟩
    unfold hexDigit
    rw [if_pos ((isDigit_iff c).mp (h c (by simp)))]

theorem natDec_short (n : Nat) (h : n < 256) : (natDec n).length ≤ 3 := by
  rw [natDec]
  split
  · simp
  · rw [List.length_append, natDec]
    split
    · simp
    · rw [List.length_append, natDec, if_pos (by omega)]; simp

theorem dotted_head (a b c d : UInt8) : ∃ n r, xtoi 0 0 (dotted (a, b, c, d)) = some (n, 46 :: r) ∧ ¬ n > 0xFFFF := by
  have e : ascii "." = [46] := by decide
  obtain ⟨m, hm⟩ := digits_run (natDec a.toNat) (natDec_digits _) 0
  have hb := run_bound hm
  have hl := natDec_short a.toNat a.toNat_lt
  have hp : 16 ^ (natDec a.toNat).length ≤ 16 ^ 3 := Nat.pow_le_pow_right (by decide) hl
  have hm' : m + 1 ≤ 4096 := by omega
  refine ⟨m, natDec b.toNat ++ (46 :: (natDec c.toNat ++ (46 :: natDec d.toNat))), ?_, by omega⟩
  have := xtoi_run hm (by unfold big; omega) (46 :: (natDec b.toNat ++ (46 :: (natDec c.toNat ++ (46 :: natDec d.toNat))))) (stop_dot _) 0 (fun _ => natDec_ne_nil _)
  rw [← this]
  simp [dotted, decNat_eq, e]

theorem tail_ne {t bs : Bytes} (h : Tail t bs) : ∃ c r, t = c :: r ∧ hexDigit c ≠ none := by
  cases h with
  | one t a b h => exact group_cons h
  | quad a b c d =>
    obtain ⟨x, r, hc, hd⟩ := natDec_cons a.toNat
    refine ⟨x, _, by simp only [dotted, decNat_eq, hc, List.cons_append]; rfl, ?_⟩
    unfold hexDigit
    rw [if_pos ((isDigit_iff x).mp hd)]; simp
  | more t a b t' bs h _ =>
    obtain ⟨c, r, rfl, hc⟩ := group_cons h
    exact ⟨c, _, by simp only [List.cons_append]; rfl, hc⟩

theorem tail_len {t bs : Bytes} (h : Tail t bs) : 2 ≤ bs.length := by
  induction h <;> simp

theorem colon_one : ascii ":" = [58] := by decide
theorem colon_two : ascii "::" = [58, 58] := by decide

/-- the loop on the text of groups, the last of which may be IPv4 -/
theorem loop_tail {t bs : Bytes} (h : Tail t bs) (k : Nat) (acc : Bytes) (ell : Option Nat) (hk : acc.length + 2 * k = 16)
    (hl : acc.length + bs.length ≤ 16) (he : ell ≠ none ∨ acc.length + bs.length = 16) : v6Loop k acc ell t = some (acc ++ bs, ell, []) := by
  induction h generalizing k acc with
  | one t a b h =>
    simp only [List.length_cons, List.length_nil] at hl he
    obtain ⟨k, rfl⟩ : ∃ j, k = j + 1 := ⟨k - 1, by omega⟩
    have ha := a.toNat_lt
    have hb := b.toNat_lt
    have := group_xtoi h [] stop_nil
    rw [List.append_nil] at this
    simp only [v6Loop, this]
    rw [if_neg (by omega), pair_bytes]
  | quad a b c d =>
    simp only [List.length_cons, List.length_nil] at hl he
    obtain ⟨k, rfl⟩ : ∃ j, k = j + 1 := ⟨k - 1, by omega⟩
    obtain ⟨n, r, h1, h2⟩ := dotted_head a b c d
    have h3 := (parseIPv4_iff (dotted (a, b, c, d)) (IPv4 a b c d)).mpr ⟨a, b, c, d, rfl, rfl⟩
    simp only [v6Loop, h1]
    rw [if_neg h2, if_pos trivial, if_neg (fun hh => by rcases he with h | h; exact h hh.1; exact hh.2 (by omega)), if_neg (by omega), h3]
    rfl
  | more t a b t' bs h ht ih =>
    simp only [List.length_cons] at hl he
    obtain ⟨k, rfl⟩ : ∃ j, k = j + 1 := ⟨k - 1, by omega⟩
    have ha := a.toNat_lt
    have hb := b.toNat_lt
    obtain ⟨c, r, rfl, hc⟩ := tail_ne ht
    have := group_xtoi h (58 :: c :: r) (stop_colon _)
    rw [colon_one, List.append_assoc, List.singleton_append]
    have hc58 : c ≠ 58 := fun hh => by rw [hh] at hc; exact hc (by decide)
    simp only [v6Loop, this]
    rw [if_neg (by omega), if_neg (by decide), if_neg (by simp), if_neg hc58, pair_bytes, ih k (acc ++ [a, b]) (by simp; omega) (by simp; omega)
      (he.imp id fun h => by simp; omega)]
    simp

/-- the loop on the text of groups and two colons -/
theorem loop_gap {t b : Bytes} (h : Groups t b) (k : Nat) (acc : Bytes) (hk : acc.length + 2 * k = 16) (hl : acc.length + b.length ≤ 16) (t' : Bytes) :
    v6Loop k acc none (t ++ 58 :: 58 :: t') = if t' = [] then some (acc ++ b, some (acc.length + b.length), []) else
      v6Loop (k - b.length / 2) (acc ++ b) (some (acc.length + b.length)) t' := by
  induction h generalizing k acc with
  | one t a b h =>
    simp only [List.length_cons, List.length_nil] at hl
    obtain ⟨k, rfl⟩ : ∃ j, k = j + 1 := ⟨k - 1, by omega⟩
    have ha := a.toNat_lt
    have hb := b.toNat_lt
    simp only [v6Loop, group_xtoi h (58 :: 58 :: t') (stop_colon _)]
    rw [if_neg (by omega), if_neg (by decide), if_neg (by simp), if_pos trivial, if_neg (by simp), pair_bytes]
    simp
  | more t a b t'' bs h ht ih =>
    simp only [List.length_cons] at hl
    obtain ⟨k, rfl⟩ : ∃ j, k = j + 1 := ⟨k - 1, by omega⟩
    have ha := a.toNat_lt
    have hb := b.toNat_lt
    obtain ⟨c, r, rfl, hc⟩ : ∃ c r, t'' = c :: r ∧ hexDigit c ≠ none := by
      cases ht with
      | one _ _ _ h => exact group_cons h
      | more _ _ _ _ _ h _ =>
        obtain ⟨c, r, rfl, hc⟩ := group_cons h
        exact ⟨c, _, by simp only [List.cons_append]; rfl, hc⟩
    have hc58 : c ≠ 58 := fun hh => by rw [hh] at hc; exact hc (by decide)
    have := group_xtoi h (58 :: c :: (r ++ 58 :: 58 :: t')) (stop_colon _)
    have e : t ++ ascii ":" ++ c :: r ++ 58 :: 58 :: t' = t ++ (58 :: c :: (r ++ 58 :: 58 :: t')) := by simp [colon_one]
    rw [e]
    have hi := ih k (acc ++ [a, b]) (by simp; omega) (by simp; omega)
    simp only [v6Loop, this]
    rw [if_neg (by omega), if_neg (by decide), if_neg (by simp), if_neg hc58, pair_bytes]
    rw [List.cons_append] at hi
    rw [hi]
    have e2 : (acc ++ [a, b]).length + bs.length = acc.length + (a :: b :: bs).length := by simp; omega
    have e3 : k - bs.length / 2 = k + 1 - (a :: b :: bs).length / 2 := by simp; omega
    rw [e2, e3, List.append_assoc]
    rfl

/-- what the loop accepts once there are two colons -/
theorem loop_some {k : Nat} {acc : Bytes} {e : Nat} {s : Bytes} {acc' : Bytes} {ell' : Option Nat} (hs : s ≠ []) (hk : acc.length + 2 * k = 16)
    (h : v6Loop k acc (some e) s = some (acc', ell', [])) : ell' = some e ∧ ∃ bs, acc' = acc ++ bs ∧ Tail s bs ∧ acc'.length ≤ 16 := by
  induction k generalizing acc s with
  | zero => simp only [v6Loop] at h; cases h; exact absurd rfl hs
  | succ k ih =>
    simp only [v6Loop] at h
    cases hx : xtoi 0 0 s with
    | none => rw [hx] at h; cases h
    | some x =>
      obtain ⟨n, rest⟩ := x
      rw [hx] at h
      simp only at h
      split at h
      · cases h
      rename_i hn
      obtain ⟨t, a, b, h1, h2, h3, h4⟩ := xtoi_group hx hn
      rw [h3] at h
      cases rest with
      | nil =>
        simp only at h
        cases h
        exact ⟨rfl, [a, b], rfl, by rw [h1, List.append_nil]; exact .one t a b h2, by simp; omega⟩
      | cons c r =>
        simp only at h
        split at h
        · rw [if_neg (by simp)] at h
          split at h
          · cases h
          rename_i hl
          cases hp : parseIPv4 s with
          | none => rw [hp] at h; cases h
          | some ip4 =>
            rw [hp] at h
            cases h
            obtain ⟨x, y, z, w, hs, rfl⟩ := (parseIPv4_iff _ _).mp hp
            exact ⟨rfl, [x, y, z, w], rfl, by rw [hs]; exact .quad x y z w, by simp [IPv4]; omega⟩
        · split at h
          · cases h
          rename_i hc
          have hc : c = 58 := Classical.not_not.mp hc
          subst hc
          cases r with
          | nil => cases h
          | cons d r' =>
            simp only at h
            split at h
            · rw [if_pos (by simp)] at h; cases h
            · obtain ⟨g1, bs, g2, g3, g4⟩ := ih (by simp) (by simp; omega) h
              refine ⟨g1, a :: b :: bs, by rw [g2]; simp, ?_, g4⟩
              have := Tail.more t a b _ _ h2 g3
              rw [colon_one] at this
              rw [h1]; simpa using this

/-- what the loop accepts as long as there are not -/
theorem loop_none {k : Nat} {acc : Bytes} {s : Bytes} {acc' : Bytes} {ell' : Option Nat} (hs : s ≠ []) (hk : acc.length + 2 * k = 16)
    (h : v6Loop k acc none s = some (acc', ell', [])) :
    (ell' = none ∧ ∃ bs, acc' = acc ++ bs ∧ Tail s bs ∧ acc'.length ≤ 16) ∨
    ∃ t b t' b', s = t ++ 58 :: 58 :: t' ∧ Groups t b ∧ (Tail t' b' ∨ t' = [] ∧ b' = []) ∧ acc' = acc ++ b ++ b' ∧ ell' = some (acc.length + b.length) ∧ acc'.length ≤ 16 := by
  induction k generalizing acc s with
  | zero => simp only [v6Loop] at h; cases h; exact absurd rfl hs
  | succ k ih =>
    simp only [v6Loop] at h
    cases hx : xtoi 0 0 s with
    | none => rw [hx] at h; cases h
    | some x =>
      obtain ⟨n, rest⟩ := x
      rw [hx] at h
      simp only at h
      split at h
      · cases h
      rename_i hn
      obtain ⟨t, a, b, h1, h2, h3, h4⟩ := xtoi_group hx hn
      rw [h3] at h
      cases rest with
      | nil =>
        simp only at h
        cases h
        exact .inl ⟨rfl, [a, b], rfl, by rw [h1, List.append_nil]; exact .one t a b h2, by simp; omega⟩
      | cons c r =>
        simp only at h
        split at h
        · split at h
          · cases h
          split at h
          · cases h
          rename_i hl
          cases hp : parseIPv4 s with
          | none => rw [hp] at h; cases h
          | some ip4 =>
            rw [hp] at h
            cases h
            obtain ⟨x, y, z, w, hs, rfl⟩ := (parseIPv4_iff _ _).mp hp
            exact .inl ⟨rfl, [x, y, z, w], rfl, by rw [hs]; exact .quad x y z w, by simp [IPv4]; omega⟩
        · split at h
          · cases h
          rename_i hc
          have hc : c = 58 := Classical.not_not.mp hc
          subst hc
          cases r with
          | nil => cases h
          | cons d r' =>
            simp only at h
            split at h
            · rename_i hd
              subst hd
              rw [if_neg (by simp)] at h
              refine .inr ?_
              split at h
              · rename_i hr
                cases h
                exact ⟨t, [a, b], [], [], by rw [h1, hr], .one t a b h2, .inr ⟨rfl, rfl⟩, by simp, rfl, by simp; omega⟩
              · rename_i hr
                obtain ⟨g1, bs, g2, g3, g4⟩ := loop_some hr (by simp; omega) h
                exact ⟨t, [a, b], r', bs, h1, .one t a b h2, .inl g3, g2, g1, g4⟩
            · rcases ih (by simp) (by simp; omega) h with ⟨g1, bs, g2, g3, g4⟩ | ⟨t1, b1, t', b', g1, g2, g3, g4, g5, g6⟩
              · refine .inl ⟨g1, a :: b :: bs, by rw [g2]; simp, ?_, g4⟩
                have := Tail.more t a b _ _ h2 g3
                rw [colon_one] at this
                rw [h1]; simpa using this
              · have := Groups.more t a b _ _ h2 g2
                rw [colon_one] at this
                refine .inr ⟨t ++ [58] ++ t1, a :: b :: b1, t', b', ?_, this, g3, by rw [g4]; simp, by rw [g5]; simp; omega, g6⟩
                rw [h1, g1]; simp

theorem v6End_gap (b b' : Bytes) (h : b.length + b'.length < 16) :
    v6End (b ++ b', some b.length, []) = some (b ++ List.replicate (16 - (b ++ b').length) 0 ++ b') := by
  unfold v6End
  simp only [List.length_append]
  rw [if_neg (by simp), if_pos h]
  simp

theorem groups_head {t b : Bytes} (h : Groups t b) : ∃ c r, t = c :: r ∧ hexDigit c ≠ none := by
  cases h with
  | one _ _ _ h => exact group_cons h
  | more _ _ _ _ _ h _ =>
    obtain ⟨c, r, rfl, hc⟩ := group_cons h
    exact ⟨c, _, by simp only [List.cons_append]; rfl, hc⟩

theorem groups_even {t b : Bytes} (h : Groups t b) : b.length % 2 = 0 := by
  induction h with
  | one => simp
  | more _ _ _ _ _ _ _ ih => simp only [List.length_cons]; omega

theorem parse6_head {s : Bytes} {c : UInt8} {r : Bytes} (hs : s = c :: r) (h : hexDigit c ≠ none) : parseIPv6 s = (v6Loop 8 [] none s).bind v6End := by
  unfold parseIPv6
  split
  · cases hs; exact absurd (by decide) h
  · rfl

theorem tail_even {t b : Bytes} (h : Tail t b) : b.length % 2 = 0 := by
  induction h with
  | one => simp
  | quad => simp
  | more _ _ _ _ _ _ _ ih => simp only [List.length_cons]; omega

theorem parseIPv6_iff (s : Bytes) (ip : IP) : parseIPv6 s = some ip ↔ Six s ip := by
  constructor
  · intro h
    have main : ∀ r, r ≠ [] → (v6Loop 8 [] none r).bind v6End = some ip → Six r ip := fun r hr h => by
      cases hl : v6Loop 8 [] none r with
      | none => rw [hl] at h; cases h
      | some x =>
        obtain ⟨acc', ell', rest⟩ := x
        rw [hl] at h
        simp only [Option.bind_some] at h
        have hrest : rest = [] := by
          unfold v6End at h
          split at h
          · cases h
          · rename_i h0; exact Classical.not_not.mp h0
        subst hrest
        rcases loop_none hr (by simp) hl with ⟨rfl, bs, h1, h2, h3⟩ | ⟨t, b, t', b', h1, h2, h3, h4, rfl, h6⟩
        · unfold v6End at h
          rw [List.nil_append] at h1
          subst h1
          simp only at h
          rw [if_neg (by simp)] at h
          split at h
          · cases h
          · rw [if_neg (by simp)] at h
            cases h
            exact .full _ _ h2 (by omega)
        · rw [List.nil_append] at h4
          subst h4
          rw [List.length_nil, Nat.zero_add] at h
          have hlt : b.length + b'.length < 16 := by
            apply Nat.lt_of_not_le
            intro hge
            unfold v6End at h
            simp only [List.length_append] at h
            rw [if_neg (by simp), if_neg (by omega), if_pos (by simp)] at h
            cases h
          rw [v6End_gap b b' hlt] at h
          cases h
          have := Six.gap t t' b b' (16 - (b ++ b').length) (.inl h2) h3 (by simp; omega) (by simp; omega)
          rw [colon_two] at this
          rw [h1]; simpa using this
    unfold parseIPv6 at h
    split at h
    · rename_i r
      split at h
      · rename_i hr
        cases h
        subst hr
        exact .gap [] [] [] [] 16 (.inr ⟨rfl, rfl⟩) (.inr ⟨rfl, rfl⟩) (by decide) rfl
      · rename_i hr
        cases hl : v6Loop 8 [] (some 0) r with
        | none => rw [hl] at h; cases h
        | some x =>
          obtain ⟨acc', ell', rest⟩ := x
          rw [hl] at h
          simp only [Option.bind_some] at h
          have hrest : rest = [] := by
            unfold v6End at h
            split at h
            · cases h
            · rename_i h0; exact Classical.not_not.mp h0
          subst hrest
          obtain ⟨rfl, bs, h1, h2, h3⟩ := loop_some hr (by simp) hl
          rw [List.nil_append] at h1
          subst h1
          have hlt : acc'.length < 16 := by
            apply Nat.lt_of_not_le
            intro hge
            unfold v6End at h
            simp only at h
            rw [if_neg (by simp), if_neg (by omega), if_pos (by simp)] at h
            cases h
          have := v6End_gap [] acc' (by simpa using hlt)
          simp only [List.nil_append, List.length_nil] at this
          rw [this] at h
          cases h
          exact .gap [] r [] acc' (16 - acc'.length) (.inr ⟨rfl, rfl⟩) (.inl h2) (by omega) (by simp; omega)
    · exact main s (fun h0 => by subst h0; cases h) h
  · intro h
    cases h with
    | full _ _ ht hl =>
      obtain ⟨c, r, hs, hc⟩ := tail_ne ht
      rw [parse6_head hs hc, loop_tail ht 8 [] none (by simp) (by simp; omega) (.inr (by simpa using hl))]
      simp only [Option.bind_some, List.nil_append]
      unfold v6End
      simp only
      rw [if_neg (by simp), if_neg (by omega), if_neg (by simp)]
    | gap t t' b b' z hg ht hz hl =>
      have hzz : z = 16 - (b ++ b').length := by simp; omega
      rcases hg with hg | ⟨rfl, rfl⟩
      · obtain ⟨c, r, hs, hc⟩ := groups_head hg
        have hev := groups_even hg
        have e : t ++ ascii "::" ++ t' = t ++ 58 :: 58 :: t' := by simp [colon_two]
        rw [e, parse6_head (by rw [hs]; rfl) hc, loop_gap hg 8 [] (by simp) (by simp; omega) t']
        rcases ht with ht | ⟨rfl, rfl⟩
        · obtain ⟨c', r', hs', _⟩ := tail_ne ht
          rw [if_neg (by rw [hs']; simp), loop_tail ht _ _ _ (by simp; omega) (by simp; omega) (.inl (by simp))]
          simp only [Option.bind_some, List.nil_append, List.length_nil, Nat.zero_add]
          rw [v6End_gap b b' (by omega), ← hzz]
        · rw [if_pos rfl]
          simp only [Option.bind_some, List.nil_append, List.length_nil, Nat.zero_add]
          have := v6End_gap b [] (by simp at hl ⊢; omega)
          rw [← hzz, List.append_nil] at this
          exact this
      · rcases ht with ht | ⟨rfl, rfl⟩
        · obtain ⟨c', r', hs', _⟩ := tail_ne ht
          rw [List.nil_append, colon_two]
          show (if t' = [] then some (List.replicate 16 0) else (v6Loop 8 [] (some 0) t').bind v6End) = _
          simp only [List.length_nil, Nat.zero_add] at hl
          rw [if_neg (by rw [hs']; simp), loop_tail ht _ _ _ (by simp) (by simp; omega) (.inl (by simp))]
          simp only [Option.bind_some, List.nil_append]
          have := v6End_gap [] b' (by simp; omega)
          rw [← hzz] at this
          simpa using this
        · simp at hl
          subst hl
          rfl

/- which of the two is tried -/

theorem scan_skip (all pre : Bytes) (h : ∀ c ∈ pre, c ≠ 46 ∧ c ≠ 58) (s : Bytes) : parseScan all (pre ++ s) = parseScan all s := by
  induction pre with
  | nil => rfl
  | cons c pre ih =>
    have := h c (by simp)
    rw [List.cons_append, parseScan, if_neg this.1, if_neg this.2, ih fun x hx => h x (by simp [hx])]

theorem hexDigit_free {c : UInt8} (h : hexDigit c ≠ none) : c ≠ 46 ∧ c ≠ 58 :=
  ⟨fun hc => by rw [hc] at h; exact h (by decide), fun hc => by rw [hc] at h; exact h (by decide)⟩

theorem isDigit_free {c : UInt8} (h : isDigit c = true) : c ≠ 46 ∧ c ≠ 58 :=
  ⟨fun hc => by rw [hc] at h; revert h; decide, fun hc => by rw [hc] at h; revert h; decide⟩

theorem scan_dotted (a b c d : UInt8) : parseScan (dotted (a, b, c, d)) (dotted (a, b, c, d)) = parseIPv4 (dotted (a, b, c, d)) := by
  have e : dotted (a, b, c, d) = natDec a.toNat ++ 46 :: (natDec b.toNat ++ [46] ++ natDec c.toNat ++ [46] ++ natDec d.toNat) := by
    simp [dotted, decNat_eq, show ascii "." = [46] by decide]
  generalize hx : dotted (a, b, c, d) = x at *
  rw [show parseScan x x = parseScan x (natDec a.toNat ++ 46 :: (natDec b.toNat ++ [46] ++ natDec c.toNat ++ [46] ++ natDec d.toNat)) by rw [← e],
    scan_skip _ _ (fun x hx => isDigit_free (natDec_digits _ x hx))]
  rfl

theorem scan_group {t : Bytes} {a b : UInt8} (h : Group t a b) (all r : Bytes) : parseScan all (t ++ 58 :: r) = parseIPv6 all := by
  rw [scan_skip _ _ (fun x hx => hexDigit_free (group_digits h x hx))]
  rfl

theorem scan_six {t : Bytes} {ip : IP} (h : Six t ip) : parseScan t t = parseIPv6 t := by
  cases h with
  | full _ _ h hl =>
    cases h with
    | one _ _ _ _ => simp at hl
    | quad => simp at hl
    | more t a b t' bs h _ =>
      have := scan_group h (t ++ ascii ":" ++ t') t'
      rw [← this, colon_one]; simp
  | gap t t' b b' z hg _ _ _ =>
    rw [colon_two]
    rcases hg with hg | ⟨rfl, rfl⟩
    · cases hg with
      | one t a b h =>
        have := scan_group h (t ++ [58, 58] ++ t') (58 :: t')
        rw [← this]; simp
      | more t a b t'' bs h _ =>
        have := scan_group h (t ++ ascii ":" ++ t'' ++ [58, 58] ++ t') (t'' ++ [58, 58] ++ t')
        rw [← this, colon_one]; simp
    · rfl

theorem six_len {t : Bytes} {ip : IP} (h : Six t ip) : ip.length = 16 := by
  cases h with
  | full _ _ _ h => exact h
  | gap t t' b b' z _ _ _ h => simp; omega

theorem names_len {t : Bytes} {ip : IP} (h : Names t ip) : ip.length = 16 := by
  cases h with
  | four => rfl
  | six _ _ h => exact six_len h

theorem scan_some {all s : Bytes} {ip : IP} (h : parseScan all s = some ip) : parseIPv4 all = some ip ∨ parseIPv6 all = some ip := by
  induction s with
  | nil => cases h
  | cons c s ih =>
    rw [parseScan] at h
    split at h
    · exact .inl h
    · split at h
      · exact .inr h
      · exact ih h

theorem scan_iff (t : Bytes) (ip : IP) : parseScan t t = some ip ↔ Names t ip := by
  constructor
  · intro h
    rcases scan_some h with h | h
    · obtain ⟨a, b, c, d, rfl, rfl⟩ := (parseIPv4_iff _ _).mp h
      exact .four a b c d
    · exact .six _ _ ((parseIPv6_iff _ _).mp h)
  · intro h
    cases h with
    | four a b c d => rw [scan_dotted]; exact (parseIPv4_iff _ _).mpr ⟨a, b, c, d, rfl, rfl⟩
    | six _ _ h => rw [scan_six h]; exact (parseIPv6_iff _ _).mpr h

/- the text of an address -/

theorem hexChar_all : ∀ d : Fin 16, hexDigit (hexChar d.val) = some d.val := by decide

theorem hexLoop_run (i : Nat) : ∀ j, Run (i / 16 ^ j) (hexLoop i j) i := by
  intro j
  induction j with
  | zero => simp [hexLoop]; exact .nil i
  | succ j ih =>
    have e : i >>> (j * 4) = i / 16 ^ j := by rw [Nat.shiftRight_eq_div_pow, Nat.mul_comm, Nat.pow_mul]
    have e2 : i / 16 ^ (j + 1) = i / 16 ^ j / 16 := by rw [Nat.pow_succ, Nat.div_div_eq_div_mul]
    rw [hexLoop, e, e2]
    split
    · refine .cons _ _ (i / 16 ^ j % 16) _ _ (hexChar_all ⟨i / 16 ^ j % 16, Nat.mod_lt _ (by decide)⟩) ?_
      rw [show i / 16 ^ j / 16 * 16 + i / 16 ^ j % 16 = i / 16 ^ j by omega]
      exact ih
    · rename_i h
      have h0 : i / 16 ^ j = 0 := Nat.eq_zero_of_not_pos h
      rw [h0] at ih ⊢
      exact ih

theorem appendHex_group (a b : UInt8) : Group (appendHex (a.toNat * 256 + b.toNat)) a b := by
  have ha := a.toNat_lt
  have hb := b.toNat_lt
  unfold appendHex
  split
  · rename_i h
    refine ⟨by simp, ?_⟩
    rw [h]
    exact .snoc [] 0 48 0 .nil (.inl (by decide))
  · rename_i h
    have hr := hexLoop_run (a.toNat * 256 + b.toNat) 8
    rw [Nat.div_eq_of_lt (by omega)] at hr
    refine ⟨fun h0 => ?_, by simpa using run_hex .nil hr⟩
    rw [h0] at hr
    generalize a.toNat * 256 + b.toNat = x at *
    cases hr
    exact h rfl

end Verif.NetIP
