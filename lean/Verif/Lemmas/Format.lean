import Verif.Model.LoadText
import Verif.Spec.LoadText
/-
Helper lemmas for C105: formats without arguments.
-/
set_option autoImplicit false

namespace Verif.LoadText
open Verif.Bencode Verif.Size

theorem digit_iff (c : UInt8) : isDigit c = true ↔ 48 ≤ c ∧ c ≤ 57 := by
  simp [isDigit]

/-- where a number ends -/
def NoDigit (t : Bytes) : Prop := ∀ c, t.head? = some c → isDigit c = false

theorem parseNum_ok (ds : Bytes) : ∀ (n : Nat) (seen : Bool) (t : Bytes), (∀ d ∈ ds, isDigit d = true) → NoDigit t →
    (ds ≠ [] → n * 10 ^ ds.dropLast.length + decVal ds.dropLast ≤ 1000000) → (parseNum n seen (ds ++ t)).2 = t := by
  induction ds with
  | nil =>
    intro n seen t _ ht _
    cases t with
    | nil => rfl
    | cons c r => rw [List.nil_append, parseNum, if_neg (by rw [ht c rfl]; decide)]
  | cons c r ih =>
    intro n seen t hd ht hn
    have hc := hd c (by simp)
    have hn := hn (by simp)
    have hn' : n ≤ 1000000 := by
      have := Nat.le_mul_of_pos_right n (Nat.pow_pos (n := (c :: r).dropLast.length) (show 0 < 10 by decide))
      omega
    rw [List.cons_append, parseNum, if_pos hc, if_neg (by omega)]
    refine ih _ _ t (fun d h => hd d (by simp [h])) ht ?_
    intro hr
    rw [List.dropLast_cons_of_ne_nil hr] at hn
    simp only [decVal, List.length_cons, Nat.pow_succ] at hn
    calc (10 * n + (c.toNat - 48)) * 10 ^ r.dropLast.length + decVal r.dropLast
        = n * (10 ^ r.dropLast.length * 10) + ((c.toNat - 48) * 10 ^ r.dropLast.length + decVal r.dropLast) := by
          rw [Nat.add_mul, Nat.add_assoc, Nat.mul_comm 10 n, Nat.mul_assoc, Nat.mul_comm 10 (10 ^ _)]
      _ ≤ 1000000 := hn

theorem parseNum_large (ds : Bytes) : ∀ (n : Nat) (seen : Bool) (d : UInt8) (t : Bytes), (∀ d ∈ ds, isDigit d = true) → isDigit d = true →
    1000000 < n * 10 ^ ds.length + decVal ds → (parseNum n seen (ds ++ d :: t)) = (false, []) := by
  induction ds with
  | nil =>
    intro n seen d t _ hd hn
    simp only [List.length_nil, decVal, Nat.pow_zero, Nat.mul_one, Nat.add_zero] at hn
    rw [List.nil_append, parseNum, if_pos hd, if_pos hn]
  | cons c r ih =>
    intro n seen d t hr hd hn
    rw [List.cons_append, parseNum, if_pos (hr c (by simp))]
    split
    · rfl
    · refine ih _ _ d t (fun x hx => hr x (by simp [hx])) hd ?_
      simp only [decVal, List.length_cons, Nat.pow_succ] at hn
      calc 1000000 < n * (10 ^ r.length * 10) + ((c.toNat - 48) * 10 ^ r.length + decVal r) := hn
        _ = (10 * n + (c.toNat - 48)) * 10 ^ r.length + decVal r := by
          rw [Nat.add_mul, Nat.add_assoc, Nat.mul_comm 10 n, Nat.mul_assoc, Nat.mul_comm 10 (10 ^ _)]

theorem decVal_zeros (zs ds : Bytes) (h : ∀ z ∈ zs, z = 48) : decVal (zs ++ ds) = decVal ds := by
  induction zs with
  | nil => rfl
  | cons z zs ih =>
    rw [h z (by simp), List.cons_append, decVal, ih (fun x hx => h x (by simp [hx]))]
    simp

/-- the end of the text, or a byte that belongs neither to flags, numbers, precision nor an index -/
def Tail (t : Bytes) : Prop := ∀ c, t.head? = some c → isDigit c = false ∧ isFlag c = false ∧ c ≠ 42 ∧ c ≠ 46 ∧ c ≠ 91

theorem Tail.noDigit {t : Bytes} (h : Tail t) : NoDigit t := fun c hc => (h c hc).1

theorem drop_flags (fs x : Bytes) (hf : ∀ f ∈ fs, isFlag f = true) (hx : ∀ c, x.head? = some c → isFlag c = false) : (fs ++ x).dropWhile isFlag = x := by
  induction fs with
  | nil =>
    cases x with
    | nil => rfl
    | cons c r => rw [List.nil_append, List.dropWhile_cons_of_neg (by rw [hx c rfl]; decide)]
  | cons f fs ih =>
    rw [List.cons_append, List.dropWhile_cons_of_pos (hf f (by simp)), ih (fun g hg => hf g (by simp [hg]))]

theorem argNumber_none {x : Bytes} (h : x.head? ≠ some 91) : argNumber x = (true, false, x) := by
  unfold argNumber
  split
  · exact absurd rfl h
  · rfl

theorem width_num {x : Bytes} (h : x.head? ≠ some 42) : width false x = ([], true, false, (parseNum 0 false x).2) := by
  unfold width
  split
  · exact absurd rfl h
  · rfl

theorem precision_none {x : Bytes} (h : x.head? ≠ some 46) : precision false x = ([], true, false, x) := by
  unfold precision
  split
  · exact absurd rfl h
  · rfl

theorem precision_num {r : Bytes} (h : r.head? ≠ some 91) (h' : r.head? ≠ some 42) : precision false (46 :: r) = ([], true, false, (parseNum 0 false r).2) := by
  unfold precision
  simp only [argNumber_none h]
  split
  · exact absurd rfl h'
  · rfl

theorem flag_of (c : UInt8) : isFlag c = true ↔ c ∈ ascii "#0+- " := by
  simp [isFlag, ascii, or_assoc]

theorem digit_not {c : UInt8} (h : isDigit c = true) : c ≠ 42 ∧ c ≠ 46 ∧ c ≠ 91 ∧ c ≠ 35 ∧ c ≠ 43 ∧ c ≠ 45 ∧ c ≠ 32 := by
  refine ⟨?_, ?_, ?_, ?_, ?_, ?_, ?_⟩ <;> (rintro rfl; exact absurd h (by decide))

/-- the first byte of a number followed by something -/
theorem number_head {ds x : Bytes} {c : UInt8} (hd : ∀ d ∈ ds, isDigit d = true) (h : (ds ++ x).head? = some c) :
    (ds.head? = some c ∧ isDigit c = true) ∨ (ds = [] ∧ x.head? = some c) := by
  cases ds with
  | nil => exact .inr ⟨rfl, h⟩
  | cons d ds => cases h; exact .inl ⟨rfl, hd _ (by simp)⟩

theorem after_width {p po t : Bytes} (hp : Precision p po) (ht : Tail t) :
    (∀ c, (p ++ t).head? = some c → isDigit c = false ∧ isFlag c = false ∧ c ≠ 42 ∧ c ≠ 91) ∧ precision false (p ++ t) = (po, true, false, t) := by
  cases hp with
  | none =>
    refine ⟨fun c hc => ⟨(ht c hc).1, (ht c hc).2.1, (ht c hc).2.2.1, (ht c hc).2.2.2.2⟩, precision_none ?_⟩
    intro h
    exact (ht _ h).2.2.2.1 rfl
  | number zs ds hz hn =>
    obtain ⟨h1, -, h3⟩ := hn
    have hd : ∀ d ∈ zs ++ ds, isDigit d = true := by
      intro d hd
      rcases List.mem_append.mp hd with h | h
      · rw [hz d h]; decide
      · exact (digit_iff d).mpr (h1 d h)
    refine ⟨fun c hc => by cases hc; decide, ?_⟩
    have hh : ∀ c, (zs ++ ds ++ t).head? = some c → c ≠ 91 ∧ c ≠ 42 := by
      intro c hc
      rcases number_head hd hc with ⟨-, h⟩ | ⟨-, h⟩
      · exact ⟨(digit_not h).2.2.1, (digit_not h).1⟩
      · exact ⟨(ht c h).2.2.2.2, (ht c h).2.2.1⟩
    rw [show ascii "." ++ zs ++ ds ++ t = 46 :: (zs ++ ds ++ t) by simp [ascii]]
    rw [precision_num (fun h => (hh _ h).1 rfl) (fun h => (hh _ h).2 rfl)]
    rw [parseNum_ok (zs ++ ds) 0 false t hd ht.noDigit]
    intro hne
    by_cases hds : ds = []
    · subst hds
      rw [List.append_nil, Nat.zero_mul, Nat.zero_add]
      rw [show zs.dropLast = zs.dropLast ++ [] by simp, decVal_zeros _ _ (fun z h => hz z (List.dropLast_subset _ h))]
      simp [decVal]
    · rw [List.dropLast_append_of_ne_nil hds, Nat.zero_mul, Nat.zero_add, decVal_zeros _ _ hz]
      exact h3
  | star =>
    refine ⟨fun c hc => by cases hc; decide, ?_⟩
    rfl

/-- the number in front of a directive's verb is read as a whole -/
theorem directive_head {h ho t : Bytes} (hh : Head h ho) (ht : Tail t) : directive (h ++ t) = (ho ++ (verb true t).1, (verb true t).2) := by
  obtain ⟨fs, w, wo, p, po, hf, hw, hp⟩ := hh
  obtain ⟨hx, hprec⟩ := after_width hp ht
  have hb : argNumber t = (true, false, t) := argNumber_none (fun h => (ht _ h).2.2.2.2 rfl)
  have hw' : (∀ c, (w ++ (p ++ t)).head? = some c → isFlag c = false ∧ c ≠ 91) ∧ width false (w ++ (p ++ t)) = (wo, true, false, p ++ t) := by
    cases hw with
    | number ds hn =>
      obtain ⟨h1, h2, h3⟩ := hn
      have hd : ∀ d ∈ w, isDigit d = true := fun d h => (digit_iff d).mpr (h1 d h)
      have hc : ∀ c, (w ++ (p ++ t)).head? = some c → isFlag c = false ∧ c ≠ 91 ∧ c ≠ 42 := by
        intro c hc
        rcases number_head hd hc with ⟨h, hdg⟩ | ⟨-, h⟩
        · obtain ⟨n1, n2, n3, n4, n5, n6, n7⟩ := digit_not hdg
          refine ⟨?_, n3, n1⟩
          have n8 : c ≠ 48 := by rintro rfl; exact h2 h
          simp [isFlag, n4, n5, n6, n7, n8]
        · exact ⟨(hx c h).2.1, (hx c h).2.2.2, (hx c h).2.2.1⟩
      refine ⟨fun c h => ⟨(hc c h).1, (hc c h).2.1⟩, ?_⟩
      rw [width_num (fun h => (hc _ h).2.2 rfl), parseNum_ok w 0 false (p ++ t) hd (fun c h => (hx c h).1)]
      intro _
      rw [Nat.zero_mul, Nat.zero_add]
      exact h3
    | star => exact ⟨fun c hc => by cases hc; decide, rfl⟩
  have ha : (fs ++ w ++ p ++ t).dropWhile isFlag = w ++ (p ++ t) := by
    rw [List.append_assoc, List.append_assoc]
    exact drop_flags fs _ (fun f h => (flag_of f).mpr (hf f h)) (fun c h => (hw'.1 c h).1)
  unfold directive
  simp only [ha, argNumber_none (fun h => (hw'.1 _ h).2 rfl), hw'.2, hprec, hb]
  simp

theorem verb_tail {c : UInt8} (h : Verb c) (r : Bytes) : Tail (c :: r) ∧ verb true (c :: r) = (ascii "%!" ++ [c] ++ ascii "(MISSING)", r) := by
  obtain ⟨h1, h2, h3⟩ := h
  simp only [ascii] at h3
  simp at h3
  obtain ⟨a1, a2, a3, a4, a5, a6, a7, a8⟩ := h3
  refine ⟨?_, ?_⟩
  · intro x hx
    cases hx
    refine ⟨?_, ?_, a5, a6, a7⟩
    · cases hd : isDigit c with
      | false => rfl
      | true => exact absurd ((digit_iff c).mp hd) h2
    · have : c ≠ 48 := by rintro rfl; exact h2 (by decide)
      simp [isFlag, a1, a2, a3, a4, this]
  · unfold verb
    simp only
    rw [if_neg a8]
    unfold verbOf
    simp only [h1, if_true]

theorem percent_tail (r : Bytes) : Tail (37 :: r) := by
  intro c h
  cases h
  decide

theorem parseNum_seen (ds : Bytes) : ∀ (n : Nat) (seen : Bool) (t : Bytes), (∀ d ∈ ds, isDigit d = true) → NoDigit t → (ds ≠ [] ∨ seen = true) →
    (ds ≠ [] → n * 10 ^ ds.dropLast.length + decVal ds.dropLast ≤ 1000000) → parseNum n seen (ds ++ t) = (true, t) := by
  induction ds with
  | nil =>
    intro n seen t _ ht hs _
    have hs : seen = true := by simpa using hs
    subst hs
    cases t with
    | nil => rfl
    | cons c r => rw [List.nil_append, parseNum, if_neg (by rw [ht c rfl]; decide)]
  | cons c r ih =>
    intro n seen t hd ht _ hn
    have hc := hd c (by simp)
    have hn := hn (by simp)
    have hn' : n ≤ 1000000 := by
      have := Nat.le_mul_of_pos_right n (Nat.pow_pos (n := (c :: r).dropLast.length) (show 0 < 10 by decide))
      omega
    rw [List.cons_append, parseNum, if_pos hc, if_neg (by omega)]
    refine ih _ _ t (fun d h => hd d (by simp [h])) ht (.inr rfl) ?_
    intro hr
    rw [List.dropLast_cons_of_ne_nil hr] at hn
    simp only [decVal, List.length_cons, Nat.pow_succ] at hn
    calc (10 * n + (c.toNat - 48)) * 10 ^ r.dropLast.length + decVal r.dropLast
        = n * (10 ^ r.dropLast.length * 10) + ((c.toNat - 48) * 10 ^ r.dropLast.length + decVal r.dropLast) := by
          rw [Nat.add_mul, Nat.add_assoc, Nat.mul_comm 10 n, Nat.mul_assoc, Nat.mul_comm 10 (10 ^ _)]
      _ ≤ 1000000 := hn

/-- a number that is read to its end -/
theorem parseNum_conv (k : Bytes) : ∀ (n : Nat) (seen : Bool), parseNum n seen k = (true, []) →
    (∀ d ∈ k, isDigit d = true) ∧ (k ≠ [] ∨ seen = true) ∧ (k ≠ [] → n * 10 ^ k.dropLast.length + decVal k.dropLast ≤ 1000000) := by
  induction k with
  | nil => intro n seen h; rw [parseNum] at h; simp at h; simp [h]
  | cons c r ih =>
    intro n seen h
    rw [parseNum] at h
    split at h
    · rename_i hc
      split at h
      · cases h
      · rename_i hn
        obtain ⟨h1, -, h3⟩ := ih _ _ h
        refine ⟨fun d hd => ?_, .inl (by simp), fun _ => ?_⟩
        · rcases List.mem_cons.mp hd with rfl | hd
          · exact hc
          · exact h1 d hd
        · by_cases hr : r = []
          · subst hr; simp [decVal]; omega
          · rw [List.dropLast_cons_of_ne_nil hr]
            simp only [decVal, List.length_cons, Nat.pow_succ]
            have h4 : n * (10 ^ r.dropLast.length * 10) + ((c.toNat - 48) * 10 ^ r.dropLast.length + decVal r.dropLast)
                = (10 * n + (c.toNat - 48)) * 10 ^ r.dropLast.length + decVal r.dropLast := by
              rw [Nat.add_mul, Nat.add_assoc, Nat.mul_comm 10 n, Nat.mul_assoc, Nat.mul_comm 10 (10 ^ _)]
            rw [h4]
            exact h3 hr
    · simp at h

theorem index_iff (k : Bytes) : Index k ↔ parseNum 0 false k = (true, []) := by
  constructor
  · rintro ⟨h1, h2, h3⟩
    have := parseNum_seen k 0 false [] (fun d h => (digit_iff d).mpr (h2 d h)) (by intro c h; cases h) (.inl h1) (by intro _; omega)
    rwa [List.append_nil] at this
  · intro h
    obtain ⟨h1, h2, h3⟩ := parseNum_conv k 0 false h
    have hk : k ≠ [] := by simpa using h2
    have := h3 hk
    exact ⟨hk, fun d h => (digit_iff d).mp (h1 d h), by omega⟩

theorem parseNum_noDigit {t : Bytes} (ht : NoDigit t) (n : Nat) : parseNum n false t = (false, t) := by
  cases t with
  | nil => rfl
  | cons c r => rw [parseNum, if_neg (by rw [ht c rfl]; decide)]

theorem argNumber_index (k x : Bytes) (hk : 93 ∉ k) (hx : x ≠ [] ∨ k ≠ []) :
    ∃ b, argNumber (91 :: (k ++ 93 :: x)) = (false, b, x) ∧ (b = true ↔ Index k) := by
  have hl : ¬ (k ++ 93 :: x).length < 2 := by
    rcases hx with h | h
    · have := List.length_pos_iff.mpr h
      simp; omega
    · have := List.length_pos_iff.mpr h
      simp; omega
  have hd : (k ++ 93 :: x).dropWhile (· ≠ 93) = 93 :: x := by
    rw [List.dropWhile_append_of_pos (by intro a ha; simp; rintro rfl; exact hk ha)]
    simp
  have ht : (k ++ 93 :: x).takeWhile (· ≠ 93) = k := by
    rw [List.takeWhile_append_of_pos (by intro a ha; simp; rintro rfl; exact hk ha)]
    simp
  unfold argNumber
  simp only [if_neg hl, hd, ht]
  refine ⟨_, rfl, ?_⟩
  rw [index_iff]
  split
  · rename_i h; simp [h]
  · rename_i h
    constructor
    · intro h'; cases h'
    · intro h'; exact absurd h' (by simpa using h)

theorem precision_tail {t : Bytes} (ht : t.head? ≠ some 46) (b : Bool) : precision b t = ([], true, b, t) := by
  unfold precision
  split
  · exact absurd rfl ht
  · rfl

theorem width_tail {t : Bytes} (h : NoDigit t) (h' : t.head? ≠ some 42) (b : Bool) : width b t = ([], true, b, t) := by
  unfold width
  split
  · exact absurd rfl h'
  · rw [parseNum_noDigit h]; simp

/-- an index directly behind the flags -/
theorem directive_index {fs k t : Bytes} (hf : ∀ f ∈ fs, f ∈ ascii "#0+- ") (hk : 93 ∉ k) (ht : Tail t) (hne : t ≠ []) :
    directive (fs ++ 91 :: (k ++ 93 :: t)) = verb false t := by
  obtain ⟨b, hb, -⟩ := argNumber_index k t hk (.inl hne)
  have ha : (fs ++ 91 :: (k ++ 93 :: t)).dropWhile isFlag = 91 :: (k ++ 93 :: t) :=
    drop_flags fs _ (fun f h => (flag_of f).mpr (hf f h)) (by intro c h; cases h; decide)
  unfold directive
  simp only [ha, hb, width_tail ht.noDigit (fun h => (ht _ h).2.2.1 rfl), precision_tail (fun h => (ht _ h).2.2.2.1 rfl)]
  cases b with
  | true => simp
  | false => simp [argNumber_none (fun h => (ht _ h).2.2.2.2 rfl)]

theorem directive_bracket {fs k r : Bytes} (hf : ∀ f ∈ fs, f ∈ ascii "#0+- ") (hk : Index k) :
    directive (fs ++ 91 :: (k ++ 93 :: 91 :: r)) = (ascii "%![(BADINDEX)", r) := by
  have hk' : 93 ∉ k := by
    intro h
    have := (hk.2.1 _ h).2
    revert this; decide
  obtain ⟨b, hb, hi⟩ := argNumber_index k (91 :: r) hk' (.inl (by simp))
  have hb1 : b = true := hi.mpr hk
  subst hb1
  have ha : (fs ++ 91 :: (k ++ 93 :: 91 :: r)).dropWhile isFlag = 91 :: (k ++ 93 :: 91 :: r) :=
    drop_flags fs _ (fun f h => (flag_of f).mpr (hf f h)) (by intro c h; cases h; decide)
  unfold directive
  simp only [ha, hb, width_tail (t := 91 :: r) (by intro c h; cases h; decide) (by simp), precision_tail (t := 91 :: r) (by simp)]
  simp [verb, verbOf, ascii]

theorem directive_indices {fs k k' t : Bytes} (hf : ∀ f ∈ fs, f ∈ ascii "#0+- ") (hk : 93 ∉ k) (hn : ¬ Index k) (hk' : 93 ∉ k') (hne : t ≠ []) :
    directive (fs ++ 91 :: (k ++ 93 :: 91 :: (k' ++ 93 :: t))) = verb false t := by
  obtain ⟨b, hb, hi⟩ := argNumber_index k (91 :: (k' ++ 93 :: t)) hk (.inl (by simp))
  have hb1 : b = false := by
    cases b with
    | false => rfl
    | true => exact absurd (hi.mp rfl) hn
  subst hb1
  obtain ⟨b', hb', -⟩ := argNumber_index k' t hk' (.inl hne)
  have ha : (fs ++ 91 :: (k ++ 93 :: 91 :: (k' ++ 93 :: t))).dropWhile isFlag = 91 :: (k ++ 93 :: 91 :: (k' ++ 93 :: t)) :=
    drop_flags fs _ (fun f h => (flag_of f).mpr (hf f h)) (by intro c h; cases h; decide)
  unfold directive
  simp only [ha, hb, width_tail (t := 91 :: (k' ++ 93 :: t)) (by intro c h; cases h; decide) (by simp), precision_tail (t := 91 :: (k' ++ 93 :: t)) (by simp)]
  simp [hb']

theorem directive_unclosed {fs t : Bytes} (hf : ∀ f ∈ fs, f ∈ ascii "#0+- ") (hk : 93 ∉ t) (ht : Tail t) :
    directive (fs ++ 91 :: t) = verb false t := by
  have ha : (fs ++ 91 :: t).dropWhile isFlag = 91 :: t :=
    drop_flags fs _ (fun f h => (flag_of f).mpr (hf f h)) (by intro c h; cases h; decide)
  have hb : argNumber (91 :: t) = (false, false, t) := by
    unfold argNumber
    have hd : t.dropWhile (· ≠ 93) = [] := by
      have := List.dropWhile_append_of_pos (p := fun x : UInt8 => decide (x ≠ 93)) (l₁ := t) (l₂ := []) (by intro a ha; simp; rintro rfl; exact hk ha)
      simpa using this
    simp only [hd]
    split <;> rfl
  unfold directive
  simp only [ha, hb, width_tail ht.noDigit (fun h => (ht _ h).2.2.1 rfl), precision_tail (fun h => (ht _ h).2.2.2.1 rfl),
    argNumber_none (fun h => (ht _ h).2.2.2.2 rfl)]
  simp

theorem verb_bad {c : UInt8} (h : Verb c) (r : Bytes) : Tail (c :: r) ∧ verb false (c :: r) = (ascii "%!" ++ [c] ++ ascii "(BADINDEX)", r) := by
  refine ⟨(verb_tail h r).1, ?_⟩
  have h37 : c ≠ 37 := by rintro rfl; exact h.2.2 (by decide +kernel)
  unfold verb
  simp only
  rw [if_neg h37]
  unfold verbOf
  simp only [h.1, if_true]
  rfl

/-! characters -/

theorem isCont_iff (c : UInt8) : isCont c = true ↔ 128 ≤ c.toNat ∧ c.toNat ≤ 191 := by
  simp [isCont, UInt8.le_iff_toNat_le]

theorem toNat_of (n : Nat) (h : n < 256) : (UInt8.ofNat n).toNat = n := by
  rw [UInt8.toNat_ofNat']; omega

theorem verbOf_utf8 (v : Nat) (r : Bytes) (h : Scalar v) : verbOf (utf8 v ++ r) = (utf8 v, r) := by
  unfold utf8
  unfold Scalar at h
  split
  · rename_i h1
    simp only [List.cons_append, List.nil_append, verbOf]
    rw [if_pos (by rw [UInt8.lt_iff_toNat_lt, toNat_of _ (by omega)]; exact h1)]
  · split
    · rename_i h1 h2
      simp only [List.cons_append, List.nil_append, verbOf, isCont_iff, UInt8.lt_iff_toNat_lt, UInt8.le_iff_toNat_le]
      rw [toNat_of _ (by omega), toNat_of _ (by omega), if_neg (by simp; omega), if_pos ⟨by simp; omega, by simp; omega, by omega, by omega⟩]
    · split
      · rename_i h1 h2 h3
        simp only [List.cons_append, List.nil_append, verbOf, isCont_iff, UInt8.lt_iff_toNat_lt, UInt8.le_iff_toNat_le, ← UInt8.toNat_inj]
        rw [toNat_of _ (by omega), toNat_of _ (by omega), toNat_of _ (by omega), if_neg (by simp; omega), if_neg (by simp; omega), if_pos]
        refine ⟨?_, ?_, ⟨?_, ?_⟩, ⟨?_, ?_⟩, ?_, ?_⟩ <;> (try simp) <;> omega
      · rename_i h1 h2 h3
        simp only [List.cons_append, List.nil_append, verbOf, isCont_iff, UInt8.lt_iff_toNat_lt, UInt8.le_iff_toNat_le, ← UInt8.toNat_inj]
        rw [toNat_of _ (by omega), toNat_of _ (by omega), toNat_of _ (by omega), toNat_of _ (by omega), if_neg (by simp; omega), if_neg (by simp; omega),
          if_neg (by simp; omega), if_pos]
        refine ⟨?_, ?_, ⟨?_, ?_⟩, ⟨?_, ?_⟩, ⟨?_, ?_⟩, ?_, ?_⟩ <;> (try simp) <;> omega

theorem ofNat_toNat_eq (a : UInt8) (n : Nat) (h : n = a.toNat) : UInt8.ofNat n = a := by
  subst h; exact UInt8.ofNat_toNat

/-- what is not U+FFFD is a character -/
theorem verbOf_not (a : UInt8) (r : Bytes) (h : ∀ v, Scalar v → ¬ utf8 v <+: a :: r) : verbOf (a :: r) = ([239, 191, 189], r) := by
  have h0 : ¬ a < 128 := by
    intro ha
    have ha' : a.toNat < 128 := by simpa [UInt8.lt_iff_toNat_lt] using ha
    refine h a.toNat (.inl (by omega)) ⟨r, ?_⟩
    rw [utf8, if_pos ha', UInt8.ofNat_toNat]
    rfl
  simp only [verbOf]
  rw [if_neg h0]
  cases r with
  | nil => rfl
  | cons b r2 =>
    simp only
    have ha8 := a.toNat_lt
    have hb8 := b.toNat_lt
    rw [if_neg ?_]
    · cases r2 with
      | nil => rfl
      | cons c r3 =>
        simp only
        have hc8 := c.toNat_lt
        rw [if_neg ?_]
        · cases r3 with
          | nil => rfl
          | cons d r4 =>
            simp only
            rw [if_neg ?_]
            have hd8 := d.toNat_lt
            simp only [isCont_iff, UInt8.le_iff_toNat_le, ← UInt8.toNat_inj]
            simp
            intro h1 h2 h3 h4 h5 h6 h7 h8 h9
            apply Classical.byContradiction
            intro h10
            refine h ((a.toNat - 240) * 262144 + (b.toNat - 128) * 4096 + (c.toNat - 128) * 64 + (d.toNat - 128)) (.inr (by omega)) ⟨r4, ?_⟩
            rw [utf8, if_neg (by omega), if_neg (by omega), if_neg (by omega)]
            simp only [List.cons_append, List.nil_append]
            rw [ofNat_toNat_eq a _ (by omega), ofNat_toNat_eq b _ (by omega), ofNat_toNat_eq c _ (by omega), ofNat_toNat_eq d _ (by omega)]
        · simp only [isCont_iff, UInt8.le_iff_toNat_le, ← UInt8.toNat_inj]
          simp
          intro h1 h2 h3 h4 h5 h6 h7 
          apply Classical.byContradiction
          intro h10
          refine h ((a.toNat - 224) * 4096 + (b.toNat - 128) * 64 + (c.toNat - 128)) (by unfold Scalar; omega) ⟨r3, ?_⟩
          rw [utf8, if_neg (by omega), if_neg (by omega), if_pos (by omega)]
          simp only [List.cons_append, List.nil_append]
          rw [ofNat_toNat_eq a _ (by omega), ofNat_toNat_eq b _ (by omega), ofNat_toNat_eq c _ (by omega)]
    · simp only [isCont_iff, UInt8.le_iff_toNat_le]
      simp
      intro h1 h2 h3
      apply Classical.byContradiction
      intro h10
      refine h ((a.toNat - 192) * 64 + (b.toNat - 128)) (by unfold Scalar; omega) ⟨r2, ?_⟩
      rw [utf8, if_neg (by omega), if_pos (by omega)]
      simp only [List.cons_append, List.nil_append]
      rw [ofNat_toNat_eq a _ (by omega), ofNat_toNat_eq b _ (by omega)]

theorem high_tail {a : UInt8} (r : Bytes) (h : 128 ≤ a) : Tail (a :: r) ∧ a ≠ 37 := by
  have h' : 128 ≤ a.toNat := by simpa [UInt8.le_iff_toNat_le] using h
  have hne : ∀ n : UInt8, n.toNat < 128 → a ≠ n := by rintro n hn rfl; omega
  refine ⟨?_, hne 37 (by decide)⟩
  intro c hc
  cases hc
  refine ⟨?_, ?_, hne 42 (by decide), hne 46 (by decide), hne 91 (by decide)⟩
  · cases hd : isDigit a with
    | false => rfl
    | true =>
      have := ((digit_iff a).mp hd).2
      rw [UInt8.le_iff_toNat_le] at this
      simp at this
      omega
  · simp [isFlag, hne 35 (by decide), hne 48 (by decide), hne 43 (by decide), hne 45 (by decide), hne 32 (by decide)]

/-- the first byte of a character that is not ASCII -/
theorem utf8_head (v : Nat) (h : Scalar v) (hv : 128 ≤ v) : ∃ a t, utf8 v = a :: t ∧ 128 ≤ a := by
  unfold Scalar at h
  unfold utf8
  rw [if_neg (by omega)]
  split
  · exact ⟨_, _, rfl, by rw [UInt8.le_iff_toNat_le, toNat_of _ (by omega)]; simp; omega⟩
  · split
    · exact ⟨_, _, rfl, by rw [UInt8.le_iff_toNat_le, toNat_of _ (by omega)]; simp; omega⟩
    · exact ⟨_, _, rfl, by rw [UInt8.le_iff_toNat_le, toNat_of _ (by omega)]; simp; omega⟩

theorem noArgs_printed {f o : Bytes} (h : Printed f o) : ∀ n, f.length ≤ n → noArgs n f = o := by
  induction h with
  | nil => intro n _; cases n <;> rfl
  | char c r o hc _ ih =>
    intro n hn
    cases n with
    | zero => simp at hn
    | succ n => rw [noArgs, if_neg hc, ih n (by simpa using hn)]
  | percent h ho r o hh _ ih =>
    intro n hn
    rw [show ascii "%" ++ h ++ ascii "%" ++ r = 37 :: (h ++ 37 :: r) by simp [ascii]] at hn ⊢
    cases n with
    | zero => simp at hn
    | succ n =>
      rw [noArgs, if_pos rfl, directive_head hh (percent_tail r)]
      simp only [verb, if_true]
      rw [ih n (by simp at hn; omega)]
      simp [ascii]
  | verb h ho c r o hh hc _ ih =>
    intro n hn
    rw [show ascii "%" ++ h ++ [c] ++ r = 37 :: (h ++ c :: r) by simp [ascii]] at hn ⊢
    cases n with
    | zero => simp at hn
    | succ n =>
      rw [noArgs, if_pos rfl, directive_head hh (verb_tail hc r).1, (verb_tail hc r).2, ih n (by simp at hn; omega)]
      simp only [List.append_assoc]
  | rune h ho v r o hh hv hv' _ ih =>
    intro n hn
    rw [show ascii "%" ++ h ++ utf8 v ++ r = 37 :: (h ++ (utf8 v ++ r)) by simp [ascii]] at hn ⊢
    obtain ⟨a, t, he, ha⟩ := utf8_head v hv hv'
    have hw := verbOf_utf8 v r hv
    cases n with
    | zero => simp at hn
    | succ n =>
      have htail : Tail (utf8 v ++ r) ∧ verb true (utf8 v ++ r) = (ascii "%!" ++ utf8 v ++ ascii "(MISSING)", r) := by
        refine ⟨by rw [he]; exact (high_tail _ ha).1, ?_⟩
        rw [he, List.cons_append] at hw ⊢
        simp only [verb]
        rw [if_neg (high_tail (t ++ r) ha).2, hw]
        rfl
      rw [noArgs, if_pos rfl, directive_head hh htail.1, htail.2, ih n (by simp at hn; omega)]
      simp only [List.append_assoc]
  | notRune h ho a r o hh ha hv _ ih =>
    intro n hn
    rw [show ascii "%" ++ h ++ [a] ++ r = 37 :: (h ++ a :: r) by simp [ascii]] at hn ⊢
    cases n with
    | zero => simp at hn
    | succ n =>
      have hverb : verb true (a :: r) = (ascii "%!" ++ utf8 0xFFFD ++ ascii "(MISSING)", r) := by
        simp only [verb]
        rw [if_neg (high_tail r ha).2, verbOf_not a r hv]
        rfl
      rw [noArgs, if_pos rfl, directive_head hh (high_tail r ha).1, hverb, ih n (by simp at hn; omega)]
      simp only [List.append_assoc]
  | index fs k c r o hf hk hc _ ih =>
    intro n hn
    rw [show ascii "%" ++ fs ++ ascii "[" ++ k ++ ascii "]" ++ [c] ++ r = 37 :: (fs ++ 91 :: (k ++ 93 :: c :: r)) by simp [ascii]] at hn ⊢
    cases n with
    | zero => simp at hn
    | succ n =>
      rw [noArgs, if_pos rfl, directive_index hf hk (verb_bad hc r).1 (by simp), (verb_bad hc r).2, ih n (by simp at hn; omega)]
  | bracket fs k r o hf hk _ ih =>
    intro n hn
    rw [show ascii "%" ++ fs ++ ascii "[" ++ k ++ ascii "][" ++ r = 37 :: (fs ++ 91 :: (k ++ 93 :: 91 :: r)) by simp [ascii]] at hn ⊢
    cases n with
    | zero => simp at hn
    | succ n =>
      rw [noArgs, if_pos rfl, directive_bracket hf hk, ih n (by simp at hn; omega)]
  | indices fs k k' c r o hf hk hn' hk' hc _ ih =>
    intro n hn
    rw [show ascii "%" ++ fs ++ ascii "[" ++ k ++ ascii "][" ++ k' ++ ascii "]" ++ [c] ++ r = 37 :: (fs ++ 91 :: (k ++ 93 :: 91 :: (k' ++ 93 :: c :: r)))
      by simp [ascii]] at hn ⊢
    cases n with
    | zero => simp at hn
    | succ n =>
      rw [noArgs, if_pos rfl, directive_indices hf hk hn' hk' (by simp), (verb_bad hc r).2, ih n (by simp at hn; omega)]
  | unclosed fs c r o hf hr hc hc' _ ih =>
    intro n hn
    rw [show ascii "%" ++ fs ++ ascii "[" ++ [c] ++ r = 37 :: (fs ++ 91 :: (c :: r)) by simp [ascii]] at hn ⊢
    cases n with
    | zero => simp at hn
    | succ n =>
      rw [noArgs, if_pos rfl, directive_unclosed hf (by simp [hr, Ne.symm hc']) (verb_bad hc r).1, (verb_bad hc r).2, ih n (by simp at hn; omega)]
  | noVerb h ho hh =>
    intro n hn
    rw [show ascii "%" ++ h = 37 :: (h ++ []) by simp [ascii]] at hn ⊢
    cases n with
    | zero => simp at hn
    | succ n =>
      rw [noArgs, if_pos rfl, directive_head hh (by intro c h; cases h)]
      simp only [verb]
      cases n <;> simp [noArgs]
  | tooWide fs ds d r hf hds h0 hl hd1 hd2 =>
    intro n hn
    rw [show ascii "%" ++ fs ++ ds ++ [d] ++ r = 37 :: (fs ++ (ds ++ d :: r)) by simp [ascii]] at hn ⊢
    have hdd : ∀ x ∈ ds, isDigit x = true := fun x h => (digit_iff x).mpr (hds x h)
    have hne : ds ≠ [] := by rintro rfl; simp [decVal] at hl
    have hhead : ∀ c, (ds ++ d :: r).head? = some c → isFlag c = false ∧ c ≠ 91 ∧ c ≠ 42 := by
      intro c hc
      rcases number_head hdd hc with ⟨h, hdg⟩ | ⟨h, -⟩
      · obtain ⟨n1, n2, n3, n4, n5, n6, n7⟩ := digit_not hdg
        refine ⟨?_, n3, n1⟩
        have n8 : c ≠ 48 := by rintro rfl; exact h0 h
        simp [isFlag, n4, n5, n6, n7, n8]
      · exact absurd h hne
    have ha : (fs ++ (ds ++ d :: r)).dropWhile isFlag = ds ++ d :: r :=
      drop_flags fs _ (fun f h => (flag_of f).mpr (hf f h)) (fun c h => (hhead c h).1)
    have hdir : directive (fs ++ (ds ++ d :: r)) = (ascii "%!(NOVERB)", []) := by
      unfold directive
      simp only [ha, argNumber_none (fun h => (hhead _ h).2.1 rfl), width_num (fun h => (hhead _ h).2.2 rfl),
        parseNum_large ds 0 false d r hdd ((digit_iff d).mpr ⟨hd1, hd2⟩) (by rw [Nat.zero_mul, Nat.zero_add]; exact hl)]
      rfl
    cases n with
    | zero => simp at hn
    | succ n =>
      rw [noArgs, if_pos rfl, hdir]
      cases n <;> simp [noArgs]

end Verif.LoadText
