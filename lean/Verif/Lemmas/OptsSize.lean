import Verif.Lemmas.OptsText
import Verif.Lemmas.BencodeDoc
/-
Lemmas for C108: sizes.
-/
set_option autoImplicit false

namespace Verif.OptsText
open Verif.Utils Verif.Bencode Verif.Flags Verif.Args Verif.Size Spec

theorem upper_all (c : UInt8) : (isDigit (upper c) = isDigit c) ∧ (isDigit c = true → upper c = c) ∧ (upper c = 45 ↔ c = 45) ∧ (¬ c < 128 → isDigit c = false ∧ upper c = c ∧
    upper c ≠ 66 ∧ upper c ≠ 75 ∧ upper c ≠ 77 ∧ upper c ≠ 71 ∧ upper c ≠ 45) := by
  have h : ∀ n : Fin 256, (isDigit (upper (UInt8.ofNat n.val)) = isDigit (UInt8.ofNat n.val)) ∧ (isDigit (UInt8.ofNat n.val) = true → upper (UInt8.ofNat n.val) = UInt8.ofNat n.val) ∧
      (upper (UInt8.ofNat n.val) = 45 ↔ UInt8.ofNat n.val = 45) ∧ (¬ UInt8.ofNat n.val < 128 → isDigit (UInt8.ofNat n.val) = false ∧ upper (UInt8.ofNat n.val) = UInt8.ofNat n.val ∧
      upper (UInt8.ofNat n.val) ≠ 66 ∧ upper (UInt8.ofNat n.val) ≠ 75 ∧ upper (UInt8.ofNat n.val) ≠ 77 ∧ upper (UInt8.ofNat n.val) ≠ 71 ∧ upper (UInt8.ofNat n.val) ≠ 45) := by
    decide +kernel
  have := h ⟨c.toNat, c.toNat_lt⟩
  simpa using this

theorem up_ascii (c : UInt8) (s : Bytes) (h : c < 128) : toUpper (c :: s) = upper c :: toUpper s := by rw [toUpper.eq_def]; simp only; rw [if_pos h]

/-- what a character that is not ASCII becomes -/
theorem up_other (c : UInt8) (s : Bytes) (h : ¬ c < 128) : (s = [] ∧ toUpper (c :: s) = [c, c]) ∨
    (∃ s', c = 196 ∧ s = 177 :: s' ∧ toUpper (c :: s) = 73 :: toUpper s') ∨ (∃ s', c = 197 ∧ s = 191 :: s' ∧ toUpper (c :: s) = 83 :: toUpper s') ∨
    (s ≠ [] ∧ ¬ (c = 196 ∧ s.head? = some 177) ∧ ¬ (c = 197 ∧ s.head? = some 191) ∧ toUpper (c :: s) = c :: c :: toUpper s) := by
  cases s with
  | nil => left; refine ⟨rfl, ?_⟩; rw [toUpper.eq_def]; simp only; rw [if_neg h]
  | cons d s =>
    by_cases h1 : c = 196 ∧ d = 177
    · right; left; refine ⟨s, h1.1, by rw [h1.2], ?_⟩
      rw [toUpper.eq_def]; simp only; rw [if_neg h, if_pos h1]
    · by_cases h2 : c = 197 ∧ d = 191
      · right; right; left; refine ⟨s, h2.1, by rw [h2.2], ?_⟩
        rw [toUpper.eq_def]; simp only; rw [if_neg h, if_neg h1, if_pos h2]
      · right; right; right
        refine ⟨by simp, by simpa using h1, by simpa using h2, ?_⟩
        rw [toUpper.eq_def]; simp only; rw [if_neg h, if_neg h1, if_neg h2]

theorem up_nil : toUpper [] = [] := by rw [toUpper.eq_def]

theorem up_ne {s : Bytes} (h : s ≠ []) : toUpper s ≠ [] := by
  cases s with
  | nil => exact absurd rfl h
  | cons c s =>
    by_cases hc : c < 128
    · rw [up_ascii c s hc]; simp
    · rcases up_other c s hc with ⟨-, e⟩ | ⟨_, -, -, e⟩ | ⟨_, -, -, e⟩ | ⟨-, -, -, e⟩ <;> rw [e] <;> simp

theorem up_digits (s : Bytes) : (toUpper s).takeWhile isDigit = s.takeWhile isDigit ∧ (toUpper s).dropWhile isDigit = toUpper (s.dropWhile isDigit) := by
  induction s with
  | nil => rw [up_nil]; exact ⟨rfl, by simp [up_nil]⟩
  | cons c s ih =>
    by_cases hc : c < 128
    · rw [up_ascii c s hc, List.takeWhile_cons, List.dropWhile_cons, List.takeWhile_cons, List.dropWhile_cons, (upper_all c).1]
      by_cases hd : isDigit c = true
      · rw [if_pos hd, if_pos hd, if_pos hd, if_pos hd, (upper_all c).2.1 hd, ih.1, ih.2]; exact ⟨rfl, rfl⟩
      · rw [if_neg hd, if_neg hd, if_neg hd, if_neg hd, up_ascii c s hc]; exact ⟨rfl, rfl⟩
    · have hd := ((upper_all c).2.2.2 hc).1
      rw [List.takeWhile_cons, List.dropWhile_cons, hd]
      rcases up_other c s hc with ⟨-, e⟩ | ⟨s', -, -, e⟩ | ⟨s', -, -, e⟩ | ⟨-, -, -, e⟩
      · rw [e]; simp [hd, e]
      · rw [e]; simp [show isDigit 73 = false by decide, e]
      · rw [e]; simp [show isDigit 83 = false by decide, e]
      · rw [e]; simp [hd, e]

theorem up_head (c : UInt8) (s : Bytes) : (toUpper (c :: s)).head? = some 45 ↔ c = 45 := by
  by_cases hc : c < 128
  · rw [up_ascii c s hc]; simp [(upper_all c).2.2.1]
  · have h45 : c ≠ 45 := by rintro rfl; exact hc (by decide)
    rcases up_other c s hc with ⟨-, e⟩ | ⟨s', -, -, e⟩ | ⟨s', -, -, e⟩ | ⟨-, -, -, e⟩ <;> rw [e] <;> simp [h45]

/-- the upper case has one byte -/
theorem up_one (s : Bytes) : (∃ c, toUpper s = [c]) ↔ Lone s := by
  constructor
  · rintro ⟨x, h⟩
    cases s with
    | nil => rw [up_nil] at h; cases h
    | cons c s =>
      by_cases hc : c < 128
      · rw [up_ascii c s hc] at h
        simp only [List.cons.injEq] at h
        have : s = [] := by
          by_cases hs : s = []
          · exact hs
          · exact absurd h.2 (up_ne hs)
        subst this
        exact .inl ⟨c, rfl, by rw [UInt8.lt_iff_toNat_lt] at hc; exact hc⟩
      · have nil : ∀ t, toUpper t = [] → t = [] := fun t ht => by
          by_cases hs : t = []
          · exact hs
          · exact absurd ht (up_ne hs)
        rcases up_other c s hc with ⟨-, e⟩ | ⟨s', rfl, rfl, e⟩ | ⟨s', rfl, rfl, e⟩ | ⟨-, -, -, e⟩
        · rw [e] at h; cases h
        · rw [e] at h
          simp only [List.cons.injEq] at h
          rw [nil _ h.2]
          exact .inr (.inl rfl)
        · rw [e] at h
          simp only [List.cons.injEq] at h
          rw [nil _ h.2]
          exact .inr (.inr rfl)
        · rw [e] at h; cases h
  · rintro (⟨c, rfl, hc⟩ | rfl | rfl)
    · refine ⟨upper c, ?_⟩
      rw [up_ascii c [] (by rw [UInt8.lt_iff_toNat_lt]; exact hc), up_nil]
    · exact ⟨73, by decide +kernel⟩
    · exact ⟨83, by decide +kernel⟩

theorem unit_char (c : UInt8) : (∃ k, Size.Unit [c] k) ↔ (upper c = 66 ∨ upper c = 75 ∨ upper c = 77 ∨ upper c = 71) := by
  have h : ∀ n : Fin 256, (upper (UInt8.ofNat n.val) = 66 ↔ UInt8.ofNat n.val ∈ ascii "Bb") ∧ (upper (UInt8.ofNat n.val) = 75 ↔ UInt8.ofNat n.val ∈ ascii "Kk") ∧
      (upper (UInt8.ofNat n.val) = 77 ↔ UInt8.ofNat n.val ∈ ascii "Mm") ∧ (upper (UInt8.ofNat n.val) = 71 ↔ UInt8.ofNat n.val ∈ ascii "Gg") := by decide +kernel
  have := h ⟨c.toNat, c.toNat_lt⟩
  simp only [UInt8.ofNat_toNat] at this
  rw [this.1, this.2.1, this.2.2.1, this.2.2.2]
  constructor
  · rintro ⟨k, hk⟩
    cases hk with
    | bytes _ h => exact .inl h
    | kilo _ h => exact .inr (.inl h)
    | mega _ h => exact .inr (.inr (.inl h))
    | giga _ h => exact .inr (.inr (.inr h))
  · rintro (h | h | h | h)
    · exact ⟨_, .bytes c h⟩
    · exact ⟨_, .kilo c h⟩
    · exact ⟨_, .mega c h⟩
    · exact ⟨_, .giga c h⟩

theorem unitPart_cases (v : Int) (s : Bytes) : (s = [] ∧ unitPartT v (toUpper s) = .ok v) ∨
    (Lone s ∧ (∃ k, Size.Unit s k) ∧ ∃ x, unitPartT v (toUpper s) = .ok x) ∨
    (Lone s ∧ (∀ k, ¬ Size.Unit s k) ∧ unitPartT v (toUpper s) = .error .units) ∨
    (s ≠ [] ∧ ¬ Lone s ∧ (∀ k, ¬ Size.Unit s k) ∧ unitPartT v (toUpper s) = .error .format) := by
  by_cases h0 : s = []
  · subst h0; left; rw [up_nil]; exact ⟨rfl, rfl⟩
  right
  by_cases h1 : Lone s
  · rcases h1 with ⟨c, rfl, hc⟩ | rfl | rfl
    · have hl : Lone [c] := .inl ⟨c, rfl, hc⟩
      rw [up_ascii c [] (by rw [UInt8.lt_iff_toNat_lt]; exact hc), up_nil]
      by_cases hu : ∃ k, Size.Unit [c] k
      · left
        refine ⟨hl, hu, ?_⟩
        have := (unit_char c).mp hu
        unfold unitPartT
        simp only
        split
        · exact ⟨_, rfl⟩
        · split
          · exact ⟨_, rfl⟩
          · split
            · exact ⟨_, rfl⟩
            · split
              · exact ⟨_, rfl⟩
              · exfalso; simp_all
      · right; left
        refine ⟨hl, fun k hk => hu ⟨k, hk⟩, ?_⟩
        rw [unit_char] at hu
        rw [not_or, not_or, not_or] at hu
        unfold unitPartT
        simp only
        rw [if_neg hu.1, if_neg hu.2.1, if_neg hu.2.2.1, if_neg hu.2.2.2]
    · right; left
      exact ⟨.inr (.inl rfl), fun k hk => (by cases hk), (by rw [show toUpper [196, 177] = [73] by decide +kernel]; rfl)⟩
    · right; left
      exact ⟨.inr (.inr rfl), fun k hk => (by cases hk), (by rw [show toUpper [197, 191] = [83] by decide +kernel]; rfl)⟩
  · right; right
    have hlen : ∀ c, toUpper s ≠ [c] := fun c h => h1 ((up_one s).mp ⟨c, h⟩)
    refine ⟨h0, h1, ?_, ?_⟩
    · intro k hk
      apply h1
      have lone : ∀ c : UInt8, c ∈ ascii "BbKkMmGg" → c.toNat < 128 := by decide +kernel
      have mem : ∀ c : UInt8, c ∈ ascii "Bb" ∨ c ∈ ascii "Kk" ∨ c ∈ ascii "Mm" ∨ c ∈ ascii "Gg" → c ∈ ascii "BbKkMmGg" := by
        intro c h
        rw [show ascii "BbKkMmGg" = ascii "Bb" ++ (ascii "Kk" ++ (ascii "Mm" ++ ascii "Gg")) by decide +kernel]
        simpa using h
      cases hk with
      | none => exact absurd rfl h0
      | bytes c h => exact .inl ⟨c, rfl, lone c (mem c (.inl h))⟩
      | kilo c h => exact .inl ⟨c, rfl, lone c (mem c (.inr (.inl h)))⟩
      | mega c h => exact .inl ⟨c, rfl, lone c (mem c (.inr (.inr (.inl h))))⟩
      | giga c h => exact .inl ⟨c, rfl, lone c (mem c (.inr (.inr (.inr h))))⟩
    · have := up_ne h0
      cases hu : toUpper s with
      | nil => exact absurd hu this
      | cons x t =>
        cases t with
        | nil => exact absurd hu (hlen x)
        | cons y t => rfl

/-- `parseSizeUnits` on the parts of a text -/
theorem size_parts (sign ds s : Bytes) (hs : sign = [] ∨ sign = ascii "-") (hd : ∀ c ∈ ds, 48 ≤ c ∧ c ≤ 57) (h : ∀ c, s.head? = some c → ¬ (48 ≤ c ∧ c ≤ 57))
    (hn : sign ++ ds ++ s ≠ []) (h45 : sign = [] → ds = [] → s.head? ≠ some 45) : ∃ mult, parseSizeUnitsT (sign ++ ds ++ s) =
      match parseDigits ds with
      | none => .error (.atoi ds)
      | some v => unitPartT (wrap64 (v * mult)) (toUpper s) := by
  have hdd : ∀ c ∈ ds, isDigit c = true := fun c hc => (isDigit_iff c).mpr (hd c hc)
  have hstop : ∀ c, s.head? = some c → isDigit c = false := by
    intro c hc
    have := h c hc
    rw [← isDigit_iff] at this
    simpa using this
  have split : (ds ++ s).takeWhile isDigit = ds ∧ (ds ++ s).dropWhile isDigit = s := by
    clear hn hd h45 h
    induction ds with
    | nil =>
      cases s with
      | nil => exact ⟨rfl, rfl⟩
      | cons c s => simp [hstop c rfl]
    | cons c ds ih =>
      have hc := hdd c (by simp)
      obtain ⟨i1, i2⟩ := ih (fun x hx => hdd x (by simp [hx]))
      simp only [List.cons_append, List.takeWhile_cons, List.dropWhile_cons, hc, if_true, i1, i2]
      exact ⟨trivial, trivial⟩
  have body : ∀ mult, sizeBodyT mult (toUpper (ds ++ s)) = match parseDigits ds with
      | none => .error (.atoi ds)
      | some v => unitPartT (wrap64 (v * mult)) (toUpper s) := by
    intro mult
    unfold sizeBodyT
    rw [(up_digits _).1, (up_digits _).2, split.1, split.2]
    cases parseDigits ds <;> rfl
  rcases hs with rfl | rfl
  · refine ⟨1, ?_⟩
    rw [List.nil_append] at hn ⊢
    rw [← body]
    have hne := up_ne hn
    have hh : (toUpper (ds ++ s)).head? ≠ some 45 := by
      cases hds : ds ++ s with
      | nil => exact absurd hds hn
      | cons c t =>
        rw [ne_eq, up_head]
        rintro rfl
        cases ds with
        | nil =>
          simp only [List.nil_append] at hds
          exact h45 rfl rfl (by rw [hds]; rfl)
        | cons d ds =>
          simp only [List.cons_append, List.cons.injEq] at hds
          have := hd d (by simp)
          rw [hds.1] at this
          exact absurd this.1 (by decide)
    unfold parseSizeUnitsT
    cases hu : toUpper (ds ++ s) with
    | nil => exact absurd hu hne
    | cons c t =>
      simp only
      rw [hu] at hh
      rw [if_neg (by simpa using hh)]
  · refine ⟨-1, ?_⟩
    rw [← body]
    rw [show ascii "-" ++ ds ++ s = 45 :: (ds ++ s) by simp [show ascii "-" = [45] by decide]]
    unfold parseSizeUnitsT
    rw [up_ascii 45 _ (by decide)]
    rw [show upper 45 = 45 by decide]
    simp only [if_true]

/-- every text has these parts -/
theorem size_split (s : Bytes) (hn : s ≠ []) : ∃ sign ds t, s = sign ++ ds ++ t ∧ (sign = [] ∨ sign = ascii "-") ∧ (∀ c ∈ ds, 48 ≤ c ∧ c ≤ 57) ∧
    (∀ c, t.head? = some c → ¬ (48 ≤ c ∧ c ≤ 57)) ∧ (sign = [] → ds = [] → t.head? ≠ some 45) := by
  have cut : ∀ u : Bytes, (∀ c ∈ u.takeWhile isDigit, 48 ≤ c ∧ c ≤ 57) ∧ ∀ c, (u.dropWhile isDigit).head? = some c → ¬ (48 ≤ c ∧ c ≤ 57) := by
    intro u
    constructor
    · intro c hc
      exact (isDigit_iff c).mp (List.all_eq_true.mp (List.all_takeWhile (p := isDigit) (l := u)) c hc)
    · intro c hc
      rw [← isDigit_iff]
      have := List.head?_dropWhile_not (p := isDigit) (l := u)
      rw [hc] at this
      simpa using this
  cases s with
  | nil => exact absurd rfl hn
  | cons c s =>
    by_cases hc : c = 45
    · subst hc
      refine ⟨ascii "-", s.takeWhile isDigit, s.dropWhile isDigit, ?_, .inr rfl, (cut s).1, (cut s).2, fun h => absurd h (by decide)⟩
      rw [List.append_assoc, List.takeWhile_append_dropWhile]
      simp [show ascii "-" = [45] by decide]
    · refine ⟨[], (c :: s).takeWhile isDigit, (c :: s).dropWhile isDigit, ?_, .inl rfl, (cut _).1, (cut _).2, ?_⟩
      · rw [List.nil_append, List.takeWhile_append_dropWhile]
      · intro _ h0
        have e : (c :: s) = (c :: s).takeWhile isDigit ++ (c :: s).dropWhile isDigit := (List.takeWhile_append_dropWhile).symm
        rw [h0, List.nil_append] at e
        rw [← e]
        simpa using hc

theorem digits_none (ds : Bytes) : parseDigits ds = none ↔ ds = [] ∨ 2 ^ 63 ≤ decVal ds := by
  unfold parseDigits
  rw [digitsVal_eq]
  by_cases h : ds = []
  · subst h; simp
  · rw [if_neg (by simpa using h)]
    simp only [h, false_or]
    split
    · simp; omega
    · simp; omega

theorem atoi_empty : (SizeWhy.atoi []).text = ascii "strconv.Atoi: parsing \"\": invalid syntax" := by decide +kernel

theorem atoi_large (ds : Bytes) (h : ds ≠ []) : (SizeWhy.atoi ds).text = ascii "strconv.Atoi: parsing \"" ++ ds ++ ascii "\": value out of range" := by
  simp only [SizeWhy.text, DecodeText.numError]
  rw [if_neg (by simpa using h)]
  rw [show ascii "strconv.Atoi: parsing \"" = ascii "strconv." ++ ascii "Atoi" ++ ascii ": parsing \"" by decide +kernel,
    show ascii "\": value out of range" = ascii "\": " ++ ascii "value out of range" by decide +kernel]
  simp [List.append_assoc]

theorem size_nil : parseSizeUnitsT [] = .error .empty := by unfold parseSizeUnitsT; rw [up_nil]

theorem badSize_iff (s t : Bytes) : BadSize s t ↔ ∃ e, parseSizeUnitsT s = .error e ∧ e.text = t := by
  constructor
  · intro h
    cases h with
    | empty => exact ⟨.empty, size_nil, rfl⟩
    | noNumber sign s hs hn h hd =>
      obtain ⟨mult, hm⟩ := size_parts sign [] s hs (by simp) h (by simpa using hn) (fun h0 _ => hd h0)
      rw [List.append_nil] at hm
      exact ⟨.atoi [], by rw [hm]; rfl, atoi_empty⟩
    | large sign ds s hs hd h hl =>
      have hne : ds ≠ [] := by rintro rfl; simp [decVal] at hl
      obtain ⟨mult, hm⟩ := size_parts sign ds s hs hd h (by simp [hne]) (fun _ h0 => absurd h0 hne)
      rw [(digits_none ds).mpr (.inr hl)] at hm
      exact ⟨.atoi ds, hm, atoi_large ds hne⟩
    | format sign ds s hs hn hd h hl h0 h1 =>
      obtain ⟨mult, hm⟩ := size_parts sign ds s hs hd h (by simp [hn]) (fun _ h0 => absurd h0 hn)
      cases hp : parseDigits ds with
      | none => rcases (digits_none ds).mp hp with e | e; exact absurd e hn; omega
      | some v =>
        rw [hp] at hm
        simp only at hm
        refine ⟨.format, ?_, rfl⟩
        rw [hm]
        rcases unitPart_cases (wrap64 (v * mult)) s with ⟨e, -⟩ | ⟨e, -⟩ | ⟨e, -⟩ | ⟨-, -, -, e⟩
        · exact absurd e h0
        · exact absurd e h1
        · exact absurd e h1
        · exact e
    | units sign ds s hs hn hd h hl h1 h2 =>
      obtain ⟨mult, hm⟩ := size_parts sign ds s hs hd h (by simp [hn]) (fun _ h0 => absurd h0 hn)
      cases hp : parseDigits ds with
      | none => rcases (digits_none ds).mp hp with e | e; exact absurd e hn; omega
      | some v =>
        rw [hp] at hm
        simp only at hm
        refine ⟨.units, ?_, rfl⟩
        rw [hm]
        rcases unitPart_cases (wrap64 (v * mult)) s with ⟨e, -⟩ | ⟨-, ⟨k, e⟩, -⟩ | ⟨-, -, e⟩ | ⟨-, e, -⟩
        · subst e; exact absurd Size.Unit.none (h2 1)
        · exact absurd e (h2 k)
        · exact e
        · exact absurd h1 e
  · rintro ⟨e, he, rfl⟩
    by_cases h0 : s = []
    · subst h0
      rw [size_nil] at he
      cases he
      exact .empty
    · obtain ⟨sign, ds, t, rfl, hs, hd, ht, h45⟩ := size_split s h0
      obtain ⟨mult, hm⟩ := size_parts sign ds t hs hd ht h0 h45
      rw [he] at hm
      cases hp : parseDigits ds with
      | none =>
        rw [hp] at hm
        cases hm
        by_cases hne : ds = []
        · subst hne
          rw [List.append_nil] at h0 ⊢
          rw [atoi_empty]
          exact .noNumber _ _ hs h0 ht (fun h => h45 h rfl)
        · rw [atoi_large ds hne]
          rcases (digits_none ds).mp hp with h | h
          · exact absurd h hne
          · exact .large _ _ _ hs hd ht h
      | some v =>
        rw [hp] at hm
        simp only at hm
        have hnd : ¬ (ds = [] ∨ 2 ^ 63 ≤ decVal ds) := by rw [← digits_none, hp]; simp
        rw [not_or] at hnd
        rcases unitPart_cases (wrap64 (v * mult)) t with ⟨-, e⟩ | ⟨-, -, x, e⟩ | ⟨h1, h2, e⟩ | ⟨h1, h2, -, e⟩
        · rw [e] at hm; cases hm
        · rw [e] at hm; cases hm
        · rw [e] at hm
          cases hm
          exact .units _ _ _ hs hnd.1 hd ht (by omega) h1 h2
        · rw [e] at hm
          cases hm
          exact .format _ _ _ hs hnd.1 hd ht (by omega) h1 h2

theorem unitPart_eq (v x : Int) (s : Bytes) : unitPartT v (toUpper s) = .ok x ↔ unitPart v (s.map upper) = .ok x := by
  cases s with
  | nil =>
    rw [up_nil]
    unfold unitPartT unitPart
    simp
  | cons c s =>
    by_cases hc : c < 128
    · rw [up_ascii c s hc, List.map_cons]
      cases s with
      | nil =>
        rw [up_nil, List.map_nil]
        unfold unitPartT unitPart
        simp only
        by_cases h1 : upper c = 66
        · simp [h1]
        · by_cases h2 : upper c = 75
          · simp [h2]
          · by_cases h3 : upper c = 77
            · simp [h3]
            · by_cases h4 : upper c = 71
              · simp [h4]
              · simp [h1, h2, h3, h4]
      | cons d s =>
        have := up_ne (s := d :: s) (by simp)
        cases hu : toUpper (d :: s) with
        | nil => exact absurd hu this
        | cons y t => unfold unitPartT unitPart; simp
    · obtain ⟨-, e1, u1, u2, u3, u4, -⟩ := (upper_all c).2.2.2 hc
      have hold : unitPart v ((c :: s).map upper) ≠ .ok x := by
        rw [List.map_cons]
        cases s with
        | nil =>
          rw [List.map_nil]
          unfold unitPart
          simp only
          rw [if_neg u1, if_neg u2, if_neg u3, if_neg u4]
          simp
        | cons d s => unfold unitPart; simp
      have hnew : unitPartT v (toUpper (c :: s)) ≠ .ok x := by
        rcases unitPart_cases v (c :: s) with ⟨e, -⟩ | ⟨-, ⟨k, hk⟩, -⟩ | ⟨-, -, e⟩ | ⟨-, -, -, e⟩
        · cases e
        · cases hk with
          | bytes c h =>
            have : ∀ c : UInt8, c ∈ ascii "Bb" → c < 128 := by decide +kernel
            exact absurd (this c h) hc
          | kilo c h =>
            have : ∀ c : UInt8, c ∈ ascii "Kk" → c < 128 := by decide +kernel
            exact absurd (this c h) hc
          | mega c h =>
            have : ∀ c : UInt8, c ∈ ascii "Mm" → c < 128 := by decide +kernel
            exact absurd (this c h) hc
          | giga c h =>
            have : ∀ c : UInt8, c ∈ ascii "Gg" → c < 128 := by decide +kernel
            exact absurd (this c h) hc
        · rw [e]; simp
        · rw [e]; simp
      exact ⟨fun h => absurd h hnew, fun h => absurd h hold⟩

/-- the two models of `parseSizeUnits` accept the same with the same value -/
theorem size_eq (s : Bytes) (v : Int) : parseSizeUnitsT s = .ok v ↔ parseSizeUnits s = .ok v := by
  have body : ∀ mult t, sizeBodyT mult (toUpper t) = .ok v ↔ sizeBody mult (t.map upper) = .ok v := by
    intro mult t
    unfold sizeBodyT sizeBody
    rw [map_upper_takeWhile, map_upper_dropWhile, (up_digits t).1, (up_digits t).2]
    cases parseDigits (t.takeWhile isDigit) with
    | none => simp
    | some n => exact unitPart_eq _ _ _
  cases s with
  | nil =>
    rw [size_nil]
    unfold parseSizeUnits; simp
  | cons c s =>
    unfold parseSizeUnits
    rw [List.map_cons]
    simp only [(upper_all c).2.2.1]
    by_cases hc : c = 45
    · rw [if_pos hc]
      subst hc
      unfold parseSizeUnitsT
      rw [up_ascii 45 _ (by decide), show upper 45 = 45 by decide]
      simp only [if_true]
      exact body _ _
    · rw [if_neg hc, ← List.map_cons, ← body]
      unfold parseSizeUnitsT
      have h1 := up_ne (s := c :: s) (by simp)
      have h2 := up_head c s
      cases hu : toUpper (c :: s) with
      | nil => exact absurd hu h1
      | cons x t =>
        rw [hu] at h2
        simp only
        rw [if_neg (by intro h; subst h; exact hc (h2.mp rfl))]

theorem goodSize_iff (s : Bytes) : GoodSize s ↔ ∃ v, parseSizeUnitsT s = .ok v := by
  unfold GoodSize
  constructor
  · rintro ⟨m, v, h, hm⟩
    exact ⟨wrap64 v, (size_eq s _).mpr ((C58_parse_partial s _).mpr ⟨m, v, h, hm, rfl⟩)⟩
  · rintro ⟨v, h⟩
    obtain ⟨m, x, h1, h2, -⟩ := (C58_parse_partial s v).mp ((size_eq s v).mp h)
    exact ⟨m, x, h1, h2⟩

/-! ### the settings of a command line -/

theorem parsed_iff (args : List Bytes) (o : Opts) : parseArgsT defaults args = .ok o ↔ parseArgs defaults args = .ok o := by
  rw [parse_eq _ args defaults (Nat.le_refl _)]
  cases parseArgsT defaults args <;> simp

theorem setAll_some (l : List (Flag × Bytes)) : ∀ o : Opts, (∀ v, (Flag.p, v) ∈ l → ∃ n, parseUint v = some n) → ∃ o', setAll o l = some o' := by
  induction l with
  | nil => intro o _; exact ⟨o, rfl⟩
  | cons x l ih =>
    intro o h
    obtain ⟨f, v⟩ := x
    have hs : ∃ o', setFlag o f v = some o' := by
      cases f with
      | p =>
        obtain ⟨n, hn⟩ := h v (by simp)
        exact ⟨{ o with port := n }, by simp [setFlag, hn]⟩
      | i => exact ⟨_, rfl⟩
      | w => exact ⟨_, rfl⟩
      | cmd => exact ⟨_, rfl⟩
      | u => exact ⟨_, rfl⟩
      | d => exact ⟨_, rfl⟩
    obtain ⟨o', ho⟩ := hs
    obtain ⟨o2, h2⟩ := ih o' (fun v hv => h v (List.mem_cons_of_mem _ hv))
    exact ⟨o2, by rw [setAll, ho]; exact h2⟩

/-- the settings the options come from -/
def From (l : List (Bytes × Bytes)) (o : Opts) : Prop :=
  o.input = last (ascii "i") l [] ∧ o.cmd = last (ascii "cmd") l (ascii "swarm") ∧ o.uplimStr = last (ascii "u") l (ascii "-1B") ∧
    o.dnlimStr = last (ascii "d") l (ascii "-1B")

theorem parsed_to (args : List Bytes) (o : Opts) (h : parseArgsT defaults args = .ok o) :
    ∃ l, CmdLine args l ∧ (∀ v, (ascii "p", v) ∈ l → GoodNumber v) ∧ From l o := by
  rw [parsed_iff] at h
  obtain ⟨l, c1, c2⟩ := (parseArgs_iff args.length args defaults o (Nat.le_refl _)).mp h
  obtain ⟨s1, s2, s3, s4, s5, s6, s7, -, -⟩ := (setAll_iff l defaults o (ascii "60666") (by decide +kernel)).mp c2
  refine ⟨_, c1, ?_, s2, s5, s6, s7⟩
  intro v hv
  rw [List.mem_map] at hv
  obtain ⟨⟨f, x⟩, hx, he⟩ := hv
  simp only [Prod.mk.injEq] at he
  obtain ⟨he, rfl⟩ := he
  have : f = .p := by cases f <;> first | rfl | exact absurd he (by decide)
  subst this
  obtain ⟨n, hn⟩ := s1 _ hx
  exact ⟨n, (C75_number _ _).mp hn⟩

theorem parsed_from (args : List Bytes) (l : List (Bytes × Bytes)) (h : CmdLine args l) (hp : ∀ v, (ascii "p", v) ∈ l → GoodNumber v) :
    ∃ o, parseArgsT defaults args = .ok o ∧ From l o := by
  obtain ⟨l, rfl⟩ := cmdLine_flags h
  have hp' : ∀ v, (Flag.p, v) ∈ l → ∃ n, parseUint v = some n := by
    intro v hv
    obtain ⟨n, hn⟩ := hp v (List.mem_map.mpr ⟨(.p, v), hv, rfl⟩)
    exact ⟨n, (C75_number _ _).mpr hn⟩
  obtain ⟨o, ho⟩ := setAll_some l defaults hp'
  obtain ⟨-, s2, s3, s4, s5, s6, s7, -, -⟩ := (setAll_iff l defaults o (ascii "60666") (by decide +kernel)).mp ho
  refine ⟨o, ?_, s2, s5, s6, s7⟩
  rw [parsed_iff]
  exact (parseArgs_iff args.length args defaults o (Nat.le_refl _)).mpr ⟨l, h, ho⟩

theorem validate_error (l : List (Bytes × Bytes)) (o : Opts) (h : From l o) (t : Bytes) : (∃ e, validateT o = .error e ∧ e.text = t) ↔ Complaint l t := by
  obtain ⟨h1, h2, h3, h4⟩ := h
  constructor
  · rintro ⟨e, he, rfl⟩
    unfold validateT at he
    by_cases hi : o.input = []
    · rw [if_pos hi] at he
      cases he
      exact .input (by rw [← h1]; exact hi)
    · rw [if_neg hi, if_neg hi] at he
      have hi' : last (ascii "i") l [] ≠ [] := by rw [← h1]; exact hi
      by_cases hc : o.cmd = ascii "swarm" ∨ o.cmd = ascii "info"
      · rw [if_neg (not_not_intro hc)] at he
        rw [h2] at hc
        cases hu : parseSizeUnitsT o.uplimStr with
        | error e' =>
          rw [hu] at he
          cases he
          exact .up _ hi' hc ((badSize_iff _ _).mpr ⟨e', by rw [← h3]; exact hu, rfl⟩)
        | ok u =>
          rw [hu] at he
          simp only at he
          cases hd : parseSizeUnitsT o.dnlimStr with
          | error e' =>
            rw [hd] at he
            cases he
            exact .down _ hi' hc ((goodSize_iff _).mpr ⟨u, by rw [← h3]; exact hu⟩) ((badSize_iff _ _).mpr ⟨e', by rw [← h4]; exact hd, rfl⟩)
          | ok d => rw [hd] at he; cases he
      · rw [if_pos hc] at he
        cases he
        rw [not_or] at hc
        exact .command _ hi' h2 hc
  · intro hc
    unfold validateT
    cases hc with
    | input hi =>
      rw [← h1] at hi
      rw [if_pos hi]
      exact ⟨.noInput, rfl, rfl⟩
    | command c hi hc h =>
      rw [← h1] at hi
      rw [← h2] at hc
      subst hc
      rw [if_neg hi, if_neg hi, if_pos (by rw [not_or]; exact h)]
      exact ⟨.command _, rfl, rfl⟩
    | up _ hi hc h =>
      rw [← h1] at hi
      rw [← h2] at hc
      rw [← h3] at h
      obtain ⟨e, he, rfl⟩ := (badSize_iff _ _).mp h
      rw [if_neg hi, if_neg hi, if_neg (not_not_intro hc), he]
      exact ⟨.size e, rfl, rfl⟩
    | down _ hi hc hu h =>
      rw [← h1] at hi
      rw [← h2] at hc
      rw [← h3] at hu
      rw [← h4] at h
      obtain ⟨u, hu⟩ := (goodSize_iff _).mp hu
      obtain ⟨e, he, rfl⟩ := (badSize_iff _ _).mp h
      rw [if_neg hi, if_neg hi, if_neg (not_not_intro hc), hu]
      simp only
      rw [he]
      exact ⟨.size e, rfl, rfl⟩

/-- the two models of `Validate` agree -/
theorem validate_eq (o o' : Opts) : validateT o = .ok o' ↔ o.Validate = .ok o' := by
  unfold validateT Opts.Validate
  by_cases hi : o.input = []
  · rw [if_pos hi, if_pos hi]; simp
  · rw [if_neg hi, if_neg hi, if_neg hi, if_neg hi]
    by_cases hc : o.cmd = ascii "swarm" ∨ o.cmd = ascii "info"
    · rw [if_neg (not_not_intro hc), if_neg (not_not_intro hc)]
      simp only [Res.bind_eq_ok, Res.ok.injEq]
      constructor
      · intro h
        cases hu : parseSizeUnitsT o.uplimStr with
        | error e' => rw [hu] at h; cases h
        | ok u =>
          rw [hu] at h
          simp only at h
          cases hd : parseSizeUnitsT o.dnlimStr with
          | error e' => rw [hd] at h; cases h
          | ok d =>
            rw [hd] at h
            simp only [Except.ok.injEq] at h
            exact ⟨u, (size_eq _ _).mp hu, d, (size_eq _ _).mp hd, h⟩
      · rintro ⟨u, hu, d, hd, rfl⟩
        rw [(size_eq _ _).mpr hu]
        simp only
        rw [(size_eq _ _).mpr hd]
    · rw [if_pos hc, if_pos hc]; simp

theorem size_answers (str : Bytes) : (∃ v, parseSizeUnits str = .ok v) ∨ ∃ e, parseSizeUnits str = .err e := by
  unfold parseSizeUnits sizeBody unitPart
  repeat' split
  all_goals first | exact .inl ⟨_, rfl⟩ | exact .inr ⟨_, rfl⟩

end Verif.OptsText
