import Verif.Model.UrlParse
import Verif.Spec.UrlParse
/- Lemmas about the model of `url.Parse`. -/
set_option autoImplicit false

namespace Verif.UrlParse
open Verif.UrlSpec Verif.Query

/-! ### strings -/

theorem cut_append (sep : UInt8) (a b : Bytes) (h : sep ∉ a) : cut sep (a ++ sep :: b) = (a, b, true) := by
  induction a with
  | nil => simp [cut]
  | cons c a ih =>
    rw [List.mem_cons, not_or] at h
    rw [List.cons_append, cut, if_neg (fun e => h.1 e.symm), ih h.2]

theorem cut_none (sep : UInt8) (a : Bytes) (h : sep ∉ a) : cut sep a = (a, [], false) := by
  induction a with
  | nil => rfl
  | cons c a ih =>
    rw [List.mem_cons, not_or] at h
    rw [cut, if_neg (fun e => h.1 e.symm), ih h.2]

/-- the first separator -/
theorem first_sep (sep : UInt8) (s : Bytes) : sep ∉ s ∨ ∃ a b, s = a ++ sep :: b ∧ sep ∉ a := by
  by_cases h : sep ∈ s
  · obtain ⟨a, b, e, ha⟩ := List.eq_append_cons_of_mem h
    exact .inr ⟨a, b, e, ha⟩
  · exact .inl h

/-- the last separator -/
theorem last_sep (sep : UInt8) (s : Bytes) : sep ∉ s ∨ ∃ a b, s = a ++ sep :: b ∧ sep ∉ b := by
  rcases first_sep sep s.reverse with h | ⟨a, b, e, h⟩
  · exact .inl fun hm => h (List.mem_reverse.mpr hm)
  · refine .inr ⟨b.reverse, a.reverse, ?_, fun hm => h (List.mem_reverse.mp hm)⟩
    have := congrArg List.reverse e
    simpa using this

theorem lastIndex_none (sep : UInt8) (s : Bytes) (h : sep ∉ s) : lastIndex sep s = none := by
  induction s with
  | nil => rfl
  | cons c s ih =>
    rw [List.mem_cons, not_or] at h
    rw [lastIndex, ih h.2]
    exact if_neg fun e => h.1 e.symm

theorem lastIndex_append (sep : UInt8) (a b : Bytes) (h : sep ∉ b) : lastIndex sep (a ++ sep :: b) = some a.length := by
  induction a with
  | nil => rw [List.nil_append, lastIndex, lastIndex_none sep b h]; simp
  | cons c a ih => rw [List.cons_append, lastIndex, ih]; rfl

theorem index25_none (s : Bytes) (h : ¬ [37, 50, 53] <:+: s) : index25 s = none := by
  induction s with
  | nil => rfl
  | cons c s ih =>
    rw [index25, if_neg, ih fun hi => h (hi.trans (List.suffix_cons c s).isInfix)]
    · rfl
    · intro e
      refine h ⟨[], (c :: s).drop 3, ?_⟩
      rw [List.nil_append, ← e, List.take_append_drop]

theorem index25_append (a z : Bytes) (h : ¬ [37, 50, 53] <:+: a) : index25 (a ++ 37 :: 50 :: 53 :: z) = some a.length := by
  induction a with
  | nil => rfl
  | cons c a ih =>
    rw [List.cons_append, index25, if_neg, ih fun hi => h (hi.trans (List.suffix_cons c a).isInfix)]
    · rfl
    · intro e
      rcases a with _ | ⟨d, _ | ⟨f, a⟩⟩
      · simp at e
      · simp at e
      · simp only [List.cons_append, List.take_succ_cons, List.take_zero, List.cons.injEq, and_true] at e
        obtain ⟨rfl, rfl, rfl⟩ := e
        exact h ⟨[], a, rfl⟩

/-- the first `%25` -/
theorem first25 (s : Bytes) : ¬ [37, 50, 53] <:+: s ∨ ∃ a z, s = a ++ 37 :: 50 :: 53 :: z ∧ ¬ [37, 50, 53] <:+: a := by
  induction s with
  | nil => exact .inl fun ⟨x, y, h⟩ => by simp at h
  | cons c s ih =>
    by_cases e : (c :: s).take 3 = [37, 50, 53]
    · refine .inr ⟨[], (c :: s).drop 3, ?_, fun ⟨x, y, h⟩ => by simp at h⟩
      have := List.take_append_drop 3 (c :: s)
      rw [e] at this
      exact this.symm
    · have hno : ∀ t, t <+: c :: s → ¬ [37, 50, 53] <+: t := by
        intro t ht h
        refine e ?_
        obtain ⟨y, hy⟩ := h.trans ht
        rw [← hy]
        rfl
      rcases ih with h | ⟨a, z, rfl, h⟩
      · refine .inl fun hi => ?_
        rcases List.infix_cons_iff.mp hi with hp | hi
        · exact hno _ (List.prefix_refl _) hp
        · exact h hi
      · refine .inr ⟨c :: a, z, rfl, fun hi => ?_⟩
        rcases List.infix_cons_iff.mp hi with hp | hi
        · exact hno _ ⟨37 :: 50 :: 53 :: z, rfl⟩ hp
        · exact h hi

/-! ### characters -/

theorem all_bytes {P : UInt8 → Prop} (h : ∀ n : Fin 256, P (UInt8.ofNat n.val)) (c : UInt8) : P c := by
  have := h ⟨c.toNat, c.toNat_lt⟩
  rwa [show UInt8.ofNat c.toNat = c from UInt8.ofNat_toNat] at this

theorem unhex_eq : ∀ c, unhex c = hexVal c := all_bytes (by decide +kernel)

theorem hostByte_iff : ∀ c, hostByte c = true ↔ HostChar c := all_bytes (by unfold HostChar; decide +kernel)

theorem hex_lt : ∀ c, ∀ x ∈ hexVal c, x < 16 := all_bytes (by decide +kernel)
theorem hex_two : ∀ c, ∀ x ∈ hexVal c, x = 2 ↔ c = 50 := all_bytes (by decide +kernel)
theorem hex_five : ∀ c, ∀ x ∈ hexVal c, x = 5 ↔ c = 53 := all_bytes (by decide +kernel)

theorem hex_pair {h l x y : UInt8} (hx : hexVal h = some x) (hy : hexVal l = some y) :
    (x * 16 + y).toNat = x.toNat * 16 + y.toNat ∧ x.toNat < 16 ∧ y.toNat < 16 := by
  have h1 := UInt8.lt_iff_toNat_lt.mp (hex_lt h x hx)
  have h2 := UInt8.lt_iff_toNat_lt.mp (hex_lt l y hy)
  have e : (16 : UInt8).toNat = 16 := rfl
  rw [e] at h1 h2
  refine ⟨?_, h1, h2⟩
  rw [UInt8.toNat_add, UInt8.toNat_mul, e]
  omega

theorem percent25 {h l x y : UInt8} (hx : hexVal h = some x) (hy : hexVal l = some y) : x * 16 + y = 37 ↔ h = 50 ∧ l = 53 := by
  obtain ⟨h1, h2, h3⟩ := hex_pair hx hy
  rw [← hex_two h x hx, ← hex_five l y hy]
  constructor
  · intro e
    have : (x * 16 + y).toNat = 37 := by rw [e]; rfl
    constructor
    · apply UInt8.toNat_inj.mp
      show x.toNat = 2
      omega
    · apply UInt8.toNat_inj.mp
      show y.toNat = 5
      omega
  · rintro ⟨rfl, rfl⟩
    decide

theorem high {h l x y : UInt8} (hx : hexVal h = some x) (hy : hexVal l = some y) : 128 ≤ x * 16 + y ↔ ¬ x < 8 := by
  obtain ⟨h1, h2, h3⟩ := hex_pair hx hy
  rw [UInt8.le_iff_toNat_le, h1, UInt8.lt_iff_toNat_lt]
  have e : (128 : UInt8).toNat = 128 := rfl
  have e' : (8 : UInt8).toNat = 8 := rfl
  rw [e, e']
  omega

/-! ### unescape -/

/-- which bytes a mode allows -/
def Mode.byte : Mode → UInt8 → Prop
  | .host | .zone => fun c => HostChar c ∨ 128 ≤ c
  | _ => fun _ => True

/-- which escapes a mode allows -/
def Mode.esc : Mode → UInt8 → Prop
  | .host => fun v => 128 ≤ v ∨ v = 37
  | .zone => fun v => HostChar v ∨ v = 32 ∨ v = 37
  | _ => fun _ => True

theorem escapeOk_iff (m : Mode) {h l x y : UInt8} (hx : hexVal h = some x) (hy : hexVal l = some y) : escapeOk m h l x y = true ↔ m.esc (x * 16 + y) := by
  cases m with
  | plain | query => simp [escapeOk, Mode.esc]
  | host =>
    simp only [escapeOk, Mode.esc, high hx hy, percent25 hx hy]
    simp only [Bool.not_eq_true', Bool.and_eq_false_iff, decide_eq_false_iff_not, Bool.not_eq_false', Bool.and_eq_true, beq_iff_eq]
  | zone =>
    simp only [escapeOk, Mode.esc, ← hostByte_iff, percent25 hx hy]
    simp only [Bool.not_eq_true', Bool.and_eq_false_iff, Bool.not_eq_false', Bool.and_eq_true, beq_iff_eq, bne_eq_false_iff_eq]
    constructor
    · rintro ((h | h) | h)
      · exact .inr (.inr h)
      · exact .inr (.inl h)
      · exact .inl h
    · rintro (h | h | h)
      · exact .inr h
      · exact .inl (.inr h)
      · exact .inl (.inl h)

theorem byteOk_iff (m : Mode) (c : UInt8) : byteOk m c = true ↔ m.byte c := by
  have key : (!(decide (c < 128) && !hostByte c)) = true ↔ HostChar c ∨ 128 ≤ c := by
    rw [← hostByte_iff]
    simp only [Bool.not_eq_true', Bool.and_eq_false_iff, decide_eq_false_iff_not, Bool.not_eq_false']
    rw [UInt8.not_lt, or_comm]
  cases m with
  | plain | query => simp [byteOk, Mode.byte]
  | host | zone => exact key

theorem unescape_byte (m : Mode) (c : UInt8) (s : Bytes) (h : c ≠ 37) :
    unescape m (c :: s) = if c = 43 then (unescape m s).map (plus m :: ·)
      else if byteOk m c then (unescape m s).map (c :: ·) else none := by
  rw [unescape]
  · intro a b d hc _
    exact h hc
  · exact h

theorem unescape_iff {m : Mode} (hm : m ≠ .query) (s t : Bytes) : unescape m s = some t ↔ Decodes m.byte m.esc s t := by
  have hplus : m.byte 43 := (byteOk_iff m 43).mp (by cases m <;> decide)
  have hsame : plus m = 43 := if_neg hm
  constructor
  · suffices H : ∀ n (s t : Bytes), s.length ≤ n → unescape m s = some t → Decodes m.byte m.esc s t from H _ s t (Nat.le_refl _)
    intro n
    induction n with
    | zero =>
      intro s t hl h
      obtain rfl := List.length_eq_zero_iff.mp (Nat.le_zero.mp hl)
      rw [unescape] at h
      cases h
      exact .nil
    | succ n ih =>
      intro s t hl h
      cases s with
      | nil => rw [unescape] at h; cases h; exact .nil
      | cons c s =>
        simp only [List.length_cons, Nat.add_le_add_iff_right] at hl
        by_cases hc : c = 37
        · subst hc
          rcases s with _ | ⟨a, _ | ⟨b, s⟩⟩
          · simp [unescape] at h
          · simp [unescape] at h
          · rw [unescape, unhex_eq, unhex_eq] at h
            cases hx : hexVal a with
            | none => simp [hx] at h
            | some x =>
              cases hy : hexVal b with
              | none => simp [hx, hy] at h
              | some y =>
                simp only [hx, hy] at h
                split at h
                · rename_i hok
                  obtain ⟨t', h', rfl⟩ := Option.map_eq_some_iff.mp h
                  simp only [List.length_cons] at hl
                  exact .esc _ _ _ _ _ _ hx hy ((escapeOk_iff m hx hy).mp hok) (ih _ _ (by omega) h')
                · cases h
        · rw [unescape_byte m c s hc, hsame] at h
          split at h
          · rename_i e
            subst e
            obtain ⟨t', h', rfl⟩ := Option.map_eq_some_iff.mp h
            exact .byte _ _ _ hc hplus (ih _ _ hl h')
          · split at h
            · rename_i hok
              obtain ⟨t', h', rfl⟩ := Option.map_eq_some_iff.mp h
              exact .byte _ _ _ hc ((byteOk_iff m c).mp hok) (ih _ _ hl h')
            · cases h
  · intro h
    induction h with
    | nil => rw [unescape]
    | byte c s t hc hb _ ih =>
      rw [unescape_byte m c s hc, hsame, ih]
      split
      · rename_i e; subst e; rfl
      · rw [if_pos ((byteOk_iff m c).mpr hb)]; rfl
    | esc h l x y s t hx hy he _ ih =>
      rw [unescape, unhex_eq, unhex_eq]
      simp only [hx, hy]
      rw [if_pos ((escapeOk_iff m hx hy).mpr he), ih]
      rfl

theorem unescape_plain (s t : Bytes) : unescape .plain s = some t ↔ Text s t := unescape_iff (by decide) s t
theorem unescape_host (s t : Bytes) : unescape .host s = some t ↔ HostText s t := unescape_iff (by decide) s t
theorem unescape_zone (s t : Bytes) : unescape .zone s = some t ↔ ZoneText s t := unescape_iff (by decide) s t

/-- in a query, decoding is that of the specification -/
theorem unescape_query (s : Bytes) : unescape .query s = Query.unescape s := by
  suffices H : ∀ n (s : Bytes), s.length ≤ n → unescape .query s = Query.unescape s from H _ s (Nat.le_refl _)
  intro n
  induction n with
  | zero =>
    intro s hl
    obtain rfl := List.length_eq_zero_iff.mp (Nat.le_zero.mp hl)
    simp [unescape, Query.unescape]
  | succ n ih =>
    intro s hl
    cases s with
    | nil => simp [unescape, Query.unescape]
    | cons c s =>
      simp only [List.length_cons, Nat.add_le_add_iff_right] at hl
      by_cases hc : c = 37
      · subst hc
        rcases s with _ | ⟨a, _ | ⟨b, s⟩⟩
        · simp [unescape, Query.unescape]
        · simp [unescape, Query.unescape]
        · rw [unescape, unhex_eq, unhex_eq, Query.unescape]
          simp only [List.length_cons] at hl
          rw [ih s (by omega)]
          cases hexVal a <;> cases hexVal b <;> cases Query.unescape s <;> simp [escapeOk]
      · rw [unescape_byte _ c s hc, ih s hl]
        by_cases hp : c = 43
        · subst hp
          simp [Query.unescape, plus]
        · rw [if_neg hp]
          simp [byteOk, Query.unescape, hc]

/-! ### schemes -/

theorem getScheme_ok (raw r : Bytes) : ∀ (w : Bytes) (i : Nat) (seen : Bytes), 0 < i →
    (∀ d ∈ w, d ∈ ascii "ABCDEFGHIJKLMNOPQRSTUVWXYZabcdefghijklmnopqrstuvwxyz0123456789+-.") → getScheme raw i seen (w ++ 58 :: r) = some (seen ++ w, r) := by
  intro w
  induction w with
  | nil =>
    intro i seen hi _
    rw [List.nil_append, getScheme, if_neg (by decide), if_neg (by decide), if_pos rfl, if_neg (by omega), List.append_nil]
  | cons c w ih =>
    intro i seen hi hw
    rw [List.cons_append, getScheme]
    have hnext := ih (i + 1) (seen ++ [c]) (by omega) fun d hd => hw d (List.mem_cons_of_mem _ hd)
    rw [List.append_assoc, List.singleton_append] at hnext
    have hc : ∀ c, c ∈ ascii "ABCDEFGHIJKLMNOPQRSTUVWXYZabcdefghijklmnopqrstuvwxyz0123456789+-." →
        ((97 ≤ c && c ≤ 122) || (65 ≤ c && c ≤ 90)) = true ∨ ((48 ≤ c && c ≤ 57) || c == 43 || c == 45 || c == 46) = true := all_bytes (by decide +kernel)
    split
    · exact hnext
    · rename_i h1
      rw [if_pos ((hc c (hw c (List.mem_cons_self ..))).resolve_left h1), if_neg (by omega)]
      exact hnext

theorem getScheme_scheme (raw w r : Bytes) (h : Scheme w) : getScheme raw 0 [] (w ++ 58 :: r) = some (w, r) := by
  obtain ⟨c, cs, rfl, hc, hcs⟩ := h
  have hl : ∀ c, c ∈ ascii "ABCDEFGHIJKLMNOPQRSTUVWXYZabcdefghijklmnopqrstuvwxyz" → ((97 ≤ c && c ≤ 122) || (65 ≤ c && c ≤ 90)) = true := all_bytes (by decide +kernel)
  rw [List.cons_append, getScheme, if_pos (hl c hc)]
  exact getScheme_ok raw r cs 1 [c] (by decide) hcs

theorem letter_iff : ∀ c : UInt8, ((97 ≤ c && c ≤ 122) || (65 ≤ c && c ≤ 90)) = true ↔ c ∈ ascii "ABCDEFGHIJKLMNOPQRSTUVWXYZabcdefghijklmnopqrstuvwxyz" :=
  all_bytes (by decide +kernel)

theorem schemeChar_of : ∀ c : UInt8, ((97 ≤ c && c ≤ 122) || (65 ≤ c && c ≤ 90)) = true ∨ ((48 ≤ c && c ≤ 57) || c == 43 || c == 45 || c == 46) = true →
    c ∈ ascii "ABCDEFGHIJKLMNOPQRSTUVWXYZabcdefghijklmnopqrstuvwxyz0123456789+-." := all_bytes (by decide +kernel)

theorem getScheme_later (raw : Bytes) : ∀ (s : Bytes) (i : Nat) (seen : Bytes), 0 < i →
    getScheme raw i seen s = some ([], raw) ∨ ∃ w r, s = w ++ 58 :: r ∧
      (∀ d ∈ w, d ∈ ascii "ABCDEFGHIJKLMNOPQRSTUVWXYZabcdefghijklmnopqrstuvwxyz0123456789+-.") ∧ getScheme raw i seen s = some (seen ++ w, r) := by
  intro s
  induction s with
  | nil => intro i seen _; exact .inl rfl
  | cons c s ih =>
    intro i seen hi
    have step : ((97 ≤ c && c ≤ 122) || (65 ≤ c && c ≤ 90)) = true ∨ ((48 ≤ c && c ≤ 57) || c == 43 || c == 45 || c == 46) = true →
        getScheme raw (i + 1) (seen ++ [c]) s = some ([], raw) ∨ ∃ w r, c :: s = w ++ 58 :: r ∧
      (∀ d ∈ w, d ∈ ascii "ABCDEFGHIJKLMNOPQRSTUVWXYZabcdefghijklmnopqrstuvwxyz0123456789+-.") ∧ getScheme raw (i + 1) (seen ++ [c]) s = some (seen ++ w, r) := by
      intro hc
      rcases ih (i + 1) (seen ++ [c]) (by omega) with h | ⟨w, r, e, hw, h⟩
      · exact .inl h
      · refine .inr ⟨c :: w, r, by rw [e]; rfl, ?_, by rw [h]; simp⟩
        intro d hd
        rcases List.mem_cons.mp hd with rfl | hd
        · exact schemeChar_of _ hc
        · exact hw d hd
    rw [getScheme]
    by_cases h1 : ((97 ≤ c && c ≤ 122) || (65 ≤ c && c ≤ 90)) = true
    · rw [if_pos h1]; exact step (.inl h1)
    · rw [if_neg h1]
      by_cases h2 : ((48 ≤ c && c ≤ 57) || c == 43 || c == 45 || c == 46) = true
      · rw [if_pos h2, if_neg (by omega)]; exact step (.inr h2)
      · rw [if_neg h2]
        by_cases h3 : c = 58
        · subst h3
          rw [if_pos rfl, if_neg (by omega)]
          exact .inr ⟨[], s, rfl, by simp, by simp⟩
        · rw [if_neg h3]
          exact .inl rfl

/-- what `getScheme` finds -/
theorem getScheme_cases (raw : Bytes) : (getScheme raw 0 [] raw = none ∧ raw.head? = some 58) ∨ getScheme raw 0 [] raw = some ([], raw) ∨
    ∃ w r, raw = w ++ 58 :: r ∧ Scheme w ∧ getScheme raw 0 [] raw = some (w, r) := by
  cases raw with
  | nil => exact .inr (.inl rfl)
  | cons c s =>
    by_cases h1 : ((97 ≤ c && c ≤ 122) || (65 ≤ c && c ≤ 90)) = true
    · rcases getScheme_later (c :: s) s 1 [c] (by decide) with h | ⟨w, r, e, hw, h⟩
      · refine .inr (.inl ?_)
        rw [getScheme, if_pos h1]
        exact h
      · refine .inr (.inr ⟨c :: w, r, by rw [e]; rfl, ⟨c, w, rfl, (letter_iff c).mp h1, hw⟩, ?_⟩)
        rw [getScheme, if_pos h1]
        exact h
    · by_cases h2 : ((48 ≤ c && c ≤ 57) || c == 43 || c == 45 || c == 46) = true
      · refine .inr (.inl ?_)
        rw [getScheme, if_neg h1, if_pos h2, if_pos rfl]
      · by_cases h3 : c = 58
        · subst h3
          refine .inl ⟨?_, rfl⟩
          rw [getScheme, if_neg h1, if_neg h2, if_pos rfl, if_pos rfl]
        · refine .inr (.inl ?_)
          rw [getScheme, if_neg h1, if_neg h2, if_neg h3]

theorem lower_eq (s : Bytes) : lower s = lowerCase s := by
  unfold lower lowerCase
  refine List.map_congr_left fun c _ => ?_
  exact all_bytes (P := fun c => (if (65 ≤ c && c ≤ 90) = true then c + 32 else c) = if c ∈ ascii "ABCDEFGHIJKLMNOPQRSTUVWXYZ" then c + 32 else c) (by decide +kernel) c

theorem lower_nil {s : Bytes} : lower s = [] ↔ s = [] := by
  unfold lower
  exact List.map_eq_nil_iff

/-! ### hosts -/

theorem digits_iff (ds : Bytes) : (ds.all fun d => 48 ≤ d && d ≤ 57) = true ↔ Digits ds := by
  have h : ∀ c : UInt8, (48 ≤ c && c ≤ 57) = true ↔ c ∈ ascii "0123456789" := all_bytes (by decide +kernel)
  rw [List.all_eq_true]
  exact forall_congr' fun d => imp_congr_right fun _ => h d

theorem validOptionalPort_iff (p : Bytes) : validOptionalPort p = true ↔ Port p := by
  cases p with
  | nil => simp [validOptionalPort, Port]
  | cons c ds =>
    simp only [validOptionalPort, Port, Bool.and_eq_true, beq_iff_eq, digits_iff]
    constructor
    · rintro ⟨rfl, h⟩
      exact .inr ⟨ds, rfl, h⟩
    · rintro (h | ⟨d, h, hd⟩)
      · cases h
      · cases h; exact ⟨rfl, hd⟩

theorem digits_not_mem {ds : Bytes} (h : Digits ds) {c : UInt8} (hc : c ∉ ascii "0123456789") : c ∉ ds := fun hm => hc (h c hm)

theorem port_no_bracket {p : Bytes} (h : Port p) : 93 ∉ p := by
  rcases h with rfl | ⟨ds, rfl, h⟩
  · simp
  · rw [List.mem_cons, not_or]
    exact ⟨by decide, digits_not_mem h (by decide)⟩

/-- text without escapes that is allowed stands for itself -/
theorem Decodes.self {byte esc : UInt8 → Prop} {s : Bytes} (h : ∀ c ∈ s, c ≠ 37 ∧ byte c) : Decodes byte esc s s := by
  induction s with
  | nil => exact .nil
  | cons c s ih => exact .byte _ _ _ (h c (List.mem_cons_self ..)).1 (h c (List.mem_cons_self ..)).2 (ih fun c hc => h c (List.mem_cons_of_mem _ hc))

theorem Decodes.inj {byte esc : UInt8 → Prop} {s t t' : Bytes} (h : Decodes byte esc s t) (h' : Decodes byte esc s t') : t = t' := by
  induction h generalizing t' with
  | nil => cases h'; rfl
  | byte c s t hc hb _ ih =>
    cases h' with
    | byte _ _ _ _ _ h' => rw [ih h']
    | esc => exact absurd rfl hc
  | esc h l x y s t hx hy he _ ih =>
    cases h' with
    | byte _ _ _ hc => exact absurd rfl hc
    | esc _ _ x' y' _ _ hx' hy' _ h' =>
      rw [hx] at hx'; rw [hy] at hy'
      cases hx'; cases hy'
      rw [ih h']

theorem bracket_port {p : Bytes} (h : Port p) : HostText (93 :: p) (93 :: p) := by
  refine Decodes.self fun c hc => ?_
  have hd : ∀ d ∈ ascii "0123456789", d ≠ 37 ∧ (HostChar d ∨ 128 ≤ d) := by unfold HostChar; decide +kernel
  rcases List.mem_cons.mp hc with rfl | hc
  · unfold HostChar; decide +kernel
  · rcases h with rfl | ⟨ds, rfl, h⟩
    · simp at hc
    · rcases List.mem_cons.mp hc with rfl | hc
      · unfold HostChar; decide +kernel
      · exact hd c (h c hc)

theorem last_unique {sep : UInt8} {a b a' b' : Bytes} (e : a ++ sep :: b = a' ++ sep :: b') (h : sep ∉ b) (h' : sep ∉ b') : a = a' ∧ b = b' := by
  have e2 := congrArg (fun x => lastIndex sep x) e
  simp only [lastIndex_append sep _ _ h, lastIndex_append sep _ _ h', Option.some.injEq] at e2
  obtain ⟨h1, h2⟩ := List.append_inj e e2
  cases h2
  exact ⟨h1, rfl⟩

theorem first_unique {sep : UInt8} {a b a' b' : Bytes} (e : a ++ sep :: b = a' ++ sep :: b') (h : sep ∉ a) (h' : sep ∉ a') : a = a' ∧ b = b' := by
  have e2 := congrArg (cut sep) e
  rw [cut_append _ _ _ h, cut_append _ _ _ h'] at e2
  cases e2
  exact ⟨rfl, rfl⟩

theorem zone_unique {a z a' z' : Bytes} (e : a ++ 37 :: 50 :: 53 :: z = a' ++ 37 :: 50 :: 53 :: z') (h : ¬ [37, 50, 53] <:+: a) (h' : ¬ [37, 50, 53] <:+: a') : a = a' ∧ z = z' := by
  have e2 := congrArg index25 e
  rw [index25_append _ _ h, index25_append _ _ h', Option.some.injEq] at e2
  obtain ⟨h1, h2⟩ := List.append_inj e e2
  cases h2
  exact ⟨h1, rfl⟩

theorem parseHost_iff (h t : Bytes) : parseHost h = some t ↔ Host h t := by
  by_cases hb : h.head? = some 91
  · unfold parseHost
    rw [if_pos hb]
    rcases last_sep 93 h with hn | ⟨A, port, rfl, hp⟩
    · rw [lastIndex_none _ _ hn]
      constructor
      · intro h; cases h
      · intro hh
        cases hh with
        | name _ _ h1 => exact absurd hb h1
        | literal a port _ _ _ _ => simp at hn
        | zone a z port t t' => simp at hn
    · rw [lastIndex_append _ _ _ hp]
      have t1 : (A ++ 93 :: port).take A.length = A := List.take_left
      have t2 : (A ++ 93 :: port).drop (A.length + 1) = port := by
        rw [← List.drop_drop, List.drop_left]; rfl
      have t3 : (A ++ 93 :: port).drop A.length = 93 :: port := List.drop_left
      simp only [t1, t2, t3]
      have hcons : ∃ a', A = 91 :: a' := by
        cases A with
        | nil => simp at hb
        | cons c a => simp at hb; subst hb; exact ⟨a, rfl⟩
      by_cases hv : Port port
      · rw [if_neg (by rw [(validOptionalPort_iff port).mpr hv]; decide)]
        rcases first25 A with hz | ⟨x, z, rfl, hz⟩
        · obtain ⟨a, rfl⟩ := hcons
          rw [index25_none _ hz]
          simp only [unescape_host]
          constructor
          · intro hh
            exact .literal a port t hz hv hh
          · intro hh
            generalize hg : 91 :: a ++ 93 :: port = g at hh ⊢
            cases hh with
            | name _ _ h1 => subst hg; exact absurd rfl h1
            | literal a' port' _ h1 h2 h3 => exact h3
            | zone a' z port' t t' h1 h2 h3 h4 =>
              have := (last_unique hg hp (port_no_bracket h2)).1
              exact absurd ⟨91 :: a', z, by rw [this]; simp⟩ hz
        · rw [index25_append _ _ hz]
          have t4 : (x ++ 37 :: 50 :: 53 :: z ++ 93 :: port).take x.length = x := by rw [List.append_assoc, List.take_left]
          simp only [t4, List.drop_left]
          obtain ⟨a, e⟩ := hcons
          have hx : ∃ x', x = 91 :: x' := by
            cases x with
            | nil => cases e
            | cons c x => cases e; exact ⟨x, rfl⟩
          obtain ⟨x, rfl⟩ := hx
          constructor
          · intro hh
            simp only [Option.bind_eq_bind, Option.bind_eq_some_iff, unescape_host, unescape_zone] at hh
            obtain ⟨h1, k1, h2, k2, h3, k3, e⟩ := hh
            cases e
            rw [Decodes.inj k3 (bracket_port hv)]
            exact .zone x z port h1 h2 hz hv k1 k2
          · intro hh
            simp only [Option.bind_eq_bind, Option.bind_eq_some_iff, unescape_host, unescape_zone]
            generalize hg : 91 :: x ++ 37 :: 50 :: 53 :: z ++ 93 :: port = g at hh
            cases hh with
            | name _ _ h1 => subst hg; exact absurd rfl h1
            | literal a' port' _ h1 h2 h3 =>
              have := (last_unique hg hp (port_no_bracket h2)).1
              exact absurd ⟨91 :: x, z, by rw [← this]; simp⟩ h1
            | zone a' z' port' t t' h1 h2 h3 h4 =>
              obtain ⟨e1, rfl⟩ := last_unique hg hp (port_no_bracket h2)
              obtain ⟨e2, rfl⟩ := zone_unique e1 hz h1
              rw [e2]
              exact ⟨t, h3, t', h4, _, bracket_port hv, rfl⟩
      · rw [if_pos (by rw [Bool.not_eq_true', Bool.eq_false_iff]; exact fun h => hv ((validOptionalPort_iff port).mp h))]
        constructor
        · intro h; cases h
        · intro hh
          generalize hg : A ++ 93 :: port = g at hh hb
          cases hh with
          | name _ _ h1 => exact absurd hb h1
          | literal a' port' _ h1 h2 h3 =>
            obtain ⟨-, rfl⟩ := last_unique hg hp (port_no_bracket h2)
            exact absurd h2 hv
          | zone a' z port' t t' h1 h2 h3 h4 =>
            obtain ⟨-, rfl⟩ := last_unique hg hp (port_no_bracket h2)
            exact absurd h2 hv
  · unfold parseHost
    rw [if_neg hb]
    have hname : Host h t ↔ (∀ a b, h = a ++ 58 :: b → 58 ∉ b → Digits b) ∧ HostText h t := by
      constructor
      · intro hh
        cases hh with
        | name _ _ h1 h2 h3 => exact ⟨h2, h3⟩
        | literal a port _ _ _ _ => exact absurd rfl hb
        | zone a z port t t' => exact absurd rfl hb
      · rintro ⟨h1, h2⟩
        exact .name _ _ hb h1 h2
    rw [hname]
    rcases last_sep 58 h with hn | ⟨a, b, rfl, hp⟩
    · rw [lastIndex_none _ _ hn]
      simp only [unescape_host]
      constructor
      · intro hh
        refine ⟨?_, hh⟩
        rintro a b rfl
        simp at hn
      · exact fun hh => hh.2
    · rw [lastIndex_append _ _ _ hp]
      simp only [List.drop_left]
      have hd : (∀ a' b', a ++ 58 :: b = a' ++ 58 :: b' → 58 ∉ b' → Digits b') ↔ Digits b := by
        constructor
        · intro hh; exact hh a b rfl hp
        · intro hh a' b' e hb'
          obtain ⟨-, rfl⟩ := last_unique e hp hb'
          exact hh
      rw [hd]
      have hport : validOptionalPort (58 :: b) = true ↔ Digits b := by
        rw [validOptionalPort_iff]
        constructor
        · rintro (h | ⟨ds, h, hd⟩)
          · cases h
          · cases h; exact hd
        · intro h; exact .inr ⟨b, rfl, h⟩
      by_cases hv : Digits b
      · rw [if_neg (by rw [hport.mpr hv]; decide), unescape_host]
        simp [hv]
      · rw [if_pos (by rw [Bool.not_eq_true', Bool.eq_false_iff]; exact fun h => hv (hport.mp h))]
        simp [hv]

end Verif.UrlParse
