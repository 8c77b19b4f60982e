import Verif.Model.OptsText
import Verif.Spec.OptsText
import Verif.Props.CommandLine
/-
Lemmas for C107 and C108.
-/
set_option autoImplicit false

namespace Verif.OptsText
open Verif.Utils Verif.Bencode Verif.Flags Verif.Args Verif.Size Spec

/-! ### numbers -/

deriving instance DecidableEq for Except

theorem uintLoop_eq (b : Nat) (s : Bytes) : ∀ n, uintLoop b n s = (uintLoopT b n s).toOption := by
  induction s with
  | nil => intro n; rfl
  | cons c s ih =>
    intro n
    unfold uintLoop uintLoopT
    by_cases h : c = 95
    · rw [if_pos h, if_pos h]; exact ih n
    · rw [if_neg h, if_neg h]
      cases digitOf c with
      | none => rfl
      | some d =>
        simp only
        by_cases h1 : d ≥ b
        · rw [if_pos h1, if_pos h1]; rfl
        · rw [if_neg h1, if_neg h1]
          by_cases h2 : n * b + d ≥ 2 ^ 64
          · rw [if_pos h2, if_pos h2]; rfl
          · rw [if_neg h2, if_neg h2]; exact ih _

theorem parseUint_eq (s : Bytes) : parseUint s = (parseUintT s).toOption := by
  unfold parseUint parseUintT
  by_cases h : s = []
  · rw [if_pos h, if_pos h]; rfl
  · rw [if_neg h, if_neg h, uintLoop_eq]
    cases uintLoopT (baseOf s).1 0 (baseOf s).2 with
    | error e => rfl
    | ok n =>
      simp only [Except.toOption]
      split <;> rfl

theorem loop_range (b : Nat) (s : Bytes) : ∀ n, n < 2 ^ 64 → (uintLoopT b n s = .error .range ↔ ∃ p t v, s = p ++ t ∧ Run b n p v ∧ 2 ^ 64 ≤ v) := by
  induction s with
  | nil =>
    intro n hn
    constructor
    · intro h; cases h
    · rintro ⟨p, t, v, h, hr, hv⟩
      have : p = [] := (List.append_eq_nil_iff.mp h.symm).1
      subst this
      cases hr
      omega
  | cons c s ih =>
    intro n hn
    unfold uintLoopT
    by_cases h : c = 95
    · subst h
      rw [if_pos rfl, ih n hn]
      constructor
      · rintro ⟨p, t, v, rfl, hr, hv⟩
        exact ⟨95 :: p, t, v, rfl, .underscore _ _ _ hr, hv⟩
      · rintro ⟨p, t, v, h, hr, hv⟩
        cases hr with
        | nil => omega
        | digit _ _ d _ _ hc hd hr =>
          simp only [List.cons_append, List.cons.injEq] at h
          rw [← h.1] at hc
          unfold DigitVal at hc
          have : (95 : UInt8).toNat = 95 := rfl
          exfalso; omega
        | underscore _ p _ hr =>
          simp only [List.cons_append, List.cons.injEq, true_and] at h
          exact ⟨p, t, v, h, hr, hv⟩
    · rw [if_neg h]
      cases hd : digitOf c with
      | none =>
        simp only
        constructor
        · intro h; cases h
        · rintro ⟨p, t, v, h', hr, hv⟩
          cases hr with
          | nil => omega
          | digit _ _ d _ _ hc hd' hr =>
            simp only [List.cons_append, List.cons.injEq] at h'
            rw [← h'.1, ← digitOf_iff, hd] at hc
            cases hc
          | underscore _ p _ hr =>
            simp only [List.cons_append, List.cons.injEq] at h'
            exact absurd h'.1 h
      | some d =>
        simp only
        have key : (∃ p t v, c :: s = p ++ t ∧ Run b n p v ∧ 2 ^ 64 ≤ v) ↔ d < b ∧ ∃ p t v, s = p ++ t ∧ Run b (n * b + d) p v ∧ 2 ^ 64 ≤ v := by
          constructor
          · rintro ⟨p, t, v, h', hr, hv⟩
            cases hr with
            | nil => omega
            | digit _ _ d' p _ hc hd' hr =>
              simp only [List.cons_append, List.cons.injEq] at h'
              rw [← h'.1, ← digitOf_iff, hd] at hc
              cases hc
              exact ⟨hd', p, t, v, h'.2, hr, hv⟩
            | underscore _ p _ hr =>
              simp only [List.cons_append, List.cons.injEq] at h'
              exact absurd h'.1 h
          · rintro ⟨hb, p, t, v, rfl, hr, hv⟩
            exact ⟨c :: p, t, v, rfl, .digit _ _ d _ _ ((digitOf_iff c d).mp hd) hb hr, hv⟩
        rw [key]
        by_cases h1 : d ≥ b
        · rw [if_pos h1]
          constructor
          · intro h; cases h
          · rintro ⟨h, -⟩; omega
        · rw [if_neg h1]
          by_cases h2 : n * b + d ≥ 2 ^ 64
          · rw [if_pos h2]
            exact ⟨fun _ => ⟨by omega, [], s, _, rfl, .nil _, h2⟩, fun _ => rfl⟩
          · rw [if_neg h2, ih _ (by omega)]
            exact ⟨fun h => ⟨by omega, h⟩, fun h => h.2⟩

theorem begins_iff (s : Bytes) (b : Nat) (ds : Bytes) : Begins s b ds ↔ baseOf s = (b, ds) := by
  match s with
  | [] =>
    constructor
    · intro h; cases h; rfl
    · intro h; cases h; exact .dec _ (by simp)
  | c :: rest =>
    by_cases hc : c = 48
    · subst hc
      cases hp : prefixOf (48 :: rest) with
      | none =>
        have hbo : baseOf (48 :: rest) = (8, rest) := by unfold baseOf; simp only [if_true]; rw [hp]
        rw [hbo]
        constructor
        · intro h
          cases h with
          | dec _ h => simp at h
          | oct => rfl
          | pre c b s hb hs =>
            rw [(prefixOf_iff _ b ds).mpr ⟨c, hb, rfl⟩] at hp; cases hp
        · intro h
          cases h
          refine .oct _ ?_
          rintro c b t hb rfl
          rw [(prefixOf_iff _ b t).mpr ⟨c, hb, rfl⟩] at hp; cases hp
      | some x =>
        obtain ⟨b', ds'⟩ := x
        have hbo : baseOf (48 :: rest) = if ds' = [] then (8, rest) else (b', ds') := by unfold baseOf; simp only [if_true]; rw [hp]
        rw [hbo]
        obtain ⟨c', hb', he⟩ := (prefixOf_iff _ b' ds').mp hp
        simp only [List.cons.injEq, true_and] at he
        subst he
        by_cases hd : ds' = []
        · rw [if_pos hd]
          subst hd
          constructor
          · intro h
            cases h with
            | dec _ h => simp at h
            | oct => rfl
            | pre c b s hb hs => exact absurd rfl hs
          · intro h
            cases h
            refine .oct _ ?_
            intro c b t hb h
            cases h; rfl
        · rw [if_neg hd]
          constructor
          · intro h
            cases h with
            | dec _ h => simp at h
            | oct _ h => exact absurd (h c' b' ds' hb' rfl) hd
            | pre _ _ _ hb hs =>
              have : b = b' := by cases hb <;> cases hb' <;> rfl
              rw [this]
          · intro h
            cases h
            exact .pre _ _ _ hb' hd
    · have hbo : baseOf (c :: rest) = (10, c :: rest) := by unfold baseOf; simp only; rw [if_neg hc]
      rw [hbo]
      constructor
      · intro h
        cases h with
        | dec => rfl
        | oct => exact absurd rfl hc
        | pre => exact absurd rfl hc
      · intro h
        cases h
        exact .dec _ (by simpa using hc)

theorem tooLarge_iff (s : Bytes) : parseUintT s = .error .range ↔ TooLarge s := by
  have h1 : TooLarge s ↔ uintLoopT (baseOf s).1 0 (baseOf s).2 = .error .range := by
    rw [loop_range _ _ 0 (by decide)]
    constructor
    · rintro ⟨b, ds, p, t, v, hb, hd, hr, hv⟩
      rw [(begins_iff _ _ _).mp hb]
      exact ⟨p, t, v, hd, hr, hv⟩
    · rintro ⟨p, t, v, hd, hr, hv⟩
      exact ⟨_, _, p, t, v, (begins_iff _ _ _).mpr rfl, hd, hr, hv⟩
  rw [h1]
  unfold parseUintT
  by_cases h : s = []
  · subst h; rw [if_pos rfl]; simp [baseOf, uintLoopT]
  · rw [if_neg h]
    cases uintLoopT (baseOf s).1 0 (baseOf s).2 with
    | error e => exact Iff.rfl
    | ok n =>
      simp only
      split <;> simp

theorem digits_run {b n v : Nat} {s : Bytes} (h : Digits b n s v) : Run b n s v := by
  induction h with
  | nil => exact .nil _
  | digit n c d s v hc hd h ih => exact .digit _ _ d _ _ hc hd ih
  | underscore n c d s v hc hd h ih => exact .underscore _ _ _ (.digit _ _ d _ _ hc hd ih)

/-- numerals that have no place in 64 bits are among those texts -/
theorem numeral_large {s : Bytes} {v : Nat} (h : Numeral s v) (hv : 2 ^ 64 ≤ v) : TooLarge s := by
  cases h with
  | dec c d s v hc h0 hd h =>
    refine ⟨10, c :: s, c :: s, [], v, .dec _ ?_, by simp, .digit _ _ d _ _ hc hd ?_, hv⟩
    · intro h
      simp only [List.head?_cons, Option.some.injEq] at h
      subst h
      unfold DigitVal at hc
      have : (48 : UInt8).toNat = 48 := rfl
      omega
    · rw [Nat.zero_mul, Nat.zero_add]; exact digits_run h
  | oct s v h =>
    refine ⟨8, s, s, [], v, .oct _ ?_, by simp, digits_run h, hv⟩
    rintro c b t hb rfl
    exfalso
    cases h with
    | digit _ _ d _ _ hc hd h => unfold DigitVal at hc; cases hb <;> simp at hc <;> omega
    | underscore => cases hb
  | pre c b s v hb hs h => exact ⟨b, s, s, [], v, .pre _ _ _ hb hs, by simp, digits_run h, hv⟩

theorem good_iff (s : Bytes) : GoodNumber s ↔ ∃ n, parseUintT s = .ok n := by
  have : ∀ n, parseUintT s = .ok n ↔ parseUint s = some n := by
    intro n; rw [parseUint_eq]; cases parseUintT s <;> simp [Except.toOption]
  unfold GoodNumber
  constructor
  · rintro ⟨v, h⟩; exact ⟨v, (this v).mpr ((C75_number s v).mpr h)⟩
  · rintro ⟨v, h⟩; exact ⟨v, (C75_number s v).mp ((this v).mp h)⟩

theorem bad_iff (s w : Bytes) : BadNumber s w ↔ ∃ e : NumWhy, parseUintT s = .error e ∧ e.text = w := by
  constructor
  · intro h
    cases h with
    | large h => exact ⟨.range, (tooLarge_iff s).mpr h, rfl⟩
    | garbled h h1 =>
      cases hp : parseUintT s with
      | ok n =>
        obtain ⟨v, hv, -⟩ := (good_iff s).mpr ⟨n, hp⟩
        exact absurd hv (h1 v)
      | error e =>
        cases e with
        | range => exact absurd ((tooLarge_iff s).mp hp) h
        | garbled => exact ⟨.garbled, rfl, rfl⟩
  · rintro ⟨e, he, rfl⟩
    cases e with
    | range => exact .large _ ((tooLarge_iff s).mp he)
    | garbled =>
      have hnl : ¬ TooLarge s := by
        rw [← tooLarge_iff, he]; simp
      refine .garbled _ hnl ?_
      intro v hv
      by_cases hlt : v < 2 ^ 64
      · obtain ⟨n, hn⟩ := (good_iff s).mp ⟨v, hv, hlt⟩
        rw [he] at hn; cases hn
      · exact hnl (numeral_large hv (by omega))

/-! ### arguments -/

/-- without the texts -/
def OneT.erase : OneT → One
  | .stop => .stop
  | .fail _ => .fail
  | .help => .help
  | .flag f _ v => .flag f v

theorem parseName_erase (s name : Bytes) : (parseNameT s name).erase = parseName name := by
  unfold parseNameT parseName
  cases name with
  | nil => rfl
  | cons c cs =>
    simp only
    by_cases h : c = 45 ∨ c = 61
    · rw [if_pos h, if_pos h]; rfl
    · rw [if_neg h, if_neg h]
      cases lookup (splitEq (c :: cs)).1 with
      | some f => rfl
      | none => simp only; split <;> rfl

theorem parseArg_erase (s : Bytes) : (parseArgT s).erase = parseArg s := by
  match s with
  | [] => rfl
  | [_] => rfl
  | a :: b :: rest =>
    unfold parseArgT parseArg
    simp only
    by_cases h : a ≠ 45
    · rw [if_pos h, if_pos h]; rfl
    · rw [if_neg h, if_neg h]
      by_cases h1 : b = 45
      · rw [if_pos h1, if_pos h1]
        by_cases h2 : rest = []
        · rw [if_pos h2, if_pos h2]; rfl
        · rw [if_neg h2, if_neg h2]; exact parseName_erase _ _
      · rw [if_neg h1, if_neg h1]; exact parseName_erase _ _

/-- an argument that is taken for an option: dashes, and a text that is not empty and does not start with a dash or is behind two of them -/
theorem parseArg_form (s : Bytes) (h : parseArgT s ≠ .stop) : ∃ dash t, Dash dash ∧ s = dash ++ t ∧ t ≠ [] ∧ (dash = ascii "-" → t.head? ≠ some 45) ∧
    parseArgT s = parseNameT s t := by
  have d1 : ascii "-" = [45] := by decide
  have d2 : ascii "--" = [45, 45] := by decide
  match s with
  | [] => exact absurd rfl h
  | [_] => exact absurd rfl h
  | a :: b :: rest =>
    unfold parseArgT at h ⊢
    simp only at h ⊢
    by_cases h0 : a ≠ 45
    · rw [if_pos h0] at h; exact absurd rfl h
    · rw [if_neg h0] at h ⊢
      have ha : a = 45 := by simpa using h0
      subst ha
      by_cases h1 : b = 45
      · rw [if_pos h1] at h ⊢
        subst h1
        by_cases h2 : rest = []
        · rw [if_pos h2] at h; exact absurd rfl h
        · rw [if_neg h2]
          refine ⟨ascii "--", rest, .inr rfl, by rw [d2]; rfl, h2, ?_, rfl⟩
          intro h; rw [d1, d2] at h; exact absurd h (by decide)
      · rw [if_neg h1]
        exact ⟨ascii "-", b :: rest, .inl rfl, by rw [d1]; rfl, by simp, fun _ => by simpa using h1, rfl⟩

theorem parseArg_of (dash t : Bytes) (hd : Dash dash) (ht : t ≠ []) (h : t.head? ≠ some 45 ∨ dash = ascii "--") :
    parseArgT (dash ++ t) = parseNameT (dash ++ t) t := by
  have d1 : ascii "-" = [45] := by decide
  have d2 : ascii "--" = [45, 45] := by decide
  cases t with
  | nil => exact absurd rfl ht
  | cons c cs =>
    rcases hd with rfl | rfl
    · rw [d1, d2] at h
      have hc : c ≠ 45 := by
        rcases h with h | h
        · simpa using h
        · exact absurd h (by decide)
      rw [d1]
      simp only [List.cons_append, List.nil_append]
      unfold parseArgT
      simp only
      rw [if_neg (by simp), if_neg hc]
    · rw [d2]
      simp only [List.cons_append, List.nil_append]
      unfold parseArgT
      simp only
      rw [if_neg (by simp), if_pos trivial, if_neg (by simp)]

/-- the text behind the dashes is a name, or a name and a value -/
theorem split_form (c : UInt8) (cs : Bytes) (hc : c ≠ 61) : 61 ∉ (splitEq (c :: cs)).1 ∧ (splitEq (c :: cs)).1.head? = some c ∧
    ((c :: cs = (splitEq (c :: cs)).1 ∧ (splitEq (c :: cs)).2 = none) ∨ ∃ v, c :: cs = (splitEq (c :: cs)).1 ++ ascii "=" ++ v ∧ (splitEq (c :: cs)).2 = some v) := by
  have d3 : ascii "=" = [61] := by decide
  unfold splitEq
  simp only
  by_cases h : (61 : UInt8) ∈ cs
  · rw [if_pos h]
    refine ⟨?_, rfl, .inr ⟨_, ?_, rfl⟩⟩
    · intro hm
      rcases List.mem_cons.mp hm with e | e
      · exact hc e.symm
      · have := List.all_takeWhile (p := fun x : UInt8 => decide (x ≠ 61)) (l := cs)
        rw [List.all_eq_true] at this
        exact absurd (this 61 e) (by decide)
    · rw [d3, List.cons_append, List.cons_append, ← takeDrop cs h]
  · rw [if_neg h]
    refine ⟨?_, rfl, .inl ⟨rfl, rfl⟩⟩
    intro hm
    rcases List.mem_cons.mp hm with e | e
    · exact hc e.symm
    · exact h e

theorem split_name (name : Bytes) (hn : name ≠ []) (h61 : 61 ∉ name) : splitEq name = (name, none) ∧ ∀ v, splitEq (name ++ ascii "=" ++ v) = (name, some v) := by
  have d3 : ascii "=" = [61] := by decide
  cases name with
  | nil => exact absurd rfl hn
  | cons c cs =>
    rw [List.mem_cons, not_or] at h61
    constructor
    · unfold splitEq; simp only; rw [if_neg h61.2]
    · intro v
      obtain ⟨t1, t2⟩ := takeWhile_append61 cs v h61.2
      rw [d3, List.append_assoc, List.cons_append, List.cons_append, List.nil_append]
      unfold splitEq; simp only; rw [if_pos (by simp), t1, t2]

theorem names_iff (s name : Bytes) : Names s name ↔ ∃ t, parseArgT s = parseNameT s t ∧ t ≠ [] ∧ t.head? ≠ some 45 ∧ t.head? ≠ some 61 ∧ (splitEq t).1 = name ∧
    ∃ dash, Dash dash ∧ s = dash ++ t := by
  constructor
  · rintro ⟨h1, h2, h3, dash, hd, h4⟩
    have hh : name.head? ≠ some 61 := by
      cases name with
      | nil => simp
      | cons c cs =>
        rw [List.mem_cons, not_or] at h3
        intro h
        simp only [List.head?_cons, Option.some.injEq] at h
        exact h3.1 h.symm
    rcases h4 with rfl | ⟨v, rfl⟩
    · exact ⟨name, parseArg_of dash name hd h1 (.inl h2), h1, h2, hh, by rw [(split_name name h1 h3).1], dash, hd, rfl⟩
    · have e : dash ++ name ++ ascii "=" ++ v = dash ++ (name ++ ascii "=" ++ v) := by simp
      have hhd : ∀ t, (name ++ t).head? = name.head? := by
        intro t
        cases name with
        | nil => exact absurd rfl h1
        | cons c cs => rfl
      rw [e]
      refine ⟨name ++ ascii "=" ++ v, parseArg_of dash _ hd (by simp [h1]) (.inl ?_), by simp [h1], ?_, ?_, by rw [(split_name name h1 h3).2], dash, hd, rfl⟩
      · rw [List.append_assoc, hhd]; exact h2
      · rw [List.append_assoc, hhd]; exact h2
      · rw [List.append_assoc, hhd]; exact hh
  · rintro ⟨t, -, h1, h2, h3, rfl, dash, hd, rfl⟩
    cases t with
    | nil => exact absurd rfl h1
    | cons c cs =>
      simp only [List.head?_cons, ne_eq, Option.some.injEq] at h2 h3
      obtain ⟨s1, s2, s3⟩ := split_form c cs h3
      refine ⟨?_, ?_, s1, dash, hd, ?_⟩
      · intro h; rw [h] at s2; cases s2
      · rw [s2]; simpa using h2
      · rcases s3 with ⟨e, -⟩ | ⟨v, e, -⟩
        · exact .inl (by rw [← e])
        · exact .inr ⟨v, by rw [List.append_assoc, List.append_assoc, ← List.append_assoc (splitEq (c :: cs)).1, ← e]⟩

theorem parseName_fail (s t : Bytes) (l : Line) (ht : t ≠ []) : parseNameT s t = .fail l ↔
    ((t.head? = some 45 ∨ t.head? = some 61) ∧ l = .badSyntax s) ∨
    (t.head? ≠ some 45 ∧ t.head? ≠ some 61 ∧ (splitEq t).1 ∉ names ∧ (splitEq t).1 ≠ ascii "help" ∧ (splitEq t).1 ≠ ascii "h" ∧ l = .undefined (splitEq t).1) := by
  cases t with
  | nil => exact absurd rfl ht
  | cons c cs =>
    simp only [List.head?_cons, Option.some.injEq, ne_eq]
    unfold parseNameT
    simp only
    by_cases h : c = 45 ∨ c = 61
    · rw [if_pos h]
      constructor
      · intro e; cases e; exact .inl ⟨h, rfl⟩
      · rintro (⟨-, rfl⟩ | ⟨h1, h2, -⟩)
        · rfl
        · exact absurd h (by simp [h1, h2])
    · rw [if_neg h]
      rw [not_or] at h
      have hm : (splitEq (c :: cs)).1 ∈ names ↔ ∃ f, lookup (splitEq (c :: cs)).1 = some f := by
        rw [mem_names]
        exact ⟨fun ⟨f, hf⟩ => ⟨f, (lookup_iff _ _).mpr hf⟩, fun ⟨f, hf⟩ => ⟨f, (lookup_iff _ _).mp hf⟩⟩
      rw [hm]
      cases hl : lookup (splitEq (c :: cs)).1 with
      | some f => simp [h.1, h.2]
      | none =>
        simp only
        by_cases hh : (splitEq (c :: cs)).1 = ascii "help" ∨ (splitEq (c :: cs)).1 = ascii "h"
        · rw [if_pos hh]
          simp only [h.1, h.2, or_self, false_and, reduceCtorEq, exists_false, not_false_eq_true, true_and, false_or, false_iff]
          rintro ⟨h1, h2, -⟩
          rcases hh with e | e
          · exact h1 e
          · exact h2 e
        · rw [if_neg hh]
          rw [not_or] at hh
          simp only [h.1, h.2, hh.1, hh.2, or_self, false_and, reduceCtorEq, exists_false, not_false_eq_true, true_and, false_or, OneT.fail.injEq]
          exact ⟨fun e => e.symm, fun e => e.symm⟩

theorem parseName_help (s t : Bytes) (ht : t ≠ []) : parseNameT s t = .help ↔
    t.head? ≠ some 45 ∧ t.head? ≠ some 61 ∧ ((splitEq t).1 = ascii "help" ∨ (splitEq t).1 = ascii "h") := by
  cases t with
  | nil => exact absurd rfl ht
  | cons c cs =>
    simp only [List.head?_cons, Option.some.injEq, ne_eq]
    unfold parseNameT
    simp only
    by_cases h : c = 45 ∨ c = 61
    · rw [if_pos h]
      simp only [reduceCtorEq, false_iff]
      rintro ⟨h1, h2, -⟩
      rcases h with e | e
      · exact h1 e
      · exact h2 e
    · rw [if_neg h]
      rw [not_or] at h
      by_cases hh : (splitEq (c :: cs)).1 = ascii "help" ∨ (splitEq (c :: cs)).1 = ascii "h"
      · have : lookup (splitEq (c :: cs)).1 = none := by
          rcases hh with e | e <;> rw [e] <;> decide
        rw [this]
        simp only
        rw [if_pos hh]
        simp [h, hh]
      · cases hl : lookup (splitEq (c :: cs)).1 with
        | some f => simp [hh]
        | none => simp [hh]

theorem head_cons {c : UInt8} {t : Bytes} (h : t.head? = some c) : ∃ r, t = c :: r := by
  cases t with
  | nil => cases h
  | cons d r => simp only [List.head?_cons, Option.some.injEq] at h; subst h; exact ⟨r, rfl⟩

/-- the arguments that are refused alone -/
theorem parseArg_fail (s : Bytes) (l : Line) : parseArgT s = .fail l ↔ (Malformed s ∧ l = .badSyntax s) ∨
    ∃ name, Names s name ∧ name ∉ names ∧ name ≠ ascii "help" ∧ name ≠ ascii "h" ∧ l = .undefined name := by
  have d1 : ascii "-" = [45] := by decide
  have d2 : ascii "--" = [45, 45] := by decide
  have m1 : ascii "---" = [45, 45, 45] := by decide
  have m2 : ascii "-=" = [45, 61] := by decide
  have m3 : ascii "--=" = [45, 45, 61] := by decide
  constructor
  · intro h
    obtain ⟨dash, t, hd, he, ht, hm, hp⟩ := parseArg_form s (by rw [h]; simp)
    rw [hp] at h
    rcases (parseName_fail s t l ht).mp h with ⟨h1, h2⟩ | ⟨h1, h2, h3, h4, h5, h6⟩
    · left
      refine ⟨?_, h2⟩
      rcases h1 with h1 | h1
      · have hdd : dash = ascii "--" := by
          rcases hd with rfl | rfl
          · exact absurd h1 (hm rfl)
          · rfl
        obtain ⟨r, rfl⟩ := head_cons h1
        exact ⟨r, .inl (by rw [he, hdd, d2, m1]; rfl)⟩
      · obtain ⟨r, rfl⟩ := head_cons h1
        rcases hd with rfl | rfl
        · exact ⟨r, .inr (.inl (by rw [he, d1, m2]; rfl))⟩
        · exact ⟨r, .inr (.inr (by rw [he, d2, m3]; rfl))⟩
    · right
      exact ⟨_, (names_iff s _).mpr ⟨t, hp, ht, h1, h2, rfl, dash, hd, he⟩, h3, h4, h5, h6⟩
  · rintro (⟨⟨r, hr⟩, rfl⟩ | ⟨name, hn, h1, h2, h3, rfl⟩)
    · have key : ∃ dash t, Dash dash ∧ s = dash ++ t ∧ (t.head? = some 45 ∧ dash = ascii "--" ∨ t.head? = some 61) := by
        rcases hr with rfl | rfl | rfl
        · exact ⟨ascii "--", 45 :: r, .inr rfl, by rw [m1, d2]; rfl, .inl ⟨rfl, rfl⟩⟩
        · exact ⟨ascii "-", 61 :: r, .inl rfl, by rw [m2, d1]; rfl, .inr rfl⟩
        · exact ⟨ascii "--", 61 :: r, .inr rfl, by rw [m3, d2]; rfl, .inr rfl⟩
      obtain ⟨dash, t, hd, rfl, ht⟩ := key
      have htn : t ≠ [] := by rintro rfl; simp at ht
      rw [parseArg_of dash t hd htn (by rcases ht with ⟨-, h⟩ | h; exact .inr h; exact .inl (by rw [h]; simp))]
      exact (parseName_fail _ t _ htn).mpr (.inl ⟨by rcases ht with ⟨h, -⟩ | h; exact .inl h; exact .inr h, rfl⟩)
    · obtain ⟨t, hp, ht, t1, t2, rfl, -⟩ := (names_iff s name).mp hn
      rw [hp]
      exact (parseName_fail s t _ ht).mpr (.inr ⟨t1, t2, h1, h2, h3, rfl⟩)

theorem parseArg_help (s : Bytes) : parseArgT s = .help ↔ ∃ name, Names s name ∧ (name = ascii "help" ∨ name = ascii "h") := by
  constructor
  · intro h
    obtain ⟨dash, t, hd, he, ht, -, hp⟩ := parseArg_form s (by rw [h]; simp)
    rw [hp] at h
    obtain ⟨h1, h2, h3⟩ := (parseName_help s t ht).mp h
    exact ⟨_, (names_iff s _).mpr ⟨t, hp, ht, h1, h2, rfl, dash, hd, he⟩, h3⟩
  · rintro ⟨name, hn, hh⟩
    obtain ⟨t, hp, ht, t1, t2, rfl, -⟩ := (names_iff s name).mp hn
    rw [hp]
    exact (parseName_help s t ht).mpr ⟨t1, t2, hh⟩

/-- options carry their name -/
theorem parseArg_flagT (s : Bytes) (f : Flag) (nm : Bytes) (v : Option Bytes) : parseArgT s = .flag f nm v ↔ nm = nameOf f ∧ parseArg s = .flag f v := by
  have hname : ∀ f nm v, parseArgT s = .flag f nm v → nm = nameOf f := by
    intro f nm v h
    obtain ⟨dash, t, hd, he, ht, -, hp⟩ := parseArg_form s (by rw [h]; simp)
    rw [hp] at h
    unfold parseNameT at h
    split at h
    · cases h
    · split at h
      · cases h
      · split at h
        · rename_i g hg
          cases h
          exact (lookup_iff _ _).mp hg
        · split at h <;> cases h
  constructor
  · intro h
    exact ⟨hname f nm v h, by rw [← parseArg_erase, h]; rfl⟩
  · rintro ⟨rfl, h⟩
    rw [← parseArg_erase] at h
    cases hp : parseArgT s with
    | stop => rw [hp] at h; cases h
    | fail l => rw [hp] at h; cases h
    | help => rw [hp] at h; cases h
    | flag f' nm' v' =>
      rw [hp] at h
      cases h
      rw [hname _ _ _ hp]

theorem setFlag_eq (o : Opts) (f : Flag) (v : Bytes) : setFlag o f v = (setFlagT o f v).toOption := by
  cases f <;> try rfl
  unfold setFlag setFlagT
  rw [parseUint_eq]
  cases parseUintT v <;> rfl

theorem setFlag_ok (o : Opts) (f : Flag) (v : Bytes) : (∃ o', setFlagT o f v = .ok o') ↔ (nameOf f = ascii "p" → GoodNumber v) := by
  rw [good_iff]
  cases f with
  | p =>
    simp only [setFlagT, nameOf, true_implies]
    cases parseUintT v <;> simp
  | i => exact ⟨fun _ h => absurd h (by decide), fun _ => ⟨_, rfl⟩⟩
  | w => exact ⟨fun _ h => absurd h (by decide), fun _ => ⟨_, rfl⟩⟩
  | cmd => exact ⟨fun _ h => absurd h (by decide), fun _ => ⟨_, rfl⟩⟩
  | u => exact ⟨fun _ h => absurd h (by decide), fun _ => ⟨_, rfl⟩⟩
  | d => exact ⟨fun _ h => absurd h (by decide), fun _ => ⟨_, rfl⟩⟩

theorem setFlag_error (o : Opts) (f : Flag) (v : Bytes) (e : NumWhy) : setFlagT o f v = .error e ↔ f = .p ∧ parseUintT v = .error e := by
  cases f with
  | p =>
    simp only [setFlagT, true_and]
    cases parseUintT v <;> simp
  | i => simp [setFlagT]
  | w => simp [setFlagT]
  | cmd => simp [setFlagT]
  | u => simp [setFlagT]
  | d => simp [setFlagT]

/-! ### all arguments -/

theorem parse_setting {s : List Bytes} {name v : Bytes} (h : Setting s name v) : ∃ f, name = nameOf f ∧ ∀ (o : Opts) (rest : List Bytes),
    parseArgsT o (s ++ rest) = match setFlagT o f v with
      | .ok o' => parseArgsT o' rest
      | .error e => .fail (.value v name e) := by
  cases h with
  | two dash name v hd hn =>
    obtain ⟨f, rfl⟩ := (mem_names name).mp hn
    refine ⟨f, rfl, ?_⟩
    intro o rest
    have hp : parseArgT (dash ++ nameOf f) = .flag f (nameOf f) none :=
      (parseArg_flagT _ _ _ _).mpr ⟨rfl, (parseArg_flag _ f none).mpr ⟨dash, hd, .inl ⟨rfl, rfl⟩⟩⟩
    simp only [List.cons_append, List.nil_append]
    rw [parseArgsT.eq_def]
    simp only [hp]
    cases setFlagT o f v <;> rfl
  | one dash name v hd hn =>
    obtain ⟨f, rfl⟩ := (mem_names name).mp hn
    refine ⟨f, rfl, ?_⟩
    intro o rest
    have hp : parseArgT (dash ++ nameOf f ++ ascii "=" ++ v) = .flag f (nameOf f) (some v) :=
      (parseArg_flagT _ _ _ _).mpr ⟨rfl, (parseArg_flag _ f (some v)).mpr ⟨dash, hd, .inr ⟨v, rfl, rfl⟩⟩⟩
    simp only [List.cons_append, List.nil_append]
    rw [parseArgsT.eq_def]
    simp only [hp]
    cases setFlagT o f v <;> rfl

theorem parse_settings {front : List Bytes} (h : Settings front) : ∀ (o : Opts) (rest : List Bytes), ∃ o', parseArgsT o (front ++ rest) = parseArgsT o' rest := by
  induction h with
  | nil => intro o rest; exact ⟨o, rfl⟩
  | cons s r name v hs hp hr ih =>
    intro o rest
    obtain ⟨f, rfl, he⟩ := parse_setting hs
    obtain ⟨o1, h1⟩ := (setFlag_ok o f v).mpr hp
    obtain ⟨o2, h2⟩ := ih o1 rest
    refine ⟨o2, ?_⟩
    rw [List.append_assoc, he, h1]
    exact h2

/-- how the front of a list of arguments looks -/
theorem parse_cases (o : Opts) (s : Bytes) (rest : List Bytes) :
    (parseArgT s = .stop ∧ parseArgsT o (s :: rest) = .ok o) ∨
    (∃ l, parseArgT s = .fail l ∧ parseArgsT o (s :: rest) = .fail l) ∨
    (parseArgT s = .help ∧ parseArgsT o (s :: rest) = .help) ∨
    (∃ dash f, Dash dash ∧ s = dash ++ nameOf f ∧ rest = [] ∧ parseArgsT o (s :: rest) = .fail (.needs (nameOf f))) ∨
    (∃ front f v r, s :: rest = front ++ r ∧ Setting front (nameOf f) v ∧ r.length ≤ rest.length) := by
  cases hp : parseArgT s with
  | stop => refine .inl ⟨rfl, ?_⟩; rw [parseArgsT.eq_def]; simp only [hp]
  | fail l => refine .inr (.inl ⟨l, rfl, ?_⟩); rw [parseArgsT.eq_def]; simp only [hp]
  | help => refine .inr (.inr (.inl ⟨rfl, ?_⟩)); rw [parseArgsT.eq_def]; simp only [hp]
  | flag f nm v =>
    obtain ⟨rfl, h⟩ := (parseArg_flagT _ _ _ _).mp hp
    obtain ⟨dash, hd, hv⟩ := (parseArg_flag _ _ _).mp h
    have hn := (mem_names (nameOf f)).mpr ⟨f, rfl⟩
    right; right; right
    rcases hv with ⟨rfl, rfl⟩ | ⟨x, rfl, rfl⟩
    · cases rest with
      | nil =>
        refine .inl ⟨dash, f, hd, rfl, rfl, ?_⟩
        rw [parseArgsT.eq_def]; simp only [hp]
      | cons x r => exact .inr ⟨_, f, x, r, rfl, .two dash _ x hd hn, by simp⟩
    · exact .inr ⟨_, f, x, rest, rfl, .one dash _ x hd hn, Nat.le_refl _⟩

theorem setting_ne {s : List Bytes} {name v : Bytes} (h : Setting s name v) : 1 ≤ s.length := by cases h <;> simp

theorem fault_to (other : Bytes → Bytes) (n : Nat) : ∀ (args : List Bytes) (o : Opts) (l : Line), args.length ≤ n → parseArgsT o args = .fail l →
    Fault (quote other) args (l.text other) := by
  induction n with
  | zero =>
    intro args o l hl h
    have : args = [] := List.eq_nil_of_length_eq_zero (by omega)
    subst this; cases h
  | succ n ih =>
    intro args o l hl h
    cases args with
    | nil => cases h
    | cons s rest =>
      simp only [List.length_cons] at hl
      rcases parse_cases o s rest with ⟨-, h1⟩ | ⟨l', h0, h1⟩ | ⟨-, h1⟩ | ⟨dash, f, hd, rfl, rfl, h1⟩ | ⟨front, f, v, r, he, hs, hr⟩
      · rw [h1] at h; cases h
      · rw [h1] at h
        cases h
        refine ⟨[], s :: rest, rfl, .nil, ?_⟩
        rcases (parseArg_fail s l).mp h0 with ⟨hm, rfl⟩ | ⟨name, g1, g2, g3, g4, rfl⟩
        · exact .malformed _ _ hm
        · exact .unknown _ _ _ g1 g2 ⟨g3, g4⟩
      · rw [h1] at h; cases h
      · rw [h1] at h
        cases h
        exact ⟨[], _, rfl, .nil, .missing dash _ hd ((mem_names _).mpr ⟨f, rfl⟩)⟩
      · rw [he] at h ⊢
        obtain ⟨g, hg, hp⟩ := parse_setting hs
        rw [hp] at h
        have hgf : f = g := by
          have := (lookup_iff (nameOf f) f).mpr rfl
          rw [hg, (lookup_iff (nameOf g) g).mpr rfl] at this
          exact (Option.some.inj this).symm
        subst hgf
        cases hset : setFlagT o f v with
        | error e =>
          rw [hset] at h
          simp only [Parsed.fail.injEq] at h
          subst h
          obtain ⟨rfl, hu⟩ := (setFlag_error o f v e).mp hset
          have w := Wrong.number (q := quote other) front r v _ hs ((bad_iff v _).mpr ⟨e, hu, rfl⟩)
          rw [show (ascii " for flag -p: " : Bytes) = ascii " for flag -" ++ ascii "p" ++ ascii ": " by decide +kernel] at w
          refine ⟨[], front ++ r, rfl, .nil, ?_⟩
          simp only [Line.text, nameOf, List.append_assoc] at w ⊢
          exact w
        | ok o' =>
          rw [hset] at h
          obtain ⟨fr, rs, e1, e2, e3⟩ := ih r o' l (by omega) h
          exact ⟨front ++ fr, rs, by rw [e1, List.append_assoc], .cons _ _ _ v hs ((setFlag_ok o f v).mp ⟨o', hset⟩) e2, e3⟩

theorem fault_from (other : Bytes → Bytes) (args : List Bytes) (o : Opts) (line : Bytes) (h : Fault (quote other) args line) :
    ∃ l, parseArgsT o args = .fail l ∧ l.text other = line := by
  obtain ⟨front, rest, rfl, hf, hw⟩ := h
  obtain ⟨o', ho⟩ := parse_settings hf o rest
  rw [ho]
  cases hw with
  | malformed arg rest h =>
    refine ⟨.badSyntax arg, ?_, rfl⟩
    rw [parseArgsT.eq_def]
    simp only [(parseArg_fail arg (.badSyntax arg)).mpr (.inl ⟨h, rfl⟩)]
  | unknown arg name rest h hn hh =>
    refine ⟨.undefined name, ?_, rfl⟩
    rw [parseArgsT.eq_def]
    simp only [(parseArg_fail arg (.undefined name)).mpr (.inr ⟨name, h, hn, hh.1, hh.2, rfl⟩)]
  | missing dash name hd hn =>
    obtain ⟨f, rfl⟩ := (mem_names name).mp hn
    refine ⟨.needs (nameOf f), ?_, rfl⟩
    have hp : parseArgT (dash ++ nameOf f) = .flag f (nameOf f) none :=
      (parseArg_flagT _ _ _ _).mpr ⟨rfl, (parseArg_flag _ f none).mpr ⟨dash, hd, .inl ⟨rfl, rfl⟩⟩⟩
    rw [parseArgsT.eq_def]
    simp only [hp]
  | number s rest v why hs hb =>
    obtain ⟨f, hf, hp⟩ := parse_setting hs
    obtain ⟨e, he, rfl⟩ := (bad_iff v _).mp hb
    have : f = .p := by cases f <;> first | rfl | exact absurd hf (by decide)
    subst this
    refine ⟨.value v (ascii "p") e, ?_, ?_⟩
    · rw [hp, (setFlag_error o' .p v e).mpr ⟨rfl, he⟩]
    · simp only [Line.text]
      rw [show (ascii " for flag -p: " : Bytes) = ascii " for flag -" ++ ascii "p" ++ ascii ": " by decide +kernel]
      simp [List.append_assoc]

theorem help_iff (n : Nat) : ∀ (args : List Bytes) (o : Opts), args.length ≤ n → (parseArgsT o args = .help ↔ AsksHelp args) := by
  intro args o hl
  constructor
  · intro h
    induction n generalizing args o with
    | zero =>
      have : args = [] := List.eq_nil_of_length_eq_zero (by omega)
      subst this; cases h
    | succ n ih =>
      cases args with
      | nil => cases h
      | cons s rest =>
        simp only [List.length_cons] at hl
        rcases parse_cases o s rest with ⟨-, h1⟩ | ⟨l', h0, h1⟩ | ⟨h0, h1⟩ | ⟨dash, f, hd, rfl, rfl, h1⟩ | ⟨front, f, v, r, he, hs, hr⟩
        · rw [h1] at h; cases h
        · rw [h1] at h; cases h
        · obtain ⟨name, g1, g2⟩ := (parseArg_help s).mp h0
          exact ⟨[], s, name, rest, rfl, .nil, g1, g2⟩
        · rw [h1] at h; cases h
        · rw [he] at h ⊢
          obtain ⟨g, hg, hp⟩ := parse_setting hs
          rw [hp] at h
          cases hset : setFlagT o g v with
          | error e => rw [hset] at h; cases h
          | ok o' =>
            rw [hset] at h
            obtain ⟨fr, arg, name, rs, e1, e2, e3, e4⟩ := ih r o' (by omega) h
            rw [hg] at hs
            exact ⟨front ++ fr, arg, name, rs, by rw [e1, List.append_assoc], .cons _ _ _ v hs ((setFlag_ok o g v).mp ⟨o', hset⟩) e2, e3, e4⟩
  · rintro ⟨front, arg, name, rest, rfl, hf, hn, hh⟩
    obtain ⟨o', ho⟩ := parse_settings hf o (arg :: rest)
    rw [ho, parseArgsT.eq_def]
    simp only [(parseArg_help arg).mpr ⟨name, hn, hh⟩]

/-- the two models of `Parse` agree -/
theorem parse_eq (n : Nat) : ∀ (args : List Bytes) (o : Opts), args.length ≤ n → parseArgs o args = match parseArgsT o args with
    | .ok o' => .ok o'
    | .help => .error 0
    | .fail _ => .error 2 := by
  induction n with
  | zero =>
    intro args o hl
    have : args = [] := List.eq_nil_of_length_eq_zero (by omega)
    subst this; rfl
  | succ n ih =>
    intro args o hl
    cases args with
    | nil => rfl
    | cons s rest =>
      simp only [List.length_cons] at hl
      rw [parseArgs.eq_def, parseArgsT.eq_def]
      simp only
      rw [← parseArg_erase]
      cases parseArgT s with
      | stop => rfl
      | fail l => rfl
      | help => rfl
      | flag f nm v =>
        cases v with
        | some v =>
          simp only [OneT.erase]
          rw [setFlag_eq]
          cases setFlagT o f v with
          | error e => rfl
          | ok o' => exact ih rest o' (by omega)
        | none =>
          simp only [OneT.erase]
          cases rest with
          | nil => rfl
          | cons v r =>
            simp only
            rw [setFlag_eq]
            cases setFlagT o f v with
            | error e => rfl
            | ok o' => exact ih r o' (by simp only [List.length_cons] at hl; omega)

end Verif.OptsText
