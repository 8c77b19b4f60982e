import Verif.Model.Flags
import Verif.Spec.Args
import Verif.Props.Utils
/-
Property C75: the command line.
-/
set_option autoImplicit false

namespace Verif.Flags
open Verif.Utils Verif.Bencode Verif.Args Verif.Size

/-! ### numbers -/

theorem digitOf_tbl (c : UInt8) : digitOf c = if 48 ≤ c.toNat ∧ c.toNat ≤ 57 then some (c.toNat - 48)
    else if 97 ≤ c.toNat ∧ c.toNat ≤ 122 then some (c.toNat - 87) else if 65 ≤ c.toNat ∧ c.toNat ≤ 90 then some (c.toNat - 55) else none := by
  have h : ∀ n : Fin 256, digitOf (UInt8.ofNat n.val) = if 48 ≤ (UInt8.ofNat n.val).toNat ∧ (UInt8.ofNat n.val).toNat ≤ 57 then
      some ((UInt8.ofNat n.val).toNat - 48)
    else if 97 ≤ (UInt8.ofNat n.val).toNat ∧ (UInt8.ofNat n.val).toNat ≤ 122 then some ((UInt8.ofNat n.val).toNat - 87)
    else if 65 ≤ (UInt8.ofNat n.val).toNat ∧ (UInt8.ofNat n.val).toNat ≤ 90 then some ((UInt8.ofNat n.val).toNat - 55) else none := by
    decide +kernel
  have := h ⟨c.toNat, c.toNat_lt⟩
  simpa using this

theorem digitOf_iff (c : UInt8) (d : Nat) : digitOf c = some d ↔ DigitVal c d := by
  rw [digitOf_tbl]
  unfold DigitVal
  split
  · simp only [Option.some.injEq]; omega
  · split
    · simp only [Option.some.injEq]; omega
    · split
      · simp only [Option.some.injEq]; omega
      · simp only [reduceCtorEq, false_iff]; omega

/-- digits of the bases that occur, as `underscoreOK` sees them -/
theorem digit_us (b : Nat) (hb : b ≤ 10 ∨ b = 16) (c : UInt8) (d : Nat) (h : DigitVal c d) (hd : d < b) :
    (48 ≤ c ∧ c ≤ 57 ∨ decide (b = 16) = true ∧ 97 ≤ lower c ∧ lower c ≤ 102) ∧ c ≠ 95 := by
  have key : ∀ n : Fin 256, ∀ d : Fin 16, digitOf (UInt8.ofNat n.val) = some d.val →
      ((48 ≤ UInt8.ofNat n.val ∧ UInt8.ofNat n.val ≤ 57) ∧ d.val < 10 ∨ 10 ≤ d.val ∧ 97 ≤ lower (UInt8.ofNat n.val) ∧ lower (UInt8.ofNat n.val) ≤ 102) ∧
        UInt8.ofNat n.val ≠ 95 := by decide +kernel
  have := key ⟨c.toNat, c.toNat_lt⟩ ⟨d, by omega⟩
  simp only [UInt8.ofNat_toNat] at this
  obtain ⟨h1, h2⟩ := this ((digitOf_iff c d).mpr h)
  refine ⟨?_, h2⟩
  rcases h1 with ⟨h1, -⟩ | ⟨h1, h3⟩
  · exact .inl h1
  · refine .inr ⟨?_, h3⟩
    rw [decide_eq_true_eq]; omega

theorem digits_le {b : Nat} (hb : 0 < b) {n v : Nat} {s : Bytes} (h : Digits b n s v) : n ≤ v := by
  induction h with
  | nil => exact Nat.le_refl _
  | digit n c d s v hc hd h ih => have := Nat.le_mul_of_pos_right n hb; omega
  | underscore n c d s v hc hd h ih => have := Nat.le_mul_of_pos_right n hb; omega

/-- the loop and the check of underscores together read exactly the digits -/
theorem loop_iff (b : Nat) (hb0 : 0 < b) (hb : b ≤ 10 ∨ b = 16) (s : Bytes) : ∀ (n v : Nat), n < 2 ^ 64 →
    ((uintLoop b n s = some v ∧ usLoop (b = 16) .digit s = true ↔ Digits b n s v ∧ v < 2 ^ 64) ∧
     (uintLoop b n s = some v ∧ usLoop (b = 16) .underscore s = true ↔ Digits b n (95 :: s) v ∧ v < 2 ^ 64)) := by
  induction s with
  | nil =>
    intro n v hn
    constructor
    · simp only [uintLoop, usLoop, Option.some.injEq]
      constructor
      · rintro ⟨rfl, -⟩; exact ⟨.nil _, hn⟩
      · rintro ⟨h, -⟩
        cases h
        exact ⟨rfl, by decide⟩
    · simp only [uintLoop, usLoop, Option.some.injEq]
      constructor
      · rintro ⟨-, h⟩; exact absurd h (by decide)
      · rintro ⟨h, -⟩
        cases h with
        | digit _ _ d _ _ hc hd h =>
          exact absurd rfl (digit_us b hb 95 d hc hd).2
  | cons c s ih =>
    intro n v hn
    have step : ∀ saw, saw ≠ Saw.start → c ≠ 95 → (uintLoop b n (c :: s) = some v ∧ usLoop (b = 16) saw (c :: s) = true ↔
        ∃ d, DigitVal c d ∧ d < b ∧ Digits b (n * b + d) s v ∧ v < 2 ^ 64) := by
      intro saw _ hc
      constructor
      · rintro ⟨h1, h2⟩
        unfold uintLoop at h1
        rw [if_neg hc] at h1
        cases hd : digitOf c with
        | none => rw [hd] at h1; cases h1
        | some d =>
          rw [hd] at h1
          simp only at h1
          split at h1
          · cases h1
          · rename_i hdb
            split at h1
            · cases h1
            · rename_i hr
              have hdv := (digitOf_iff c d).mp hd
              obtain ⟨u1, -⟩ := digit_us b hb c d hdv (by omega)
              unfold usLoop at h2
              rw [if_pos u1] at h2
              obtain ⟨g1, g2⟩ := (ih (n * b + d) v (by omega)).1.mp ⟨h1, h2⟩
              exact ⟨d, hdv, by omega, g1, g2⟩
      · rintro ⟨d, hdv, hdb, hdg, hv⟩
        have hle := digits_le hb0 hdg
        obtain ⟨u1, -⟩ := digit_us b hb c d hdv hdb
        obtain ⟨g1, g2⟩ := (ih (n * b + d) v (by omega)).1.mpr ⟨hdg, hv⟩
        unfold uintLoop usLoop
        rw [if_neg hc, (digitOf_iff c d).mpr hdv, if_pos u1]
        simp only
        rw [if_neg (by omega), if_neg (by omega)]
        exact ⟨g1, g2⟩
    by_cases hc : c = 95
    · subst hc
      have h95 : ¬ ((48 : UInt8) ≤ 95 ∧ (95 : UInt8) ≤ 57 ∨ decide (b = 16) = true ∧ 97 ≤ lower 95 ∧ lower 95 ≤ 102) := by
        rintro (h | h)
        · exact absurd h (by decide)
        · exact absurd h.2 (by decide)
      constructor
      · rw [show uintLoop b n (95 :: s) = uintLoop b n s by rw [uintLoop, if_pos rfl],
          show usLoop (b = 16) .digit (95 :: s) = usLoop (b = 16) .underscore s by
            rw [usLoop, if_neg h95, if_pos rfl, if_neg (by decide)]]
        exact (ih n v hn).2
      · rw [show usLoop (b = 16) .underscore (95 :: s) = false by
            rw [usLoop, if_neg h95, if_pos rfl, if_pos (by decide)]]
        constructor
        · rintro ⟨-, h⟩; cases h
        · rintro ⟨h, -⟩
          cases h with
          | digit _ _ d _ _ hc hd h => exact absurd rfl (digit_us b hb 95 d hc hd).2
          | underscore _ _ d _ _ hc hd h => exact absurd rfl (digit_us b hb 95 d hc hd).2
    · constructor
      · rw [step .digit (by decide) hc]
        constructor
        · rintro ⟨d, h1, h2, h3, h4⟩; exact ⟨.digit n c d s v h1 h2 h3, h4⟩
        · rintro ⟨h, h4⟩
          cases h with
          | digit _ _ d _ _ h1 h2 h3 => exact ⟨d, h1, h2, h3, h4⟩
          | underscore => exact absurd rfl hc
      · rw [step .underscore (by decide) hc]
        constructor
        · rintro ⟨d, h1, h2, h3, h4⟩; exact ⟨.underscore n c d s v h1 h2 h3, h4⟩
        · rintro ⟨h, h4⟩
          cases h with
          | digit _ _ d _ _ h1 h2 h3 => exact absurd rfl (digit_us b hb 95 d h1 h2).2
          | underscore _ _ d _ _ h1 h2 h3 => exact ⟨d, h1, h2, h3, h4⟩

theorem us_free (hex : Bool) (s : Bytes) (h : (95 : UInt8) ∉ s) : ∀ saw, saw ≠ Saw.underscore → usLoop hex saw s = true := by
  induction s with
  | nil => intro saw hs; simp [usLoop, hs]
  | cons c s ih =>
    intro saw hs
    rw [List.mem_cons, not_or] at h
    unfold usLoop
    split
    · exact ih h.2 _ (by decide)
    · simp only [if_neg (fun e => h.1 e.symm : ¬ c = 95)]
      exact ih h.2 _ (by decide)

/-- the check of underscores is only made if there is one, but would succeed otherwise -/
theorem check_iff (b : Nat) (s ds : Bytes) (n v : Nat) (hok : (95 : UInt8) ∈ ds → underscoreOK s = usLoop (b = 16) .digit ds) :
    (uintLoop b n ds = some v ∧ ¬ ((95 : UInt8) ∈ ds ∧ underscoreOK s = false)) ↔ uintLoop b n ds = some v ∧ usLoop (b = 16) .digit ds = true := by
  by_cases h : (95 : UInt8) ∈ ds
  · rw [hok h]
    simp only [h, true_and, Bool.not_eq_false]
  · simp only [h, false_and, not_false_eq_true, and_true, us_free _ ds h .digit (by decide)]

theorem lower_base (c : UInt8) (b : Nat) : (if lower c = 98 then some 2 else if lower c = 111 then some 8 else if lower c = 120 then some 16 else none) = some b ↔
    Base c b := by
  have key : ∀ n : Fin 256, (if lower (UInt8.ofNat n.val) = 98 then some 2 else if lower (UInt8.ofNat n.val) = 111 then some 8 else
      if lower (UInt8.ofNat n.val) = 120 then some 16 else none) =
      if UInt8.ofNat n.val = 98 ∨ UInt8.ofNat n.val = 66 then some 2 else if UInt8.ofNat n.val = 111 ∨ UInt8.ofNat n.val = 79 then some 8 else
      if UInt8.ofNat n.val = 120 ∨ UInt8.ofNat n.val = 88 then some 16 else none := by decide +kernel
  have := key ⟨c.toNat, c.toNat_lt⟩
  simp only [UInt8.ofNat_toNat] at this
  rw [this]
  constructor
  · intro h
    split at h
    · rename_i hc; cases h; rcases hc with rfl | rfl <;> constructor
    · split at h
      · rename_i hc; cases h; rcases hc with rfl | rfl <;> constructor
      · split at h
        · rename_i hc; cases h; rcases hc with rfl | rfl <;> constructor
        · cases h
  · intro h; cases h <;> decide

theorem prefixOf_iff (s : Bytes) (b : Nat) (ds : Bytes) : prefixOf s = some (b, ds) ↔ ∃ c, Base c b ∧ s = 48 :: c :: ds := by
  match s with
  | [] => simp [prefixOf]
  | [z] => simp [prefixOf]
  | z :: c :: rest =>
    unfold prefixOf
    simp only
    by_cases hz : z = 48
    · rw [if_pos hz]
      have := lower_base c b
      constructor
      · intro h
        refine ⟨c, this.mp ?_, ?_⟩
        · split at h
          · cases h; rw [if_pos ‹_›]
          · rw [if_neg ‹_›]
            split at h
            · cases h; rw [if_pos ‹_›]
            · rw [if_neg ‹_›]
              split at h
              · cases h; rw [if_pos ‹_›]
              · cases h
        · have : rest = ds := by
            split at h
            · cases h; rfl
            · split at h
              · cases h; rfl
              · split at h
                · cases h; rfl
                · cases h
          rw [hz, this]
      · rintro ⟨c', hb, he⟩
        simp only [List.cons.injEq] at he
        obtain ⟨-, rfl, rfl⟩ := he
        have h := this.mpr hb
        split at h
        · cases h; rw [if_pos ‹_›]
        · rw [if_neg ‹_›]
          split at h
          · cases h; rw [if_pos ‹_›]
          · rw [if_neg ‹_›]
            split at h
            · cases h; rw [if_pos ‹_›]
            · cases h
    · rw [if_neg hz]
      simp only [reduceCtorEq, false_iff, not_exists, not_and, List.cons.injEq]
      intro _ _ h
      exact absurd h hz

theorem base_size {c : UInt8} {b : Nat} (h : Base c b) : 0 < b ∧ (b ≤ 10 ∨ b = 16) := by cases h <;> omega

/-- **C75**, numbers: a number on the command line is read exactly if it is an integer literal below 2^64, with its value. -/
theorem C75_number (s : Bytes) (v : Nat) : parseUint s = some v ↔ Numeral s v ∧ v < 2 ^ 64 := by
  have fin : ∀ (b : Nat) (ds : Bytes), baseOf s = (b, ds) → s ≠ [] →
      (parseUint s = some v ↔ uintLoop b 0 ds = some v ∧ ¬ ((95 : UInt8) ∈ ds ∧ underscoreOK s = false)) := by
    intro b ds hb hs
    unfold parseUint
    rw [if_neg hs, hb]
    simp only
    cases uintLoop b 0 ds with
    | none => simp
    | some n =>
      simp only
      split
      · rename_i h; simp [h]
      · rename_i h; simp only [Option.some.injEq]; simp [h]
  match s with
  | [] =>
    constructor
    · intro h; cases h
    · rintro ⟨h, -⟩; cases h
  | c :: rest =>
    by_cases hc : c = 48
    · subst hc
      -- with base prefix or octal
      cases hp : prefixOf (48 :: rest) with
      | none =>
        have hb : baseOf (48 :: rest) = (8, rest) := by
          unfold baseOf; simp only [if_true]; rw [hp]
        have hok : underscoreOK (48 :: rest) = usLoop (8 = 16) .digit rest := by
          unfold underscoreOK; rw [hp]; simp only; rw [usLoop, if_pos (.inl (by decide))]; rfl
        rw [fin 8 rest hb (by simp), check_iff 8 (48 :: rest) rest 0 v (fun _ => hok), (loop_iff 8 (by decide) (by decide) rest 0 v (by decide)).1]
        constructor
        · rintro ⟨h1, h2⟩; exact ⟨.oct rest v h1, h2⟩
        · rintro ⟨h1, h2⟩
          cases h1 with
          | dec _ d _ _ hc h0 hd h => unfold DigitVal at hc; simp at hc; omega
          | oct _ _ h => exact ⟨h, h2⟩
          | pre c b ds _ hb' hs h =>
            rw [(prefixOf_iff _ b ds).mpr ⟨c, hb', rfl⟩] at hp; cases hp
      | some bd =>
        obtain ⟨b, ds⟩ := bd
        obtain ⟨c, hbase, he⟩ := (prefixOf_iff _ b ds).mp hp
        simp only [List.cons.injEq, true_and] at he
        subst he
        obtain ⟨hb0, hb1⟩ := base_size hbase
        have hnot8 : ∀ d, DigitVal c d → ¬ d < 8 := by
          intro d hd; unfold DigitVal at hd
          cases hbase <;> simp at hd <;> omega
        by_cases hds : ds = []
        · subst hds
          have hb : baseOf (48 :: [c]) = (8, [c]) := by
            unfold baseOf; simp only [if_true]; rw [hp]; simp
          rw [fin 8 [c] hb (by simp)]
          constructor
          · rintro ⟨h1, -⟩
            unfold uintLoop at h1
            split at h1
            · rename_i h; subst h; cases hbase
            · cases hd : digitOf c with
              | none => rw [hd] at h1; cases h1
              | some d =>
                rw [hd] at h1
                simp only at h1
                rw [if_pos (by have := hnot8 d ((digitOf_iff c d).mp hd); omega)] at h1
                cases h1
          · rintro ⟨h1, -⟩
            cases h1 with
            | dec _ d _ _ hc h0 hd h => unfold DigitVal at hc; simp at hc; omega
            | oct _ _ h =>
              cases h with
              | digit _ _ d _ _ hc hd h => exact absurd hd (hnot8 d hc)
            | pre c b ds _ hb' hs h => exact absurd rfl hs
        · have hb : baseOf (48 :: c :: ds) = (b, ds) := by
            unfold baseOf; simp only [if_true]; rw [hp]; simp [hds]
          have hok : underscoreOK (48 :: c :: ds) = usLoop (b = 16) .digit ds := by
            unfold underscoreOK; rw [hp]
          rw [fin b ds hb (by simp), check_iff b (48 :: c :: ds) ds 0 v (fun _ => hok), (loop_iff b hb0 hb1 ds 0 v (by decide)).1]
          constructor
          · rintro ⟨h1, h2⟩; exact ⟨.pre c b ds v hbase hds h1, h2⟩
          · rintro ⟨h1, h2⟩
            cases h1 with
            | dec _ d _ _ hc h0 hd h => unfold DigitVal at hc; simp at hc; omega
            | oct _ _ h =>
              cases h with
              | digit _ _ d _ _ hc hd h => exact absurd hd (hnot8 d hc)
              | underscore => cases hbase
            | pre _ b' _ _ hb' hs h =>
              have : b' = b := by cases hbase <;> cases hb' <;> rfl
              subst this
              exact ⟨h, h2⟩
    · -- decimal
      have hpn : prefixOf (c :: rest) = none := by
        cases hp : prefixOf (c :: rest) with
        | none => rfl
        | some bd =>
          obtain ⟨c', -, he⟩ := (prefixOf_iff _ bd.1 bd.2).mp hp
          simp only [List.cons.injEq] at he
          exact absurd he.1 hc
      have hb : baseOf (c :: rest) = (10, c :: rest) := by unfold baseOf; simp only; rw [if_neg hc]
      rw [fin 10 _ hb (by simp)]
      have hstart : underscoreOK (c :: rest) = usLoop false .start (c :: rest) := by unfold underscoreOK; rw [hpn]
      constructor
      · rintro ⟨h1, h2⟩
        by_cases h95 : c = 95
        · subst h95
          exfalso
          apply h2
          refine ⟨by simp, ?_⟩
          rw [hstart]
          unfold usLoop
          rw [if_neg (by decide), if_pos rfl, if_pos (by decide)]
        · unfold uintLoop at h1
          rw [if_neg h95] at h1
          cases hd : digitOf c with
          | none => rw [hd] at h1; cases h1
          | some d =>
            rw [hd] at h1
            simp only at h1
            split at h1
            · cases h1
            · rename_i hdb
              split at h1
              · cases h1
              · have hdv := (digitOf_iff c d).mp hd
                have h0 : 0 < d := by
                  rcases Nat.eq_zero_or_pos d with rfl | h
                  · exfalso
                    apply hc
                    unfold DigitVal at hdv
                    apply UInt8.toNat_inj.mp
                    rw [show (48 : UInt8).toNat = 48 from rfl]; omega
                  · exact h
                have hu : 48 ≤ c ∧ c ≤ 57 := by
                  rcases (digit_us 10 (by decide) c d hdv (by omega)).1 with h | h
                  · exact h
                  · exact absurd h.1 (by decide)
                have hok : (95 : UInt8) ∈ rest → underscoreOK (c :: rest) = usLoop (10 = 16) .digit rest := by
                  intro _
                  rw [hstart, usLoop, if_pos (.inl hu)]; rfl
                have hcond : ¬ ((95 : UInt8) ∈ rest ∧ underscoreOK (c :: rest) = false) := by
                  rintro ⟨a, b⟩; exact h2 ⟨List.mem_cons_of_mem _ a, b⟩
                have hz : 0 * 10 + d = d := by omega
                rw [hz] at h1
                have := (check_iff 10 (c :: rest) rest d v hok).mp ⟨h1, hcond⟩
                obtain ⟨g1, g2⟩ := (loop_iff 10 (by decide) (by decide) rest d v (by omega)).1.mp this
                exact ⟨.dec c d rest v hdv h0 (by omega) g1, g2⟩
      · rintro ⟨h1, h2⟩
        cases h1 with
        | oct _ _ h => exact absurd rfl hc
        | pre _ b _ _ hb' hs h => exact absurd rfl hc
        | dec _ d _ _ hdv h0 hd h =>
          obtain ⟨u1, u2⟩ := digit_us 10 (by decide) c d hdv hd
          have hu : 48 ≤ c ∧ c ≤ 57 := by
            rcases u1 with h | h
            · exact h
            · exact absurd h.1 (by decide)
          have hok : (95 : UInt8) ∈ rest → underscoreOK (c :: rest) = usLoop (10 = 16) .digit rest := by
            intro _
            rw [hstart, usLoop, if_pos (.inl hu)]; rfl
          have := (check_iff 10 (c :: rest) rest d v hok).mpr ((loop_iff 10 (by decide) (by decide) rest d v (by omega)).1.mpr ⟨h, h2⟩)
          have hz : 0 * 10 + d = d := by omega
          constructor
          · unfold uintLoop
            rw [if_neg u2, (digitOf_iff c d).mpr hdv]
            simp only
            rw [if_neg (by omega), if_neg (by omega), hz]
            exact this.1
          · rintro ⟨a, b⟩
            refine this.2 ⟨?_, b⟩
            rcases List.mem_cons.mp a with h | h
            · exact absurd h.symm u2
            · exact h

example : Numeral (ascii "6_881") 6881 ∧ Numeral (ascii "0x1F") 31 ∧ Numeral (ascii "010") 8 ∧ ∀ v, ¬ (Numeral (ascii "1__0") v ∧ v < 2 ^ 64) := by
  refine ⟨((C75_number _ _).mp (by decide +kernel)).1, ((C75_number _ _).mp (by decide +kernel)).1, ((C75_number _ _).mp (by decide +kernel)).1, ?_⟩
  intro v h
  have := (C75_number _ _).mpr h
  rw [show parseUint (ascii "1__0") = none by decide +kernel] at this
  cases this

/-! ### arguments -/

/-- the name of an option -/
def nameOf : Flag → Bytes
  | .i => ascii "i"
  | .w => ascii "w"
  | .p => ascii "p"
  | .cmd => ascii "cmd"
  | .u => ascii "u"
  | .d => ascii "d"

theorem lookup_iff (name : Bytes) (f : Flag) : lookup name = some f ↔ name = nameOf f := by
  constructor
  · intro h
    unfold lookup at h
    repeat' split at h
    all_goals first | cases h | skip
    all_goals (rename_i hn; subst hn; rfl)
  · rintro rfl
    cases f <;> decide

theorem mem_names (name : Bytes) : name ∈ names ↔ ∃ f, name = nameOf f := by
  constructor
  · intro h
    simp only [names, List.mem_cons, List.mem_nil_iff, or_false] at h
    rcases h with rfl | rfl | rfl | rfl | rfl | rfl
    · exact ⟨.i, rfl⟩
    · exact ⟨.w, rfl⟩
    · exact ⟨.p, rfl⟩
    · exact ⟨.cmd, rfl⟩
    · exact ⟨.u, rfl⟩
    · exact ⟨.d, rfl⟩
  · rintro ⟨f, rfl⟩
    cases f <;> decide

theorem takeDrop (cs : Bytes) (h : (61 : UInt8) ∈ cs) : cs = cs.takeWhile (· ≠ 61) ++ [61] ++ (cs.dropWhile (· ≠ 61)).drop 1 := by
  induction cs with
  | nil => cases h
  | cons c cs ih =>
    by_cases hc : c = 61
    · subst hc; simp
    · have := ih (by rcases List.mem_cons.mp h with e | e; exact absurd e.symm hc; exact e)
      simp only [List.takeWhile_cons, List.dropWhile_cons, hc, ne_eq, not_false_eq_true, decide_true, if_true]
      rw [List.cons_append, List.cons_append, ← this]

theorem splitEq_none (s n : Bytes) (h : splitEq s = (n, none)) : s = n := by
  unfold splitEq at h
  split at h
  · cases h; rfl
  · split at h <;> cases h
    rfl

theorem splitEq_some (s n v : Bytes) (h : splitEq s = (n, some v)) : s = n ++ [61] ++ v := by
  unfold splitEq at h
  split at h
  · cases h
  · split at h
    · rename_i hm
      cases h
      rw [List.cons_append, List.cons_append, ← takeDrop _ hm]
    · cases h

theorem takeWhile_append61 (a b : Bytes) (h : (61 : UInt8) ∉ a) : (a ++ 61 :: b).takeWhile (· ≠ 61) = a ∧
    ((a ++ 61 :: b).dropWhile (· ≠ 61)).drop 1 = b := by
  induction a with
  | nil => simp
  | cons c a ih =>
    rw [List.mem_cons, not_or] at h
    have hc : c ≠ 61 := fun e => h.1 e.symm
    obtain ⟨i1, i2⟩ := ih h.2
    simp only [List.cons_append, List.takeWhile_cons, List.dropWhile_cons, hc, ne_eq, not_false_eq_true, decide_true, if_true]
    exact ⟨congrArg (c :: ·) i1, i2⟩

theorem nameOf_form (f : Flag) : ∃ c cs, nameOf f = c :: cs ∧ c ≠ 45 ∧ c ≠ 61 ∧ (61 : UInt8) ∉ cs := by
  cases f
  · exact ⟨105, [], by decide⟩
  · exact ⟨119, [], by decide⟩
  · exact ⟨112, [], by decide⟩
  · exact ⟨99, [109, 100], by decide⟩
  · exact ⟨117, [], by decide⟩
  · exact ⟨100, [], by decide⟩

/-- text behind the dashes: an option, and its value if it is in the same argument -/
theorem parseName_iff (name : Bytes) (f : Flag) (v : Option Bytes) : parseName name = .flag f v ↔
    (v = none ∧ name = nameOf f ∨ ∃ x, v = some x ∧ name = nameOf f ++ [61] ++ x) := by
  constructor
  · intro h
    unfold parseName at h
    split at h
    · cases h
    · split at h
      · cases h
      · rename_i c0 cs0 _
        cases hs : splitEq (c0 :: cs0) with
        | mk n w =>
          rw [hs] at h
          simp only at h
          cases hl : lookup n with
          | none => rw [hl] at h; simp only at h; split at h <;> cases h
          | some g =>
            rw [hl] at h
            simp only [One.flag.injEq] at h
            obtain ⟨rfl, rfl⟩ := h
            have hn := (lookup_iff n g).mp hl
            cases w with
            | none => exact .inl ⟨rfl, by rw [splitEq_none _ _ hs, hn]⟩
            | some x => exact .inr ⟨x, rfl, by rw [splitEq_some _ _ _ hs, hn]⟩
  · obtain ⟨c, cs, e, h1, h2, h3⟩ := nameOf_form f
    have hl := (lookup_iff (nameOf f) f).mpr rfl
    rw [e] at hl ⊢
    rintro (⟨rfl, rfl⟩ | ⟨x, rfl, rfl⟩)
    · unfold parseName
      simp only
      rw [if_neg (by simp [h1, h2])]
      have : splitEq (c :: cs) = (c :: cs, none) := by unfold splitEq; simp only; rw [if_neg h3]
      rw [this]; simp only; rw [hl]
    · rw [List.append_assoc, List.cons_append, List.cons_append, List.nil_append]
      unfold parseName
      simp only
      rw [if_neg (by simp [h1, h2])]
      have : splitEq (c :: (cs ++ 61 :: x)) = (c :: cs, some x) := by
        obtain ⟨t1, t2⟩ := takeWhile_append61 cs x h3
        unfold splitEq; simp only; rw [if_pos (by simp), t1, t2]
      rw [this]; simp only; rw [hl]

theorem parseArg_flag (s : Bytes) (f : Flag) (v : Option Bytes) : parseArg s = .flag f v ↔
    ∃ dash, Dash dash ∧ (v = none ∧ s = dash ++ nameOf f ∨ ∃ x, v = some x ∧ s = dash ++ nameOf f ++ ascii "=" ++ x) := by
  have d1 : ascii "-" = [45] := by decide
  have d2 : ascii "--" = [45, 45] := by decide
  have d3 : ascii "=" = [61] := by decide
  constructor
  · intro h
    unfold parseArg at h
    split at h
    · rename_i a b rest
      split at h
      · cases h
      · rename_i ha
        have ha : a = 45 := by simpa using ha
        subst ha
        split at h
        · rename_i hb
          subst hb
          split at h
          · cases h
          · refine ⟨ascii "--", .inr rfl, ?_⟩
            rw [d2, d3]
            rcases (parseName_iff _ _ _).mp h with ⟨h1, h2⟩ | ⟨x, h1, h2⟩
            · left; exact ⟨h1, by rw [h2]; rfl⟩
            · right; exact ⟨x, h1, by rw [h2]; simp⟩
        · refine ⟨ascii "-", .inl rfl, ?_⟩
          rw [d1, d3]
          rcases (parseName_iff _ _ _).mp h with ⟨h1, h2⟩ | ⟨x, h1, h2⟩
          · left; exact ⟨h1, by rw [h2]; rfl⟩
          · right; exact ⟨x, h1, by rw [h2]; simp⟩
    · cases h
  · rintro ⟨dash, hdash, h⟩
    have key : ∀ t, parseName t = .flag f v → parseArg (dash ++ t) = .flag f v := by
      intro t ht
      have htn : ∃ c cs, t = c :: cs ∧ c ≠ 45 := by
        obtain ⟨c, cs, e, h1, -⟩ := nameOf_form f
        rcases (parseName_iff _ _ _).mp ht with ⟨-, h2⟩ | ⟨x, -, h2⟩
        · exact ⟨c, cs, by rw [h2, e], h1⟩
        · exact ⟨c, cs ++ [61] ++ x, by rw [h2, e]; simp, h1⟩
      obtain ⟨c, cs, rfl, hc⟩ := htn
      rcases hdash with rfl | rfl
      · rw [d1]
        simp only [List.cons_append, List.nil_append]
        unfold parseArg
        simp only
        rw [if_neg (by simp), if_neg hc]; exact ht
      · rw [d2]
        simp only [List.cons_append, List.nil_append]
        unfold parseArg
        simp only
        rw [if_neg (by simp), if_pos trivial, if_neg (by simp)]; exact ht
    rcases h with ⟨rfl, rfl⟩ | ⟨x, rfl, rfl⟩
    · exact key _ ((parseName_iff _ _ _).mpr (.inl ⟨rfl, rfl⟩))
    · rw [d3, List.append_assoc, List.append_assoc]
      refine key _ ((parseName_iff _ _ _).mpr (.inr ⟨x, rfl, by simp⟩))

theorem parseArg_stop (s : Bytes) : parseArg s = .stop ↔ (s = ascii "-" ∨ s.head? ≠ some 45) ∨ s = ascii "--" := by
  have d1 : ascii "-" = [45] := by decide
  have d2 : ascii "--" = [45, 45] := by decide
  have hn : ∀ t, parseName t ≠ .stop := by
    intro t h
    unfold parseName at h
    split at h
    · cases h
    · split at h
      · cases h
      · split at h
        · cases h
        · split at h <;> cases h
  rw [d1, d2]
  match s with
  | [] => simp [parseArg]
  | [a] => simp [parseArg]; by_cases h : a = 45 <;> simp [h]
  | a :: b :: rest =>
    unfold parseArg
    simp only
    by_cases ha : a = 45
    · subst ha
      rw [if_neg (by simp)]
      by_cases hb : b = 45
      · subst hb
        rw [if_pos rfl]
        by_cases hr : rest = []
        · subst hr; simp
        · rw [if_neg hr]; simp [hr, hn]
      · rw [if_neg hb]; simp [hb, hn]
    · rw [if_pos ha]; simp [ha]

/-- all settings, one after the other -/
def setAll (o : Opts) : List (Flag × Bytes) → Option Opts
  | [] => some o
  | (f, v) :: l => match setFlag o f v with
    | some o' => setAll o' l
    | none => none

/-- `Parse` accepts exactly the command lines, and makes their settings -/
theorem parseArgs_iff (n : Nat) : ∀ (args : List Bytes) (o o' : Opts), args.length ≤ n → (parseArgs o args = .ok o' ↔
    ∃ l : List (Flag × Bytes), CmdLine args (l.map fun x => (nameOf x.1, x.2)) ∧ setAll o l = some o') := by
  induction n with
  | zero =>
    intro args o o' hl
    have : args = [] := List.eq_nil_of_length_eq_zero (by omega)
    subst this
    constructor
    · intro h; simp only [parseArgs, Except.ok.injEq] at h; subst h; exact ⟨[], .nil, rfl⟩
    · rintro ⟨l, h1, h2⟩
      cases l with
      | nil => simp only [setAll, Option.some.injEq] at h2; subst h2; rfl
      | cons x l => cases h1
  | succ n ih =>
    intro args o o' hl
    cases args with
    | nil =>
      constructor
      · intro h; simp only [parseArgs, Except.ok.injEq] at h; subst h; exact ⟨[], .nil, rfl⟩
      · rintro ⟨l, h1, h2⟩
        cases l with
        | nil => simp only [setAll, Option.some.injEq] at h2; subst h2; rfl
        | cons x l => cases h1
    | cons s rest =>
      simp only [List.length_cons] at hl
      constructor
      · intro h
        unfold parseArgs at h
        cases hp : parseArg s with
        | stop =>
          rw [hp] at h
          simp only [Except.ok.injEq] at h
          subst h
          refine ⟨[], ?_, rfl⟩
          rcases (parseArg_stop s).mp hp with h | rfl
          · exact .word s rest h
          · exact .dashes rest
        | fail => rw [hp] at h; cases h
        | help => rw [hp] at h; cases h
        | flag f v =>
          obtain ⟨dash, hd, hs⟩ := (parseArg_flag s f v).mp hp
          cases v with
          | some v =>
            rw [hp] at h
            simp only at h
            cases hset : setFlag o f v with
            | none => rw [hset] at h; cases h
            | some o1 =>
              rw [hset] at h
              obtain ⟨l, h1, h2⟩ := (ih rest o1 o' (by omega)).mp h
              rcases hs with ⟨hs, -⟩ | ⟨x, hx, rfl⟩
              · cases hs
              · cases hx
                exact ⟨(f, v) :: l, .one dash (nameOf f) v rest _ hd ((mem_names _).mpr ⟨f, rfl⟩) h1, by rw [setAll, hset]; exact h2⟩
          | none =>
            rw [hp] at h
            cases rest with
            | nil => cases h
            | cons v rest' =>
              simp only at h
              cases hset : setFlag o f v with
              | none => rw [hset] at h; cases h
              | some o1 =>
                rw [hset] at h
                obtain ⟨l, h1, h2⟩ := (ih rest' o1 o' (by simp only [List.length_cons] at hl; omega)).mp h
                rcases hs with ⟨-, rfl⟩ | ⟨x, hx, -⟩
                · exact ⟨(f, v) :: l, .two dash (nameOf f) v rest' _ hd ((mem_names _).mpr ⟨f, rfl⟩) h1, by rw [setAll, hset]; exact h2⟩
                · cases hx
      · rintro ⟨l, h1, h2⟩
        cases l with
        | nil =>
          simp only [setAll, Option.some.injEq] at h2
          subst h2
          have hstop : parseArg s = .stop := by
            rw [parseArg_stop]
            cases h1 with
            | word _ _ h => exact .inl h
            | dashes => exact .inr rfl
          unfold parseArgs; rw [hstop]
        | cons x l =>
          obtain ⟨f, v⟩ := x
          simp only [setAll] at h2
          cases hset : setFlag o f v with
          | none => rw [hset] at h2; cases h2
          | some o1 =>
            rw [hset] at h2
            simp only at h2
            rw [List.map_cons] at h1
            simp only at h1
            generalize hnm : nameOf f = nm at h1
            cases h1 with
            | two dash _ _ rest' _ hd hn h =>
              have hp := (parseArg_flag (dash ++ nm) f none).mpr ⟨dash, hd, .inl ⟨rfl, by rw [hnm]⟩⟩
              unfold parseArgs
              rw [hp]
              simp only
              rw [hset]
              exact (ih rest' o1 o' (by simp only [List.length_cons] at hl; omega)).mpr ⟨l, h, h2⟩
            | one dash _ _ _ _ hd hn h =>
              have hp := (parseArg_flag (dash ++ nm ++ ascii "=" ++ v) f (some v)).mpr ⟨dash, hd, .inr ⟨v, rfl, by rw [hnm]⟩⟩
              unfold parseArgs
              rw [hp]
              simp only
              rw [hset]
              exact (ih rest o1 o' (by omega)).mpr ⟨l, h, h2⟩

/-- the settings of a command line are settings of options -/
theorem cmdLine_flags {args : List Bytes} {l : List (Bytes × Bytes)} (h : CmdLine args l) :
    ∃ l' : List (Flag × Bytes), l = l'.map fun x => (nameOf x.1, x.2) := by
  induction h with
  | nil => exact ⟨[], rfl⟩
  | word => exact ⟨[], rfl⟩
  | dashes => exact ⟨[], rfl⟩
  | two dash name v rest l hd hn h ih =>
    obtain ⟨l', rfl⟩ := ih
    obtain ⟨f, rfl⟩ := (mem_names name).mp hn
    exact ⟨(f, v) :: l', rfl⟩
  | one dash name v rest l hd hn h ih =>
    obtain ⟨l', rfl⟩ := ih
    obtain ⟨f, rfl⟩ := (mem_names name).mp hn
    exact ⟨(f, v) :: l', rfl⟩

/-- what a list of settings makes of the options; `port` is the text of the port before -/
theorem setAll_iff (l : List (Flag × Bytes)) : ∀ (o o' : Opts) (port : Bytes), parseUint port = some o.port →
    (setAll o l = some o' ↔
      (∀ v, (Flag.p, v) ∈ l → ∃ n, parseUint v = some n) ∧
      o'.input = last (ascii "i") (l.map fun x => (nameOf x.1, x.2)) o.input ∧
      o'.wd = last (ascii "w") (l.map fun x => (nameOf x.1, x.2)) o.wd ∧
      parseUint (last (ascii "p") (l.map fun x => (nameOf x.1, x.2)) port) = some o'.port ∧
      o'.cmd = last (ascii "cmd") (l.map fun x => (nameOf x.1, x.2)) o.cmd ∧
      o'.uplimStr = last (ascii "u") (l.map fun x => (nameOf x.1, x.2)) o.uplimStr ∧
      o'.dnlimStr = last (ascii "d") (l.map fun x => (nameOf x.1, x.2)) o.dnlimStr ∧ o'.uplim = o.uplim ∧ o'.dnlim = o.dnlim) := by
  induction l with
  | nil =>
    intro o o' port hp
    simp only [setAll, List.map_nil, last, Option.some.injEq, List.not_mem_nil, false_implies, implies_true, true_and]
    constructor
    · rintro rfl; exact ⟨rfl, rfl, hp, rfl, rfl, rfl, rfl, rfl⟩
    · rintro ⟨h1, h2, h3, h4, h5, h6, h7, h8⟩
      rw [hp] at h3
      cases o; cases o'
      simp only at h1 h2 h3 h4 h5 h6 h7 h8
      simp only [Option.some.injEq] at h3
      simp [h1, h2, h3, h4, h5, h6, h7, h8]
  | cons x l ih =>
    obtain ⟨f, v⟩ := x
    intro o o' port hp
    have nn : ascii "w" ≠ ascii "i" ∧ ascii "p" ≠ ascii "i" ∧ ascii "cmd" ≠ ascii "i" ∧ ascii "u" ≠ ascii "i" ∧ ascii "d" ≠ ascii "i" ∧
        ascii "i" ≠ ascii "w" ∧ ascii "p" ≠ ascii "w" ∧ ascii "cmd" ≠ ascii "w" ∧ ascii "u" ≠ ascii "w" ∧ ascii "d" ≠ ascii "w" ∧
        ascii "i" ≠ ascii "p" ∧ ascii "w" ≠ ascii "p" ∧ ascii "cmd" ≠ ascii "p" ∧ ascii "u" ≠ ascii "p" ∧ ascii "d" ≠ ascii "p" ∧
        ascii "i" ≠ ascii "cmd" ∧ ascii "w" ≠ ascii "cmd" ∧ ascii "p" ≠ ascii "cmd" ∧ ascii "u" ≠ ascii "cmd" ∧ ascii "d" ≠ ascii "cmd" ∧
        ascii "i" ≠ ascii "u" ∧ ascii "w" ≠ ascii "u" ∧ ascii "p" ≠ ascii "u" ∧ ascii "cmd" ≠ ascii "u" ∧ ascii "d" ≠ ascii "u" ∧
        ascii "i" ≠ ascii "d" ∧ ascii "w" ≠ ascii "d" ∧ ascii "p" ≠ ascii "d" ∧ ascii "cmd" ≠ ascii "d" ∧ ascii "u" ≠ ascii "d" := by decide
    simp only [setAll, List.map_cons, last]
    generalize List.map (fun x : Flag × Bytes => (nameOf x.1, x.2)) l = L at ih ⊢
    cases f with
    | p =>
      simp only [nameOf, setFlag]
      cases hv : parseUint v with
      | none =>
        simp only [Option.map_none]
        constructor
        · intro h; cases h
        · rintro ⟨h, -⟩
          obtain ⟨n, hn⟩ := h v (by simp)
          rw [hv] at hn; cases hn
      | some n =>
        simp only [Option.map_some]
        rw [ih { o with port := n } o' v hv]
        simp only [nn, if_true, if_false, List.mem_cons, Prod.mk.injEq, true_and]
        constructor
        · rintro ⟨h1, h2⟩
          refine ⟨?_, h2⟩
          rintro w (rfl | hw)
          · exact ⟨n, hv⟩
          · exact h1 w hw
        · rintro ⟨h1, h2⟩
          exact ⟨fun w hw => h1 w (.inr hw), h2⟩
    | i =>
      simp only [nameOf, setFlag]
      rw [ih { o with input := v } o' port hp]
      simp only [nn, if_true, if_false, List.mem_cons, Prod.mk.injEq, reduceCtorEq, false_and, false_or]
    | w =>
      simp only [nameOf, setFlag]
      rw [ih { o with wd := v } o' port hp]
      simp only [nn, if_true, if_false, List.mem_cons, Prod.mk.injEq, reduceCtorEq, false_and, false_or]
    | cmd =>
      simp only [nameOf, setFlag]
      rw [ih { o with cmd := v } o' port hp]
      simp only [nn, if_true, if_false, List.mem_cons, Prod.mk.injEq, reduceCtorEq, false_and, false_or]
    | u =>
      simp only [nameOf, setFlag]
      rw [ih { o with uplimStr := v } o' port hp]
      simp only [nn, if_true, if_false, List.mem_cons, Prod.mk.injEq, reduceCtorEq, false_and, false_or]
    | d =>
      simp only [nameOf, setFlag]
      rw [ih { o with dnlimStr := v } o' port hp]
      simp only [nn, if_true, if_false, List.mem_cons, Prod.mk.injEq, reduceCtorEq, false_and, false_or]

/-! ### the program -/

/-- what the user of a command line wants -/
structure Wanted where
  input : Bytes
  wd : Bytes
  port : Nat
  cmd : Bytes
  up : Int
  down : Int

/-- A command line means `w`: documented defaults, the last setting of an option counts. -/
structure Means (args : List Bytes) (w : Wanted) : Prop where
  line : ∃ l, CmdLine args l ∧ (∀ v, (ascii "p", v) ∈ l → ∃ n, Numeral v n ∧ n < 2 ^ 64) ∧
    w.input = last (ascii "i") l [] ∧ w.wd = last (ascii "w") l [] ∧ Numeral (last (ascii "p") l (ascii "60666")) w.port ∧
    w.cmd = last (ascii "cmd") l (ascii "swarm") ∧
    (∃ m, Denotes (last (ascii "u") l (ascii "-1B")) m w.up ∧ m < 2 ^ 63) ∧ ∃ m, Denotes (last (ascii "d") l (ascii "-1B")) m w.down ∧ m < 2 ^ 63

/-- the options the program runs with are those -/
structure Shows (o : Opts) (w : Wanted) : Prop where
  input : o.input = w.input
  wd : o.wd = w.wd
  cmd : o.cmd = w.cmd
  /-- in 16 bits -/
  port : o.Port = w.port % 65536
  /-- in 64 bits -/
  up : o.uplim = wrap64 w.up
  down : o.dnlim = wrap64 w.down

theorem initOpts_iff (args : List Bytes) (o : Opts) : initOpts args = .ok (.ok o) ↔ ∃ l, CmdLine args l ∧
    (∀ v, (ascii "p", v) ∈ l → ∃ n, Numeral v n ∧ n < 2 ^ 64) ∧
    o.input = last (ascii "i") l [] ∧ o.wd = last (ascii "w") l [] ∧
    (Numeral (last (ascii "p") l (ascii "60666")) o.port ∧ o.port < 2 ^ 64) ∧
    o.cmd = last (ascii "cmd") l (ascii "swarm") ∧ o.uplimStr = last (ascii "u") l (ascii "-1B") ∧ o.dnlimStr = last (ascii "d") l (ascii "-1B") ∧
    o.input ≠ [] ∧ (o.cmd = ascii "swarm" ∨ o.cmd = ascii "info") ∧
    parseSizeUnits o.uplimStr = .ok o.uplim ∧ parseSizeUnits o.dnlimStr = .ok o.dnlim := by
  have hval : ∀ o' : Opts, o'.Validate = .ok o ↔ o'.input ≠ [] ∧ (o'.cmd = ascii "swarm" ∨ o'.cmd = ascii "info") ∧
      parseSizeUnits o'.uplimStr = .ok o.uplim ∧ parseSizeUnits o'.dnlimStr = .ok o.dnlim ∧ o = { o' with uplim := o.uplim, dnlim := o.dnlim } := by
    intro o'
    unfold Opts.Validate
    by_cases h1 : o'.input = []
    · simp [h1]
    rw [if_neg h1, if_neg h1]
    by_cases h2 : o'.cmd = ascii "swarm" ∨ o'.cmd = ascii "info"
    · rw [if_neg (not_not_intro h2)]
      simp only [h1, h2, not_false_eq_true, ne_eq, true_and]
      simp only [Res.bind_eq_ok, Res.ok.injEq]
      constructor
      · rintro ⟨u, hu, d, hd, rfl⟩; exact ⟨hu, hd, rfl⟩
      · rintro ⟨hu, hd, he⟩; exact ⟨_, hu, _, hd, he.symm⟩
    · rw [if_pos h2]; simp [h2]
  unfold initOpts
  constructor
  · intro h
    cases hp : parseArgs defaults args with
    | error c => rw [hp] at h; cases h
    | ok o' =>
      rw [hp] at h
      simp only [Except.ok.injEq] at h
      obtain ⟨v1, v2, v3, v4, v5⟩ := (hval o').mp h
      obtain ⟨l, c1, c2⟩ := (parseArgs_iff args.length args defaults o' (Nat.le_refl _)).mp hp
      obtain ⟨s1, s2, s3, s4, s5, s6, s7, -, -⟩ := (setAll_iff l defaults o' (ascii "60666") (by decide +kernel)).mp c2
      refine ⟨_, c1, ?_, ?_, ?_, ?_, ?_, ?_, ?_, ?_, ?_, ?_, ?_⟩
      · intro v hv
        rw [List.mem_map] at hv
        obtain ⟨⟨f, x⟩, hx, he⟩ := hv
        simp only [Prod.mk.injEq] at he
        obtain ⟨he, rfl⟩ := he
        have : f = .p := by cases f <;> first | rfl | exact absurd he (by decide)
        subst this
        obtain ⟨n, hn⟩ := s1 _ hx
        exact ⟨n, (C75_number _ _).mp hn⟩
      · rw [v5]; exact s2
      · rw [v5]; exact s3
      · rw [v5]; exact (C75_number _ _).mp s4
      · rw [v5]; exact s5
      · rw [v5]; exact s6
      · rw [v5]; exact s7
      · rw [v5]; exact v1
      · rw [v5]; exact v2
      · rw [v5]; exact v3
      · rw [v5]; exact v4
  · rintro ⟨l, c1, c2, c3, c4, c5, c6, c7, c8, c9, c10, c11, c12⟩
    obtain ⟨l, rfl⟩ := cmdLine_flags c1
    have hp : parseArgs defaults args = .ok { o with uplim := 0, dnlim := 0 } := by
      rw [parseArgs_iff args.length args defaults _ (Nat.le_refl _)]
      refine ⟨l, c1, ?_⟩
      rw [setAll_iff l defaults _ (ascii "60666") (by decide +kernel)]
      refine ⟨?_, c3, c4, (C75_number _ _).mpr c5, c6, c7, c8, rfl, rfl⟩
      intro v hv
      obtain ⟨n, hn⟩ := c2 v (List.mem_map.mpr ⟨(.p, v), hv, rfl⟩)
      exact ⟨n, (C75_number _ _).mpr hn⟩
    rw [hp]
    simp only [Except.ok.injEq]
    rw [hval]
    exact ⟨c9, c10, c11, c12, rfl⟩

theorem main_iff (args : List Bytes) (o : Opts) (s : Opts → Start) (c : Bytes)
    (hs : s = .swarm ∧ c = ascii "swarm" ∨ s = .info ∧ c = ascii "info") :
    main args = s o ↔ initOpts args = .ok (.ok o) ∧ o.cmd = c := by
  unfold main
  cases hi : initOpts args with
  | error x => rcases hs with ⟨rfl, -⟩ | ⟨rfl, -⟩ <;> simp
  | ok r =>
    cases r with
    | ok o' =>
      simp only [Except.ok.injEq, Res.ok.injEq]
      rcases hs with ⟨rfl, rfl⟩ | ⟨rfl, rfl⟩
      · split
        · rename_i h
          constructor
          · intro h'; cases h'; exact ⟨rfl, h⟩
          · rintro ⟨rfl, -⟩; rfl
        · rename_i h
          split
          · constructor
            · intro h'; cases h'
            · rintro ⟨rfl, h'⟩; exact absurd h' h
          · constructor
            · intro h'; cases h'
            · rintro ⟨rfl, h'⟩; exact absurd h' h
      · split
        · rename_i h
          constructor
          · intro h'; cases h'
          · rintro ⟨rfl, h'⟩; rw [h'] at h; exact absurd h (by decide)
        · split
          · rename_i h
            constructor
            · intro h'; cases h'; exact ⟨rfl, h⟩
            · rintro ⟨rfl, -⟩; rfl
          · rename_i h
            constructor
            · intro h'; cases h'
            · rintro ⟨rfl, h'⟩; exact absurd h' h
    | err e => rcases hs with ⟨rfl, -⟩ | ⟨rfl, -⟩ <;> simp
    | panic => rcases hs with ⟨rfl, -⟩ | ⟨rfl, -⟩ <;> simp
    | timeout => rcases hs with ⟨rfl, -⟩ | ⟨rfl, -⟩ <;> simp

theorem run_iff (args : List Bytes) (w : Wanted) (s : Opts → Start) (c : Bytes) (hs : s = .swarm ∧ c = ascii "swarm" ∨ s = .info ∧ c = ascii "info") :
    (Means args w ∧ w.input ≠ [] ∧ w.cmd = c → ∃ o, main args = s o ∧ Shows o w) ∧
    (∀ o, main args = s o → ∃ w, Means args w ∧ w.input ≠ [] ∧ w.cmd = c ∧ Shows o w) := by
  have hc : c = ascii "swarm" ∨ c = ascii "info" := by rcases hs with ⟨-, h⟩ | ⟨-, h⟩ <;> simp [h]
  constructor
  · rintro ⟨⟨l, h1, h2, h3, h4, h5, h6, ⟨m, h7, h8⟩, m', h9, h10⟩, hi, hcmd⟩
    have hport : w.port < 2 ^ 64 := by
      -- the last setting is one of the settings, or the default
      have : ∀ (l : List (Bytes × Bytes)) (d : Bytes), last (ascii "p") l d = d ∨ (ascii "p", last (ascii "p") l d) ∈ l := by
        intro l
        induction l with
        | nil => intro d; exact .inl rfl
        | cons x l ih =>
          intro d
          obtain ⟨n, v⟩ := x
          simp only [last]
          by_cases hn : n = ascii "p"
          · subst hn
            rw [if_pos rfl]
            rcases ih v with h | h
            · right; rw [h]; simp
            · exact .inr (List.mem_cons_of_mem _ h)
          · rw [if_neg hn]
            rcases ih d with h | h
            · exact .inl h
            · exact .inr (List.mem_cons_of_mem _ h)
      have uniq : ∀ v n n', Numeral v n → n < 2 ^ 64 → Numeral v n' → n' = n := by
        intro v n n' a b c
        have h1 := (C75_number v n).mpr ⟨a, b⟩
        -- values of the same text are equal
        have dig : ∀ (b x v : Nat) (s : Bytes), (b ≤ 10 ∨ b = 16) → Digits b x s v → ∀ v', Digits b x s v' → v = v' := by
          intro b x v s hb hd
          have h95 : ∀ d, DigitVal 95 d → ¬ d < b := fun d h1 h2 => absurd rfl (digit_us b hb 95 d h1 h2).2
          have same : ∀ c d d', DigitVal c d → DigitVal c d' → d = d' := by
            intro c d d' h h'
            rw [← digitOf_iff] at h h'
            rw [h] at h'; exact Option.some.inj h'
          induction hd with
          | nil => intro v' h'; cases h'; rfl
          | digit n c d s v hc hd h ih =>
            intro v' h'
            cases h' with
            | digit _ _ d' _ _ hc' hd' h' =>
              have := same c d d' hc hc'
              subst this
              exact ih v' h'
            | underscore => exact absurd hd (h95 d hc)
          | underscore n c d s v hc hd h ih =>
            intro v' h'
            cases h' with
            | digit _ _ d' _ _ hc' hd' h' => exact absurd hd' (h95 d' hc')
            | underscore _ _ d' _ _ hc' hd' h' =>
              have := same c d d' hc hc'
              subst this
              exact ih v' h'
        cases a with
        | dec c0 d s _ hc0 h0 hd h =>
          cases c with
          | dec _ d' _ _ hc0' h0' hd' h' =>
            have : d = d' := by
              rw [← digitOf_iff] at hc0 hc0'
              rw [hc0] at hc0'; exact Option.some.inj hc0'
            subst this
            exact (dig 10 d _ s (by decide) h _ h').symm
          | oct _ _ h' => unfold DigitVal at hc0; simp at hc0; omega
          | pre c' b' _ _ hb' hs' h' => unfold DigitVal at hc0; simp at hc0; omega
        | oct s _ h =>
          cases c with
          | dec _ d' _ _ hc0' h0' hd' h' => unfold DigitVal at hc0'; simp at hc0'; omega
          | oct _ _ h' => exact (dig 8 0 _ s (by decide) h _ h').symm
          | pre c' b' _ _ hb' hs' h' =>
            cases h with
            | digit _ _ d _ _ hcd hd h => unfold DigitVal at hcd; cases hb' <;> simp at hcd <;> omega
            | underscore => cases hb'
        | pre c0 b0 s _ hb0 hs0 h =>
          cases c with
          | dec _ d' _ _ hc0' h0' hd' h' => unfold DigitVal at hc0'; simp at hc0'; omega
          | oct _ _ h' =>
            cases h' with
            | digit _ _ d _ _ hcd hd h => unfold DigitVal at hcd; cases hb0 <;> simp at hcd <;> omega
            | underscore => cases hb0
          | pre _ b' _ _ hb' hs' h' =>
            have : b0 = b' := by cases hb0 <;> cases hb' <;> rfl
            subst this
            exact (dig b0 0 _ s (base_size hb0).2 h _ h').symm
      rcases this l (ascii "60666") with h | h
      · rw [h] at h5
        obtain ⟨q1, q2⟩ := (C75_number (ascii "60666") 60666).mp (by decide +kernel)
        have := uniq _ _ _ q1 q2 h5
        omega
      · obtain ⟨n, q1, q2⟩ := h2 _ h
        have := uniq _ _ _ q1 q2 h5
        omega
    refine ⟨⟨w.input, w.wd, w.port, w.cmd, last (ascii "u") l (ascii "-1B"), last (ascii "d") l (ascii "-1B"), wrap64 w.up, wrap64 w.down⟩,
      ?_, rfl, rfl, rfl, rfl, rfl, rfl⟩
    rw [main_iff _ _ s c hs, initOpts_iff]
    exact ⟨⟨l, h1, h2, h3, h4, ⟨h5, hport⟩, h6, rfl, rfl, hi, by rw [hcmd]; exact hc,
      (C58_parse_partial _ _).mpr ⟨m, w.up, h7, h8, rfl⟩, (C58_parse_partial _ _).mpr ⟨m', w.down, h9, h10, rfl⟩⟩, hcmd⟩
  · intro o h
    rw [main_iff _ _ s c hs, initOpts_iff] at h
    obtain ⟨⟨l, c1, c2, c3, c4, ⟨c5, -⟩, c6, c7, c8, c9, c10, c11, c12⟩, hcmd⟩ := h
    obtain ⟨m, u, u1, u2, u3⟩ := (C58_parse_partial _ _).mp c11
    obtain ⟨m', d, d1, d2, d3⟩ := (C58_parse_partial _ _).mp c12
    refine ⟨⟨o.input, o.wd, o.port, o.cmd, u, d⟩, ⟨l, c1, c2, c3, c4, c5, c6, ⟨m, by rw [← c7]; exact u1, u2⟩, m', by rw [← c8]; exact d1, d2⟩, c9, hcmd,
      rfl, rfl, rfl, rfl, u3, d3⟩

/-- **C75**, partial: what the command line means decides what is run.  If it means `w` and asks for the command `swarm` with an input, then that is
run, with the options of `w` (port modulo 2^16, limits modulo 2^64); and it is only run if the command line means such a `w`.
Missing: a working directory and a port below 2^16 are not required, see the refutations. -/
theorem C75_swarm_partial (args : List Bytes) :
    (∀ w, Means args w ∧ w.input ≠ [] ∧ w.cmd = ascii "swarm" → ∃ o, main args = .swarm o ∧ Shows o w) ∧
    (∀ o, main args = .swarm o → ∃ w, Means args w ∧ w.input ≠ [] ∧ w.cmd = ascii "swarm" ∧ Shows o w) :=
  ⟨fun w => (run_iff args w .swarm _ (.inl ⟨rfl, rfl⟩)).1, (run_iff args ⟨[], [], 0, [], 0, 0⟩ .swarm _ (.inl ⟨rfl, rfl⟩)).2⟩

/-- **C75**, partial: the same for the command `info`. -/
theorem C75_info_partial (args : List Bytes) :
    (∀ w, Means args w ∧ w.input ≠ [] ∧ w.cmd = ascii "info" → ∃ o, main args = .info o ∧ Shows o w) ∧
    (∀ o, main args = .info o → ∃ w, Means args w ∧ w.input ≠ [] ∧ w.cmd = ascii "info" ∧ Shows o w) :=
  ⟨fun w => (run_iff args w .info _ (.inr ⟨rfl, rfl⟩)).1, (run_iff args ⟨[], [], 0, [], 0, 0⟩ .info _ (.inr ⟨rfl, rfl⟩)).2⟩

/-- **C75**: for every other command line the program ends before it does anything. -/
theorem C75_otherwise (args : List Bytes) :
    (∃ o, main args = .swarm o) ∨ (∃ o, main args = .info o) ∨ main args = .panic ∨ main args = .exit 0 ∨ main args = .exit 2 := by
  have code : ∀ n (args : List Bytes) (o : Opts) (c : Nat), args.length ≤ n → parseArgs o args = .error c → c = 0 ∨ c = 2 := by
    intro n
    induction n with
    | zero =>
      intro args o c hl h
      have : args = [] := List.eq_nil_of_length_eq_zero (by omega)
      subst this; cases h
    | succ n ih =>
      intro args o c hl h
      cases args with
      | nil => cases h
      | cons s rest =>
        simp only [List.length_cons] at hl
        unfold parseArgs at h
        split at h
        · cases h
        · cases h; exact .inr rfl
        · cases h; exact .inl rfl
        · split at h
          · exact ih rest _ c (by omega) h
          · cases h; exact .inr rfl
        · split at h
          · cases h; exact .inr rfl
          · split at h
            · exact ih _ _ c (by simp only [List.length_cons] at hl; omega) h
            · cases h; exact .inr rfl
  unfold main
  cases hi : initOpts args with
  | error c =>
    unfold initOpts at hi
    cases hp : parseArgs defaults args with
    | ok o => rw [hp] at hi; cases hi
    | error c' =>
      rw [hp] at hi
      cases hi
      rcases code _ args defaults c (Nat.le_refl _) hp with rfl | rfl
      · exact .inr (.inr (.inr (.inl rfl)))
      · exact .inr (.inr (.inr (.inr rfl)))
  | ok r =>
    cases r with
    | ok o =>
      simp only
      obtain ⟨l, -, -, -, -, -, -, -, -, -, hc, -⟩ := (initOpts_iff args o).mp hi
      rcases hc with hc | hc
      · rw [if_pos hc]; exact .inl ⟨o, rfl⟩
      · rw [if_neg (by rw [hc]; decide), if_pos hc]; exact .inr (.inl ⟨o, rfl⟩)
    | err e => exact .inr (.inr (.inl rfl))
    | panic => exact .inr (.inr (.inl rfl))
    | timeout => exact .inr (.inr (.inl rfl))

/-- an instance: `-i=t -p 6881 --cmd info -u 12m -u=10K x -d 7`; the last `-u` counts, everything behind `x` is ignored -/
theorem exMeans : Means [ascii "-i=t", ascii "-p", ascii "6881", ascii "--cmd", ascii "info", ascii "-u", ascii "12m", ascii "-u=10K", ascii "x", ascii "-d", ascii "7"]
    ⟨ascii "t", [], 6881, ascii "info", 10 * 1024, -1⟩ := by
  have h : CmdLine [ascii "-" ++ ascii "i" ++ ascii "=" ++ ascii "t", ascii "-" ++ ascii "p", ascii "6881", ascii "--" ++ ascii "cmd", ascii "info",
      ascii "-" ++ ascii "u", ascii "12m", ascii "-" ++ ascii "u" ++ ascii "=" ++ ascii "10K", ascii "x", ascii "-d", ascii "7"]
      [(ascii "i", ascii "t"), (ascii "p", ascii "6881"), (ascii "cmd", ascii "info"), (ascii "u", ascii "12m"), (ascii "u", ascii "10K")] :=
    .one _ _ _ _ _ (.inl rfl) (by decide) (.two _ _ _ _ _ (.inl rfl) (by decide) (.two _ _ _ _ _ (.inr rfl) (by decide)
      (.two _ _ _ _ _ (.inl rfl) (by decide) (.one _ _ _ _ _ (.inl rfl) (by decide) (.word _ _ (.inr (by decide)))))))
  rw [show ascii "-" ++ ascii "i" ++ ascii "=" ++ ascii "t" = ascii "-i=t" by decide +kernel, show ascii "-" ++ ascii "p" = ascii "-p" by decide +kernel,
    show ascii "--" ++ ascii "cmd" = ascii "--cmd" by decide +kernel, show ascii "-" ++ ascii "u" = ascii "-u" by decide +kernel,
    show ascii "-u" ++ ascii "=" ++ ascii "10K" = ascii "-u=10K" by decide +kernel] at h
  refine ⟨_, h, ?_, by decide +kernel, by decide +kernel, ?_, by decide +kernel, ?_, ?_⟩
  · intro v hv
    simp only [List.mem_cons, Prod.mk.injEq, List.mem_nil_iff, or_false] at hv
    have : v = ascii "6881" := by
      rcases hv with ⟨h, -⟩ | ⟨-, h⟩ | ⟨h, -⟩ | ⟨h, -⟩ | ⟨h, -⟩
      · exact absurd h (by decide)
      · exact h
      · exact absurd h (by decide)
      · exact absurd h (by decide)
      · exact absurd h (by decide)
    subst this
    exact ⟨6881, (C75_number _ _).mp (by decide +kernel)⟩
  · exact ((C75_number _ _).mp (by decide +kernel)).1
  · refine ⟨10, ?_, by decide⟩
    have h := Denotes.plus (ascii "10") (ascii "K") 1024 (by decide +kernel) (by decide +kernel) (.kilo 75 (by decide))
    rw [show decVal (ascii "10") = 10 by decide +kernel] at h
    rw [show last (ascii "u") [(ascii "i", ascii "t"), (ascii "p", ascii "6881"), (ascii "cmd", ascii "info"), (ascii "u", ascii "12m"), (ascii "u", ascii "10K")]
      (ascii "-1B") = ascii "10" ++ ascii "K" by decide +kernel]
    exact h
  · refine ⟨1, ?_, by decide⟩
    have h := Denotes.minus (ascii "1") (ascii "B") 1 (by decide +kernel) (by decide +kernel) (.bytes 66 (by decide))
    rw [show decVal (ascii "1") = 1 by decide +kernel] at h
    rw [show last (ascii "d") [(ascii "i", ascii "t"), (ascii "p", ascii "6881"), (ascii "cmd", ascii "info"), (ascii "u", ascii "12m"), (ascii "u", ascii "10K")]
      (ascii "-1B") = ascii "-" ++ ascii "1" ++ ascii "B" by decide +kernel]
    exact h

example : ∃ o, main [ascii "-i=t", ascii "-p", ascii "6881", ascii "--cmd", ascii "info", ascii "-u", ascii "12m", ascii "-u=10K", ascii "x", ascii "-d", ascii "7"] = .info o ∧
    Shows o ⟨ascii "t", [], 6881, ascii "info", 10 * 1024, -1⟩ :=
  (C75_info_partial _).1 _ ⟨exMeans, by decide, rfl⟩

/-- **C75** refuted: the working directory may be missing, although `Validate` has an error message for that case (its condition looks at the input
once more). -/
theorem C75_refuted_wd : ∃ o, main [ascii "-i", ascii "t"] = .swarm o ∧ o.wd = [] :=
  ⟨{ defaults with input := ascii "t", uplim := -1, dnlim := -1 }, by decide +kernel, rfl⟩

/-- **C75** refuted: a port that does not exist is accepted, and another one is used: 65617 becomes 81. -/
theorem C75_refuted_port : ∃ o, main [ascii "-i", ascii "t", ascii "-p", ascii "65617"] = .swarm o ∧ o.Port = 81 :=
  ⟨{ defaults with input := ascii "t", port := 65617, uplim := -1, dnlim := -1 }, by decide +kernel, by decide +kernel⟩

/-- **C75** refuted: a port with a leading zero is read as an octal number: 010 becomes 8. -/
theorem C75_refuted_octal : ∃ o, main [ascii "-i", ascii "t", ascii "-p", ascii "010"] = .swarm o ∧ o.Port = 8 :=
  ⟨{ defaults with input := ascii "t", port := 8, uplim := -1, dnlim := -1 }, by decide +kernel, by decide +kernel⟩

/-- **C75** refuted: options behind a word that is not an option are ignored without a message; here `info` is asked for and `swarm` is run. -/
theorem C75_refuted_ignored : ∃ o, main [ascii "-i", ascii "t", ascii "x", ascii "-cmd", ascii "info"] = .swarm o :=
  ⟨{ defaults with input := ascii "t", uplim := -1, dnlim := -1 }, by decide +kernel⟩

end Verif.Flags
