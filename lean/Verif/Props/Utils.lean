import Verif.Model.Utils
import Verif.Model.Url
import Verif.Spec.Size
import Verif.Lemmas.Bytes
import Verif.Lemmas.Decimal
import Verif.Spec.Layout
/-
Properties C58 (size arguments), C59 (SegmentData), C60 (peer ids), C63 (RemoveSwap).
-/
set_option autoImplicit false

namespace Verif.Utils
open Verif.Bencode Verif.Size Verif.Layout

/-! ## C58 -/

theorem upper_digit (c : UInt8) (h : 48 ≤ c ∧ c ≤ 57) : upper c = c := by
  revert h; revert c
  decide +kernel

theorem upper_isDigit (c : UInt8) : isDigit (upper c) = isDigit c := by
  revert c; decide +kernel

theorem upper_of_isDigit (c : UInt8) : isDigit (upper c) = true → upper c = c := by
  revert c; decide +kernel

theorem upper_minus (c : UInt8) : upper c = 45 ↔ c = 45 := by
  revert c; decide +kernel

theorem wrap64_id (x : Int) (h : InInt64 x) : wrap64 x = x := by
  unfold wrap64; unfold InInt64 at h; omega

theorem wrap64_mul (x y : Int) : wrap64 (wrap64 x * y) = wrap64 (x * y) := by
  unfold wrap64
  have h1 : ((x + 2 ^ 63) % 2 ^ 64 - 2 ^ 63) * y = x * y + 2 ^ 64 * (-((x + 2 ^ 63) / 2 ^ 64) * y) := by
    have := Int.emod_add_mul_ediv (x + 2 ^ 63) (2 ^ 64)
    have e : (x + 2 ^ 63) % 2 ^ 64 - 2 ^ 63 = x + 2 ^ 64 * (-((x + 2 ^ 63) / 2 ^ 64)) := by omega
    rw [e, Int.add_mul, Int.mul_assoc]
  rw [h1, show x * y + 2 ^ 64 * (-((x + 2 ^ 63) / 2 ^ 64) * y) + 2 ^ 63 =
    (x * y + 2 ^ 63) + 2 ^ 64 * (-((x + 2 ^ 63) / 2 ^ 64) * y) by omega, Int.add_mul_emod_self_left]

theorem upB : ∀ c : UInt8, upper c = 66 → c ∈ ascii "Bb" := by decide +kernel
theorem downB : ∀ c : UInt8, c ∈ ascii "Bb" → upper c = 66 := by decide +kernel
theorem upK : ∀ c : UInt8, upper c = 75 → c ∈ ascii "Kk" := by decide +kernel
theorem downK : ∀ c : UInt8, c ∈ ascii "Kk" → upper c = 75 := by decide +kernel
theorem upM : ∀ c : UInt8, upper c = 77 → c ∈ ascii "Mm" := by decide +kernel
theorem downM : ∀ c : UInt8, c ∈ ascii "Mm" → upper c = 77 := by decide +kernel
theorem upG : ∀ c : UInt8, upper c = 71 → c ∈ ascii "Gg" := by decide +kernel
theorem downG : ∀ c : UInt8, c ∈ ascii "Gg" → upper c = 71 := by decide +kernel
/-- the suffixes the code accepts, after `ToUpper` -/
theorem unitPart_spec (x : Int) (u : Bytes) (v : Int) (hx : InInt64 x) :
    unitPart x (u.map upper) = .ok v ↔ ∃ k, Size.Unit u k ∧ v = wrap64 (x * k) := by
  constructor
  · intro h
    match u with
    | [] =>
      unfold unitPart at h
      simp only [List.map_nil, Res.ok.injEq] at h
      exact ⟨1, .none, by rw [← h]; simp [wrap64_id x hx]⟩
    | [c] =>
      unfold unitPart at h
      simp only [List.map_cons, List.map_nil] at h
      have hB : upper c = 66 → c ∈ ascii "Bb" := upB c
      have hK : upper c = 75 → c ∈ ascii "Kk" := upK c
      have hM : upper c = 77 → c ∈ ascii "Mm" := upM c
      have hG : upper c = 71 → c ∈ ascii "Gg" := upG c
      split at h
      · rename_i hc
        simp only [Res.ok.injEq] at h
        exact ⟨1, .bytes c (hB hc), by rw [← h]; simp [wrap64_id x hx]⟩
      · split at h
        · rename_i hc
          simp only [Res.ok.injEq] at h
          exact ⟨_, .kilo c (hK hc), by rw [← h]; rfl⟩
        · split at h
          · rename_i hc
            simp only [Res.ok.injEq] at h
            refine ⟨_, .mega c (hM hc), ?_⟩
            rw [← h, wrap64_mul, Int.mul_assoc]; rfl
          · split at h
            · rename_i hc
              simp only [Res.ok.injEq] at h
              refine ⟨_, .giga c (hG hc), ?_⟩
              rw [← h, wrap64_mul, Int.mul_assoc (wrap64 (x * 1024)), wrap64_mul, Int.mul_assoc]; rfl
            · cases h
    | _ :: _ :: _ =>
      unfold unitPart at h
      simp only [List.map_cons] at h
      cases h
  · rintro ⟨k, hk, rfl⟩
    unfold unitPart
    cases hk with
    | none => simp [wrap64_id x hx]
    | bytes c hc =>
      have : upper c = 66 := downB c hc
      simp [this, wrap64_id x hx]
    | kilo c hc =>
      have : upper c = 75 := downK c hc
      simp [this]
    | mega c hc =>
      have : upper c = 77 := downM c hc
      simp only [List.map_cons, List.map_nil, this]
      rw [if_neg (by decide), if_neg (by decide), if_pos trivial, wrap64_mul, Int.mul_assoc]; rfl
    | giga c hc =>
      have : upper c = 71 := downG c hc
      simp only [List.map_cons, List.map_nil, this]
      rw [if_neg (by decide), if_neg (by decide), if_neg (by decide), if_pos trivial, wrap64_mul,
        Int.mul_assoc (wrap64 (x * 1024)), wrap64_mul, Int.mul_assoc]; rfl

theorem nd0 : ∀ c ∈ ascii "Bb", isDigit c = false := by decide +kernel
theorem nd1 : ∀ c ∈ ascii "Kk", isDigit c = false := by decide +kernel
theorem nd2 : ∀ c ∈ ascii "Mm", isDigit c = false := by decide +kernel
theorem nd3 : ∀ c ∈ ascii "Gg", isDigit c = false := by decide +kernel
theorem unit_no_digit (u : Bytes) (k : Nat) (h : Size.Unit u k) : ∀ c r, u = c :: r → isDigit c = false := by
  intro c r hc
  cases h with
  | none => cases hc
  | bytes c' h => cases hc; exact nd0 _ h
  | kilo c' h => cases hc; exact nd1 _ h
  | mega c' h => cases hc; exact nd2 _ h
  | giga c' h => cases hc; exact nd3 _ h

theorem map_upper_takeWhile (s : Bytes) : (s.map upper).takeWhile isDigit = s.takeWhile isDigit := by
  induction s with
  | nil => rfl
  | cons c s ih =>
    rw [List.map_cons, List.takeWhile_cons, List.takeWhile_cons, upper_isDigit, ih]
    by_cases h : isDigit c = true
    · rw [if_pos h, if_pos h, upper_digit c ((isDigit_iff c).mp h)]
    · rw [if_neg h, if_neg h]

theorem map_upper_dropWhile (s : Bytes) : (s.map upper).dropWhile isDigit = (s.dropWhile isDigit).map upper := by
  induction s with
  | nil => rfl
  | cons c s ih =>
    rw [List.map_cons, List.dropWhile_cons, List.dropWhile_cons, upper_isDigit, ih]
    by_cases h : isDigit c = true
    · rw [if_pos h, if_pos h]
    · rw [if_neg h, if_neg h]; rfl

theorem takeWhile_append_stop (ds u : Bytes) (hd : ∀ d ∈ ds, isDigit d = true)
    (hu : ∀ c r, u = c :: r → isDigit c = false) :
    (ds ++ u).takeWhile isDigit = ds ∧ (ds ++ u).dropWhile isDigit = u := by
  induction ds with
  | nil =>
    cases u with
    | nil => exact ⟨rfl, rfl⟩
    | cons c r =>
      have := hu c r rfl
      simp [this]
  | cons d ds ih =>
    have h1 := hd d (by simp)
    obtain ⟨h2, h3⟩ := ih (fun x hx => hd x (by simp [hx]))
    rw [List.cons_append, List.takeWhile_cons, List.dropWhile_cons, if_pos h1, if_pos h1, h2, h3]
    exact ⟨rfl, rfl⟩

theorem sizeBody_spec (mult : Int) (hm : mult = 1 ∨ mult = -1) (s : Bytes) (v : Int) :
    sizeBody mult (s.map upper) = .ok v ↔
      ∃ ds u k, s = ds ++ u ∧ ds ≠ [] ∧ (∀ d ∈ ds, 48 ≤ d ∧ d ≤ 57) ∧ Size.Unit u k ∧ decVal ds < 2 ^ 63 ∧
        v = wrap64 (mult * (decVal ds * k)) := by
  have hrange : ∀ m : Nat, m < 2 ^ 63 → InInt64 ((m : Int) * mult) := by
    intro m hm'
    rcases hm with rfl | rfl <;> unfold InInt64 <;> omega
  unfold sizeBody
  rw [map_upper_takeWhile, map_upper_dropWhile]
  constructor
  · intro h
    split at h
    · cases h
    · rename_i m hp
      unfold parseDigits at hp
      split at hp
      · cases hp
      · rename_i hne
        split at hp
        · rename_i hlt
          cases hp
          rw [digitsVal_eq] at hlt h
          rw [wrap64_id _ (hrange _ hlt)] at h
          obtain ⟨k, hk, rfl⟩ := (unitPart_spec _ _ _ (hrange _ hlt)).mp h
          refine ⟨s.takeWhile isDigit, s.dropWhile isDigit, k, (List.takeWhile_append_dropWhile).symm, ?_, ?_, hk, hlt, ?_⟩
          · intro h0; rw [h0] at hne; exact hne rfl
          · intro d hd
            exact (isDigit_iff d).mp (List.all_eq_true.mp (List.all_takeWhile (p := isDigit) (l := s)) d hd)
          · congr 1
            rw [Int.mul_comm _ mult, Int.mul_assoc]
        · cases hp
  · rintro ⟨ds, u, k, rfl, hne, hd, hk, hlt, rfl⟩
    obtain ⟨h1, h2⟩ := takeWhile_append_stop ds u (fun d hd' => (isDigit_iff d).mpr (hd d hd')) (unit_no_digit u k hk)
    rw [h1, h2]
    have hp : parseDigits ds = some (decVal ds) := by
      unfold parseDigits
      rw [if_neg (by simpa using hne), digitsVal_eq, if_pos hlt]
    rw [hp]
    simp only
    rw [wrap64_id _ (hrange _ hlt)]
    refine (unitPart_spec _ _ _ (hrange _ hlt)).mpr ⟨k, hk, ?_⟩
    congr 1
    rw [Int.mul_comm _ mult, Int.mul_assoc]

/-- **C58**, exact behaviour: an argument is accepted exactly if it has the form [-]digits[B|K|M|G] (any case) and the
number fits an int64; the result is the denoted value modulo 2^64 (as int64).
(Partial: the property wants every well-formed argument to be accepted with its value; see `C58_refuted_overflow`.) -/
theorem C58_parse_partial (s : Bytes) (v : Int) :
    parseSizeUnits s = .ok v ↔ ∃ m x, Denotes s m x ∧ m < 2 ^ 63 ∧ v = wrap64 x := by
  have hdash : ascii "-" = [45] := by decide
  constructor
  · intro h
    unfold parseSizeUnits at h
    cases s with
    | nil => cases h
    | cons c s =>
      simp only [List.map_cons] at h
      split at h
      · rename_i hc
        rw [upper_minus] at hc
        subst hc
        obtain ⟨ds, u, k, rfl, h1, h2, h3, h4, rfl⟩ := (sizeBody_spec (-1) (.inr rfl) s v).mp h
        refine ⟨_, -(decVal ds * k), ?_, h4, ?_⟩
        · have := Denotes.minus ds u k h1 h2 h3
          rw [hdash] at this
          exact this
        · congr 1; omega
      · rw [← List.map_cons] at h
        obtain ⟨ds, u, k, e, h1, h2, h3, h4, hv⟩ := (sizeBody_spec 1 (.inl rfl) (c :: s) v).mp h
        rw [e, hv]
        exact ⟨decVal ds, decVal ds * k, Denotes.plus ds u k h1 h2 h3, h4, by rw [Int.one_mul]⟩
  · rintro ⟨m, x, hd, hm, rfl⟩
    cases hd with
    | plus ds u k h1 h2 h3 =>
      have hb := (sizeBody_spec 1 (.inl rfl) (ds ++ u) _).mpr ⟨ds, u, k, rfl, h1, h2, h3, hm, rfl⟩
      rw [Int.one_mul] at hb
      rw [← hb]
      unfold parseSizeUnits
      cases ds with
      | nil => exact absurd rfl h1
      | cons d ds =>
        simp only [List.cons_append, List.map_cons]
        rw [if_neg]
        have hd := h2 d (by simp)
        rw [upper_digit d hd]
        rintro rfl
        exact absurd hd.1 (by decide)
    | minus ds u k h1 h2 h3 =>
      have hb := (sizeBody_spec (-1) (.inr rfl) (ds ++ u) _).mpr ⟨ds, u, k, rfl, h1, h2, h3, hm, rfl⟩
      rw [show (-1 : Int) * (decVal ds * k) = -(decVal ds * k) by omega] at hb
      rw [← hb, hdash]
      rfl

/-- **C58**: a well-formed argument whose number and value fit an int64 is accepted with exactly that value. -/
theorem C58_exact_partial (s : Bytes) (m : Nat) (x : Int) (h : Denotes s m x) (hm : m < 2 ^ 63) (hx : InInt64 x) :
    parseSizeUnits s = .ok x :=
  (C58_parse_partial s x).mpr ⟨m, x, h, hm, (wrap64_id x hx).symm⟩

example : Denotes (ascii "-12m") 12 (-12 * 2 ^ 20) ∧ InInt64 (-12 * 2 ^ 20) := by
  refine ⟨?_, by unfold InInt64; omega⟩
  have h := Denotes.minus (ascii "12") (ascii "m") (2 ^ 20) (by decide +kernel) (by decide +kernel) (.mega 109 (by decide))
  rw [show decVal (ascii "12") = 12 by decide +kernel] at h
  rw [show ascii "-12m" = ascii "-" ++ ascii "12" ++ ascii "m" by decide +kernel]
  simpa using h

/-- **C58**: whatever is not of the form is rejected with an error; nothing panics. -/
theorem C58_reject (s : Bytes) (h : ∀ m x, ¬ Denotes s m x) : ∃ e, parseSizeUnits s = .err e := by
  have hbody : ∀ mult t, (∃ v, sizeBody mult t = .ok v) ∨ ∃ e, sizeBody mult t = .err e := by
    intro mult t
    unfold sizeBody
    split
    · exact .inr ⟨_, rfl⟩
    · unfold unitPart
      split
      · exact .inl ⟨_, rfl⟩
      · repeat' split
        all_goals first | exact .inl ⟨_, rfl⟩ | exact .inr ⟨_, rfl⟩
      · exact .inr ⟨_, rfl⟩
  have htotal : (∃ v, parseSizeUnits s = .ok v) ∨ ∃ e, parseSizeUnits s = .err e := by
    unfold parseSizeUnits
    split
    · exact .inr ⟨_, rfl⟩
    · split
      · exact hbody _ _
      · exact hbody _ _
  rcases htotal with ⟨v, hv⟩ | he
  · obtain ⟨m, x, hd, -⟩ := (C58_parse_partial s v).mp hv
    exact absurd hd (h m x)
  · exact he

example : ∀ m x, ¬ Denotes (ascii "1KB") m x := by
  intro m x h
  have hno : ¬ ∃ v, parseSizeUnits (ascii "1KB") = .ok v := by
    rintro ⟨v, hv⟩
    have : parseSizeUnits (ascii "1KB") = .err .other := by decide +kernel
    rw [this] at hv; cases hv
  have hm : m < 2 ^ 63 := by
    generalize hs : ascii "1KB" = s at h
    have hlen : s.length = 3 := by rw [← hs]; rfl
    have bound : ∀ ds : Bytes, (∀ d ∈ ds, 48 ≤ d ∧ d ≤ 57) → decVal ds < 10 ^ ds.length := by
      intro ds
      induction ds with
      | nil => intro _; decide
      | cons d ds ih =>
        intro hd
        have h1 := ih (fun x hx => hd x (by simp [hx]))
        have h2 := (hd d (by simp)).2
        have h3 : d.toNat ≤ 57 := UInt8.le_iff_toNat_le.mp h2
        rw [decVal, List.length_cons, Nat.pow_succ]
        have : (d.toNat - 48) * 10 ^ ds.length ≤ 9 * 10 ^ ds.length := Nat.mul_le_mul_right _ (by omega)
        omega
    cases h with
    | plus ds u k h1 h2 h3 =>
      have := bound ds h2
      rw [List.length_append] at hlen
      have h4 : (10:Nat) ^ ds.length ≤ 10 ^ 3 := Nat.pow_le_pow_right (by decide) (by omega)
      omega
    | minus ds u k h1 h2 h3 =>
      have := bound ds h2
      rw [List.length_append, List.length_append] at hlen
      have h4 : (10:Nat) ^ ds.length ≤ 10 ^ 3 := Nat.pow_le_pow_right (by decide) (by omega)
      omega
  exact hno ⟨_, (C58_parse_partial _ _).mpr ⟨m, x, h, hm, rfl⟩⟩

/-- **C58 refuted**: a value beyond the int64 range is silently wrapped (17179869184G is accepted as 0), and a number of
more than 63 bits is rejected although it has the documented form. -/
theorem C58_refuted_overflow :
    (Denotes (ascii "17179869184G") 17179869184 (17179869184 * 2 ^ 30) ∧ parseSizeUnits (ascii "17179869184G") = .ok 0) ∧
    (Denotes (ascii "9223372036854775808") 9223372036854775808 9223372036854775808 ∧
      parseSizeUnits (ascii "9223372036854775808") = .err .strconv) := by
  refine ⟨⟨?_, by decide +kernel⟩, ?_, by decide +kernel⟩
  · have h := Denotes.plus (ascii "17179869184") (ascii "G") (2 ^ 30) (by decide +kernel) (by decide +kernel) (.giga 71 (by decide))
    rw [show decVal (ascii "17179869184") = 17179869184 by decide +kernel] at h
    rw [show ascii "17179869184G" = ascii "17179869184" ++ ascii "G" by decide +kernel]
    simpa using h
  · have h := Denotes.plus (ascii "9223372036854775808") [] 1 (by decide +kernel) (by decide +kernel) .none
    rw [show decVal (ascii "9223372036854775808") = 9223372036854775808 by decide +kernel] at h
    simpa using h

/-! ## C59 -/

theorem segLoop_spec (data : Bytes) (n : Nat) (hn : 0 < n) (fuel i left : Nat) (acc : List Bytes)
    (hi : i + left = data.length) (hf : left < fuel) :
    ∃ segs, segLoop data n fuel i left acc = .ok (acc ++ segs) ∧ segs.flatten = data.drop i ∧
      (∀ (k : Nat) (s : Bytes), segs[k]? = some s → k + 1 < segs.length → s.length = n) ∧
      (∀ s ∈ segs, 0 < s.length ∧ s.length ≤ n) := by
  induction fuel generalizing i left acc with
  | zero => omega
  | succ fuel ih =>
    unfold segLoop
    by_cases h0 : left = 0
    · subst h0
      refine ⟨[], by simp, ?_, by simp, by simp⟩
      rw [List.drop_eq_nil_of_le (by omega)]; rfl
    · have hcast : ((left : Int) = 0) ↔ False := by simp [h0]
      simp only [hcast, if_false]
      -- the amount written
      have key : ∀ w : Nat, (if (left : Int) < n then (left : Int) else n) = w → 0 < w → w ≤ left → w ≤ n →
          (w < n → w = left) →
          ∃ segs, (if (i : Int) + (if (left : Int) < n then (left : Int) else n) < i ∨
              (i : Int) + (if (left : Int) < n then (left : Int) else n) > data.length ∨ (i : Int) < 0 then (.panic : Res (List Bytes))
            else segLoop data n fuel (i + (if (left : Int) < n then (left : Int) else n))
              (left - (if (left : Int) < n then (left : Int) else n))
              (acc ++ [(data.drop (i : Int).toNat).take (if (left : Int) < n then (left : Int) else n).toNat])) =
              .ok (acc ++ segs) ∧ segs.flatten = data.drop i ∧
            (∀ (k : Nat) (s : Bytes), segs[k]? = some s → k + 1 < segs.length → s.length = n) ∧
            (∀ s ∈ segs, 0 < s.length ∧ s.length ≤ n) := by
        intro w hw h1 h2 h3 h4
        rw [hw, if_neg (by omega)]
        obtain ⟨segs, e1, e2, e3, e4⟩ := ih (i + w) (left - w) (acc ++ [(data.drop i).take w]) (by omega) (by omega)
        have hl : ((data.drop i).take w).length = w := by rw [List.length_take, List.length_drop]; omega
        refine ⟨(data.drop i).take w :: segs, ?_, ?_, ?_, ?_⟩
        · rw [show ((i : Int) + w) = ((i + w : Nat) : Int) by omega,
            show ((left : Int) - w) = ((left - w : Nat) : Int) by omega, Int.toNat_natCast, Int.toNat_natCast, e1]
          simp
        · rw [List.flatten_cons, e2, ← List.drop_drop, List.take_append_drop]
        · intro k s hk hlast
          cases k with
          | zero =>
            simp only [List.getElem?_cons_zero, Option.some.injEq] at hk
            subst hk
            rw [hl]
            apply Classical.byContradiction
            intro hne
            have hw' := h4 (by omega)
            have : segs = [] := by
              have hz : segs.flatten = [] := by
                rw [e2, List.drop_eq_nil_of_le (by omega)]
              cases segs with
              | nil => rfl
              | cons a b =>
                have := (e4 a (by simp)).1
                rw [List.flatten_cons, List.append_eq_nil_iff] at hz
                rw [hz.1] at this; simp at this
            subst this
            simp at hlast
          | succ k =>
            rw [List.getElem?_cons_succ] at hk
            exact e3 k s hk (by rw [List.length_cons] at hlast; omega)
        · intro s hs
          rcases List.mem_cons.mp hs with rfl | hs
          · rw [hl]; omega
          · exact e4 s hs
      by_cases hlt : left < n
      · exact key left (by rw [if_pos (by omega)]) (by omega) (by omega) (by omega) (fun _ => rfl)
      · exact key n (by rw [if_neg (by omega)]) hn (by omega) (by omega) (fun h => by omega)

/-- **C59**.  For every data and every positive segment size, `SegmentData` succeeds; the segments concatenate to the data,
all but the last have exactly the requested size, and the last is not empty and not longer than that. -/
theorem C59_segments (data : Bytes) (n : Nat) (hn : 0 < n) :
    ∃ segs, SegmentData data n = .ok segs ∧ segs.flatten = data ∧
      (∀ (k : Nat) (s : Bytes), segs[k]? = some s → k + 1 < segs.length → s.length = n) ∧
      (∀ s ∈ segs, 0 < s.length ∧ s.length ≤ n) := by
  obtain ⟨segs, h1, h2⟩ := segLoop_spec data n hn (data.length + 1) 0 data.length [] (by omega) (by omega)
  refine ⟨segs, ?_, h2⟩
  unfold SegmentData
  rw [if_neg (by omega), if_neg]
  · exact h1
  · have : (data.length : Int).tdiv (n : Int) = ((data.length / n : Nat) : Int) := rfl
    rw [this]
    have := Int.natCast_nonneg (data.length / n)
    omega

example : ∃ segs, SegmentData [1, 2, 3, 4, 5] (2 : Nat) = .ok segs ∧ segs = [[1, 2], [3, 4], [5]] :=
  ⟨_, by decide +kernel, rfl⟩

/-- **C59**, consequence: segment `k` is the piece `k` of the data, and there are as many segments as pieces are needed. -/
theorem C59_pieces (data : Bytes) (n : Nat) (hn : 0 < n) (segs : List Bytes) (h : SegmentData data n = .ok segs) :
    segs = (List.range (needed data.length n)).map (pieceOf data n) := by
  obtain ⟨segs', h1, h2, h3, h4⟩ := C59_segments data n hn
  rw [h] at h1
  cases h1
  clear h
  induction segs generalizing data with
  | nil =>
    rw [List.flatten_nil] at h2
    subst h2
    have : needed ([] : Bytes).length n = 0 := by
      unfold needed; rw [Nat.div_eq_zero_iff]; right; simp; omega
    rw [this]; rfl
  | cons s segs ih =>
    rw [List.flatten_cons] at h2
    have hs := h4 s (by simp)
    have hrest := ih segs.flatten rfl
      (fun k t hk hl => h3 (k + 1) t (by rw [List.getElem?_cons_succ]; exact hk) (by rw [List.length_cons]; omega))
      (fun t ht => h4 t (by simp [ht]))
    by_cases hlast : segs = []
    · subst hlast
      simp only [List.flatten_nil, List.append_nil] at h2
      subst h2
      have hnd : needed s.length n = 1 := by
        unfold needed
        rw [Nat.div_eq_iff hn]; omega
      rw [hnd]
      have : pieceOf s n 0 = s := by unfold pieceOf; rw [Nat.zero_mul, List.drop_zero, List.take_of_length_le hs.2]
      simp [this]
    · have hfull : s.length = n := h3 0 s rfl (by
        have := List.length_pos_iff.mpr hlast
        rw [List.length_cons]; omega)
      have hnd : needed data.length n = needed segs.flatten.length n + 1 := by
        unfold needed
        rw [← h2, List.length_append, hfull,
          show n + segs.flatten.length + n - 1 = (segs.flatten.length + n - 1) + n by omega, Nat.add_div_right _ hn]
      rw [hnd, List.range_succ_eq_map, List.map_cons, List.map_map]
      have h0 : pieceOf data n 0 = s := by
        unfold pieceOf
        rw [Nat.zero_mul, List.drop_zero, ← h2, ← hfull, List.take_left]
      rw [h0]
      congr 1
      refine hrest.trans ?_
      apply List.map_congr_left
      intro k _
      unfold pieceOf
      simp only [Function.comp]
      rw [← h2, Nat.succ_mul, Nat.add_comm (k * n) n, ← List.drop_drop, ← hfull, List.drop_left]

example : SegmentData [1, 2, 3, 4, 5] (2 : Nat) = .ok [[1, 2], [3, 4], [5]] := by decide +kernel

/-- **C59**, other segment sizes: zero always panics; a negative size panics unless there is no data. -/
theorem C59_bad_size (data : Bytes) (n : Int) (hn : n ≤ 0) :
    SegmentData data n = if n < 0 ∧ data = [] then .ok [] else .panic := by
  unfold SegmentData
  by_cases h0 : n = 0
  · rw [if_pos h0, if_neg (by omega)]
  · rw [if_neg h0]
    have hneg : n < 0 := by omega
    cases data with
    | nil =>
      rw [if_pos (show n < 0 ∧ ([] : Bytes) = [] from ⟨hneg, rfl⟩), if_neg (by simp)]
      rfl
    | cons c cs =>
      rw [if_neg (show ¬ (n < 0 ∧ c :: cs = []) by simp)]
      split
      · rfl
      · have hl : (((c :: cs).length : Nat) : Int) = (cs.length : Int) + 1 := by simp
        unfold segLoop
        rw [if_neg (by omega)]
        rw [if_pos]
        left
        rw [if_neg (by omega)]
        omega

example : SegmentData [1] (-4) = .panic ∧ SegmentData [] (-4) = .ok [] := by decide +kernel

/-! ## C60 -/

theorem letterBytes_letters : ∀ c ∈ letterBytes, (97 ≤ c ∧ c ≤ 122) ∨ (65 ≤ c ∧ c ≤ 90) := by decide +kernel

theorem randLoop_shape (src : Nat → Nat) (fuel t i cache remain : Nat) (sb out : Bytes)
    (h : randLoop src fuel t i cache remain sb = .ok out) :
    ∃ s, out = sb ++ s ∧ s.length = i ∧ ∀ c ∈ s, c ∈ letterBytes := by
  induction fuel generalizing t i cache remain sb with
  | zero => cases h
  | succ fuel ih =>
    unfold randLoop at h
    split at h
    · rename_i hi
      simp only [Res.ok.injEq] at h
      subst h
      exact ⟨[], by simp, by simp [hi], by simp⟩
    · rename_i hi
      split at h
      · split at h
        · rename_i c hc
          obtain ⟨s, rfl, h2, h3⟩ := ih _ _ _ _ _ h
          refine ⟨c :: s, by simp, by simp; omega, ?_⟩
          intro x hx
          rcases List.mem_cons.mp hx with rfl | hx
          · exact List.mem_of_getElem? hc
          · exact h3 x hx
        · exact ih _ _ _ _ _ h
      · split at h
        · rename_i c hc
          obtain ⟨s, rfl, h2, h3⟩ := ih _ _ _ _ _ h
          refine ⟨c :: s, by simp, by simp; omega, ?_⟩
          intro x hx
          rcases List.mem_cons.mp hx with rfl | hx
          · exact List.mem_of_getElem? hc
          · exact h3 x hx
        · exact ih _ _ _ _ _ h

/-- **C60**.  Whatever the random source delivers: if a peer id is generated, it is the 8-byte client prefix followed by 12
ASCII letters, so it is 20 bytes long, and percent-escaping (`url.QueryEscape`) leaves it unchanged. -/
theorem C60_peer_id (fuel : Nat) (src : Nat → Nat) (id : Bytes) (h : NewPeerId fuel src = .ok id) :
    id.length = 20 ∧ (∃ s, id = ascii "-GT0000-" ++ s ∧ s.length = 12 ∧
      ∀ c ∈ s, (97 ≤ c ∧ c ≤ 122) ∨ (65 ≤ c ∧ c ≤ 90)) ∧ Url.QueryEscape id = id := by
  unfold NewPeerId at h
  obtain ⟨s, h1, h2⟩ := Res.bind_eq_ok.mp h
  cases h2
  obtain ⟨s', hs, hl, hm⟩ := randLoop_shape _ _ _ _ _ _ _ _ h1
  rw [List.nil_append] at hs
  subst hs
  refine ⟨by rw [List.length_append, hl]; rfl, ⟨s, rfl, hl, fun c hc => letterBytes_letters c (hm c hc)⟩, ?_⟩
  have hesc : ∀ t : Bytes, (∀ c ∈ t, Url.unreserved c = true) → Url.QueryEscape t = t := by
    intro t
    induction t with
    | nil => intro _; rfl
    | cons c t ih =>
      intro ht
      have h1 : Url.escapeByte c = [c] := by unfold Url.escapeByte; rw [if_pos (ht c (by simp))]
      have h2 := ih (fun x hx => ht x (by simp [hx]))
      unfold Url.QueryEscape at h2 ⊢
      rw [List.map_cons, List.flatten_cons, h1, h2]; rfl
  apply hesc
  intro c hc
  rcases List.mem_append.mp hc with hc | hc
  · have : ∀ c ∈ ascii "-GT0000-", Url.unreserved c = true := by decide +kernel
    exact this c hc
  · have : ∀ c ∈ letterBytes, Url.unreserved c = true := by decide +kernel
    exact this c (hm c hc)

example : ∃ id, NewPeerId 100 (fun t => 7 ^ (t + 20)) = .ok id ∧ id = ascii "-GT0000-HBHFsQEBeNaQ" :=
  ⟨_, by decide +kernel, rfl⟩

/-- **C60**, termination: a peer id is generated if the source keeps delivering numbers whose lowest six bits are a letter
index (which a random source does with probability one). -/
theorem C60_terminates (src : Nat → Nat) (hsrc : ∀ T, ∃ t, T ≤ t ∧ src t % 64 < 52) :
    ∃ fuel id, NewPeerId fuel src = .ok id := by
  have hlen : letterBytes.length = 52 := by decide +kernel
  have main : ∀ (i t cache remain : Nat) (sb : Bytes), ∃ fuel out, randLoop src fuel t i cache remain sb = .ok out := by
    intro i
    induction i with
    | zero => intro t cache remain sb; exact ⟨1, sb, rfl⟩
    | succ i ihi =>
      have inner : ∀ (d t cache remain : Nat) (sb : Bytes), (∃ t0, t ≤ t0 ∧ t0 - t ≤ d ∧ src t0 % 64 < 52) →
          ∃ fuel out, randLoop src fuel t (i + 1) cache remain sb = .ok out := by
        intro d
        induction d with
        | zero =>
          intro t cache remain
          induction remain generalizing cache with
          | zero =>
            rintro sb ⟨t0, h1, h2, h3⟩
            have : t0 = t := by omega
            subst this
            obtain ⟨fuel, out, h⟩ := ihi (t0 + 1) (src t0 / 64) 9 (sb ++ [letterBytes[src t0 % 64]])
            refine ⟨fuel + 1, out, ?_⟩
            unfold randLoop
            rw [if_neg (by omega), if_pos rfl, List.getElem?_eq_getElem (by omega)]
            exact h
          | succ r ihr =>
            rintro sb hex
            cases hc : letterBytes[cache % 64]? with
            | some c =>
              obtain ⟨fuel, out, h⟩ := ihi t (cache / 64) r (sb ++ [c])
              refine ⟨fuel + 1, out, ?_⟩
              unfold randLoop
              rw [if_neg (by omega), if_neg (by omega), hc]
              exact h
            | none =>
              obtain ⟨fuel, out, h⟩ := ihr (cache / 64) sb hex
              refine ⟨fuel + 1, out, ?_⟩
              unfold randLoop
              rw [if_neg (by omega), if_neg (by omega), hc]
              exact h
        | succ d ihd =>
          intro t cache remain
          induction remain generalizing cache with
          | zero =>
            rintro sb ⟨t0, h1, h2, h3⟩
            cases hc : letterBytes[src t % 64]? with
            | some c =>
              obtain ⟨fuel, out, h⟩ := ihi (t + 1) (src t / 64) 9 (sb ++ [c])
              refine ⟨fuel + 1, out, ?_⟩
              unfold randLoop
              rw [if_neg (by omega), if_pos rfl, hc]
              exact h
            | none =>
              have hne : t ≠ t0 := by
                rintro rfl
                rw [List.getElem?_eq_none_iff] at hc
                omega
              obtain ⟨fuel, out, h⟩ := ihd (t + 1) (src t / 64) 9 sb ⟨t0, by omega, by omega, h3⟩
              refine ⟨fuel + 1, out, ?_⟩
              unfold randLoop
              rw [if_neg (by omega), if_pos rfl, hc]
              exact h
          | succ r ihr =>
            rintro sb hex
            cases hc : letterBytes[cache % 64]? with
            | some c =>
              obtain ⟨fuel, out, h⟩ := ihi t (cache / 64) r (sb ++ [c])
              refine ⟨fuel + 1, out, ?_⟩
              unfold randLoop
              rw [if_neg (by omega), if_neg (by omega), hc]
              exact h
            | none =>
              obtain ⟨fuel, out, h⟩ := ihr (cache / 64) sb hex
              refine ⟨fuel + 1, out, ?_⟩
              unfold randLoop
              rw [if_neg (by omega), if_neg (by omega), hc]
              exact h
      intro t cache remain sb
      obtain ⟨t0, h1, h2⟩ := hsrc t
      exact inner (t0 - t) t cache remain sb ⟨t0, h1, Nat.le_refl _, h2⟩
  obtain ⟨fuel, out, h⟩ := main 12 1 (src 0) 10 []
  refine ⟨fuel, ascii "-GT0000-" ++ out, ?_⟩
  unfold NewPeerId
  rw [h]; rfl

example : ∀ T, ∃ t, T ≤ t ∧ (fun t => 7 ^ (t + 20) * 0 + 5) t % 64 < 52 := fun T => ⟨T, Nat.le_refl _, by simp⟩

/-- **C60**: a source that always delivers 2^63-1 makes the loop run forever, so some condition on the source is needed for
termination. -/
theorem C60_source_matters (fuel : Nat) : NewPeerId fuel (fun _ => 2 ^ 63 - 1) = .timeout := by
  have hlen : letterBytes.length = 52 := by decide +kernel
  have main : ∀ (fuel t i remain cache : Nat) (sb : Bytes), 0 < i → cache = 2 ^ (6 * remain + 3) - 1 →
      randLoop (fun _ => 2 ^ 63 - 1) fuel t i cache remain sb = .timeout := by
    intro fuel
    induction fuel with
    | zero => intros; rfl
    | succ fuel ih =>
      intro t i remain cache sb hi hc
      unfold randLoop
      rw [if_neg (by omega)]
      cases remain with
      | zero =>
        rw [if_pos rfl, List.getElem?_eq_none (by rw [hlen]; decide)]
        exact ih _ _ _ _ _ hi (by decide)
      | succ r =>
        have hX : 2 ^ (6 * (r + 1) + 3) = 64 * 2 ^ (6 * r + 3) := by
          rw [show 6 * (r + 1) + 3 = (6 * r + 3) + 6 by omega, Nat.pow_add]; omega
        have hpos : 0 < 2 ^ (6 * r + 3) := Nat.pow_pos (by decide)
        rw [hX] at hc
        have hdiv : cache / 64 = 2 ^ (6 * r + 3) - 1 := by omega
        rw [if_neg (by omega), List.getElem?_eq_none (by rw [hlen]; omega)]
        exact ih _ _ _ _ _ hi (by rw [Nat.add_sub_cancel]; exact hdiv)
  unfold NewPeerId
  rw [main fuel 1 12 10 _ [] (by decide) (by decide)]
  rfl

/-! ## C63: RemoveSwap -/

/-- **C63**.  For a valid index `RemoveSwap` removes exactly that element: the rest of the elements, with their
multiplicities, remain; only the position `i` gets a new element (the last one).  Any other index panics. -/
theorem C63_remove_swap {α : Type} (l : List α) :
    (∀ i : Nat, i < l.length → ∃ out, RemoveSwap l i = .ok out ∧ out.Perm (l.eraseIdx i) ∧
      (∀ j, j + 1 < l.length → j ≠ i → out[j]? = l[j]?) ∧
      (i + 1 < l.length → out[i]? = l[l.length - 1]?)) ∧
    (∀ i : Int, i < 0 ∨ (l.length : Int) ≤ i → RemoveSwap l i = .panic) := by
  constructor
  · intro i h
    refine ⟨(l.set i (l[l.length - 1]'(by omega))).take (l.length - 1), ?_, ?_, ?_, ?_⟩
    · unfold RemoveSwap
      rw [if_neg (by omega)]
      simp only [Int.toNat_natCast, h, dite_true]
    · rcases Nat.lt_or_ge (i + 1) l.length with h1 | h1
      · have hlast : l = l.take (l.length - 1) ++ [l[l.length - 1]'(by omega)] := by
          rw [List.take_append_getElem (by omega), List.take_of_length_le (by omega)]
        suffices hgen : ∀ (m : List α) (x : α), l = m ++ [x] → (((m ++ [x]).set i x).take ((m ++ [x]).length - 1)).Perm
            ((m ++ [x]).eraseIdx i) by
          have := hgen _ _ hlast
          rw [← hlast] at this
          exact this
        intro m x hl
        have hml : m.length = l.length - 1 := by rw [hl]; simp
        rw [List.set_append_left _ _ (by omega), List.length_append, hml, List.length_singleton,
          List.eraseIdx_append_of_lt_length (by omega)]
        rw [show l.length - 1 + 1 - 1 = (m.set i x).length by rw [List.length_set]; omega, List.take_left]
        have hset : m.set i x = m.take i ++ x :: m.drop (i + 1) := List.set_eq_take_append_cons_drop .. |>.trans (by rw [if_pos (by omega)])
        rw [hset, List.eraseIdx_eq_take_drop_succ, List.append_assoc]
        exact List.Perm.append_left _ (List.perm_append_singleton x _).symm
      · have : i = l.length - 1 := by omega
        subst this
        rw [List.take_set_of_le (Nat.le_refl _), List.eraseIdx_eq_take_drop_succ, List.drop_eq_nil_of_le (by omega),
          List.append_nil]
    · intro j hj hne
      rw [List.getElem?_take_of_lt (by omega), List.getElem?_set_ne (Ne.symm hne)]
    · intro hi
      rw [List.getElem?_take_of_lt (by omega), List.getElem?_set_self (by omega), List.getElem?_eq_getElem (by omega)]
  · intro i hi
    unfold RemoveSwap
    split
    · rfl
    · rw [dif_neg (by omega)]

example : RemoveSwap [0, 1, 2, 3, 4] (1 : Nat) = .ok [0, 4, 2, 3] := by decide +kernel

end Verif.Utils
