import Verif.Model.Create
import Verif.Spec.Layout
import Verif.Props.Utils
import Verif.Props.Layout
/-
Lemmas about CreateTorInfo.
-/
set_option autoImplicit false

namespace Verif.Create
open Verif.Files Verif.FS Verif.Path Verif.Utils Verif.Layout

/-- where the files of a torrent belong: several files in a directory with the name of the torrent, a single file in the working directory itself -/
def filesDir (paths : List Bytes) (wd name : Bytes) : Bytes := if paths.length ≤ 1 then wd else Join wd name

theorem baseDir_eq : baseDir = filesDir := by
  funext paths wd name
  unfold baseDir filesDir
  split <;> split <;> first | rfl | omega

theorem needed_add (a b n : Nat) (hn : 0 < n) : needed (a * n + b) n = a + needed b n := by
  unfold needed
  rw [show a * n + b + n - 1 = (b + n - 1) + a * n by omega, Nat.add_mul_div_right _ _ hn, Nat.add_comm]

theorem needed_mul (a n : Nat) (hn : 0 < n) : needed (a * n) n = a := by
  have := needed_add a 0 n hn
  rw [Nat.add_zero] at this
  rw [this]
  unfold needed
  rw [Nat.zero_add, Nat.div_eq_of_lt (by omega)]
  omega

/-- hashing a whole number of pieces and then the rest is hashing everything -/
theorem pieceHashes_append (H : Bytes → Bytes) (x y : Bytes) (n : Nat) (hn : 0 < n) (hd : n ∣ x.length) :
    pieceHashes H (x ++ y) n = pieceHashes H x n ++ pieceHashes H y n := by
  obtain ⟨a, ha⟩ := hd
  rw [Nat.mul_comm] at ha
  unfold pieceHashes
  rw [List.length_append, ha, needed_add _ _ _ hn, needed_mul _ _ hn, List.range_add, List.map_append,
    List.flatten_append, List.map_map]
  congr 2
  · apply List.map_congr_left
    intro i hi
    rw [List.mem_range] at hi
    have : i * n + n ≤ a * n := by
      have := Nat.mul_le_mul_right n (show i + 1 ≤ a by omega)
      rw [Nat.succ_mul] at this
      exact this
    unfold pieceOf
    rw [List.drop_append_of_le_length (by omega), List.take_append_of_le_length (by rw [List.length_drop]; omega)]
  · apply List.map_congr_left
    intro i hi
    simp only [Function.comp]
    unfold pieceOf
    rw [Nat.add_mul, ← ha, ← List.drop_drop, List.drop_left]

theorem pieceHashes_nil (H : Bytes → Bytes) (n : Nat) (hn : 0 < n) : pieceHashes H [] n = [] := by
  unfold pieceHashes
  have := needed_mul 0 n hn
  rw [Nat.zero_mul] at this
  rw [List.length_nil, this]
  rfl

theorem segment_hash (H : Bytes → Bytes) (x : Bytes) (n : Nat) (hn : 0 < n) :
    ∃ segs, SegmentData x n = .ok segs ∧ HashSlices H segs = pieceHashes H x n := by
  obtain ⟨segs, h, -⟩ := C59_segments x n hn
  refine ⟨segs, h, ?_⟩
  rw [C59_pieces x n hn segs h]
  unfold HashSlices pieceHashes
  rw [List.map_map]
  rfl

theorem pieceHashes_length (H : Bytes → Bytes) (hH : ∀ x, (H x).length = 20) (x : Bytes) (n : Nat) :
    (pieceHashes H x n).length = 20 * needed x.length n := by
  unfold pieceHashes
  generalize needed x.length n = k
  induction k with
  | zero => rfl
  | succ k ih => rw [List.range_succ, List.map_append, List.flatten_append, List.length_append, ih]; simp [hH]; omega

theorem pieceHashes_range (H : Bytes → Bytes) (hH : ∀ x, (H x).length = 20) (x : Bytes) (n i : Nat)
    (hi : i < needed x.length n) : range (pieceHashes H x n) (20 * i) 20 = H (pieceOf x n i) := by
  unfold pieceHashes
  generalize needed x.length n = k at hi
  have hpre : ∀ m : Nat, ((List.range m).map fun i => H (pieceOf x n i)).flatten.length = 20 * m := by
    intro m
    induction m with
    | zero => rfl
    | succ m ih => rw [List.range_succ, List.map_append, List.flatten_append, List.length_append, ih]; simp [hH]; omega
  obtain ⟨j, rfl⟩ : ∃ j, k = i + (j + 1) := ⟨k - i - 1, by omega⟩
  rw [List.range_add, List.map_append, List.flatten_append]
  unfold range
  rw [← hpre i, List.drop_left, List.map_map, List.range_succ_eq_map, List.map_cons, List.flatten_cons]
  simp only [Function.comp, Nat.add_zero]
  rw [← hH (pieceOf x n i), List.take_left]

/-- what is known while the stream of bytes `S` has been consumed -/
def Inv (H : Bytes → Bytes) (pl bufSize : Nat) (S : Bytes) (st : St) : Prop :=
  ∃ S0, S = S0 ++ st.acc ∧ pl ∣ S0.length ∧ st.hashes = pieceHashes H S0 pl ∧ st.acc.length < bufSize

theorem readFile_spec (H : Bytes → Bytes) (reads : Nat → Option Nat) (pl bufSize : Nat) (hpl : 0 < pl)
    (hb : 0 < bufSize) (hd : pl ∣ bufSize) (fuel : Nat) (rest : Bytes) (st : St) (S : Bytes) (hi : Inv H pl bufSize S st) :
    (∀ st', readFile H reads pl bufSize fuel rest st = .ok st' → Inv H pl bufSize (S ++ rest) st') ∧
    readFile H reads pl bufSize fuel rest st ≠ .panic ∧
    ((∀ t, (reads t).isSome) → rest.length < fuel → ∃ st', readFile H reads pl bufSize fuel rest st = .ok st') := by
  induction fuel generalizing rest st S with
  | zero => refine ⟨fun _ h => by simp [readFile] at h, by simp [readFile], fun _ h => by omega⟩
  | succ fuel ih =>
    obtain ⟨S0, h1, h2, h3, h4⟩ := hi
    unfold readFile
    cases hr : reads st.t with
    | none =>
      refine ⟨fun _ h => (by cases h), by simp, fun h => ?_⟩
      have := h st.t
      rw [hr] at this
      cases this
    | some n =>
      simp only
      rw [if_neg (by omega)]
      by_cases hrest : rest = []
      · rw [if_pos hrest]
        subst hrest
        refine ⟨fun st' h => ?_, by simp, fun _ _ => ⟨_, rfl⟩⟩
        cases h
        exact ⟨S0, by simp [h1], h2, h3, h4⟩
      · rw [if_neg hrest]
        have hrl : 0 < rest.length := List.length_pos_iff.mpr hrest
        have hm : ∃ m, max 1 (min n ((bufSize : Int) - st.acc.length).toNat) = m ∧ 1 ≤ m ∧
            st.acc.length + m ≤ bufSize := ⟨_, rfl, by omega, by omega⟩
        obtain ⟨m, hm, hm1, hm2⟩ := hm
        rw [hm]
        have hsplit : S ++ rest = (S ++ rest.take m) ++ rest.drop m := by simp
        have hlt : ∀ f, rest.length < f + 1 → (rest.drop m).length < f := by
          intro f hf; rw [List.length_drop]; omega
        by_cases hfull : ((st.acc ++ rest.take m).length : Int) = bufSize
        · rw [if_pos hfull]
          obtain ⟨segs, e1, e2⟩ := segment_hash H (st.acc ++ rest.take m) pl hpl
          rw [e1]
          simp only [Res.ok_bind, e2]
          have hi' : Inv H pl bufSize (S ++ rest.take m)
              ⟨st.t + 1, [], st.hashes ++ pieceHashes H (st.acc ++ rest.take m) pl⟩ := by
            refine ⟨S0 ++ (st.acc ++ rest.take m), by simp [h1], ?_, ?_, by simpa using hb⟩
            · rw [List.length_append]
              refine Nat.dvd_add h2 ?_
              have : (st.acc ++ rest.take m).length = bufSize := by omega
              rw [this]; exact hd
            · rw [pieceHashes_append H _ _ _ hpl h2, h3]
          obtain ⟨i1, i2, i3⟩ := ih (rest.drop m) _ _ hi'
          rw [hsplit]
          exact ⟨i1, i2, fun hr' hf => i3 hr' (hlt _ hf)⟩
        · rw [if_neg hfull]
          have hi' : Inv H pl bufSize (S ++ rest.take m) ⟨st.t + 1, st.acc ++ rest.take m, st.hashes⟩ := by
            refine ⟨S0, by simp [h1], h2, h3, ?_⟩
            simp only [List.length_append, List.length_take] at hfull ⊢
            omega
          obtain ⟨i1, i2, i3⟩ := ih (rest.drop m) _ _ hi'
          rw [hsplit]
          exact ⟨i1, i2, fun hr' hf => i3 hr' (hlt _ hf)⟩

/-- the entry recorded for a file -/
def entryFor (wd path : Bytes) (c : Bytes) : EntryBase :=
  (MakeFileEntry path c.length).SetLocalPath (Join wd path)

theorem fileLoop_spec (H : Bytes → Bytes) (reads : Nat → Option Nat) (fs : State) (wd : Bytes) (pl bufSize : Nat)
    (hpl : 0 < pl) (hb : 0 < bufSize) (hd : pl ∣ bufSize) (fuel : Nat) (paths : List Bytes) (fes : List EntryBase)
    (st : St) (S : Bytes) (hi : Inv H pl bufSize S st) :
    (∀ fes' st', fileLoop H reads fs wd pl bufSize fuel paths fes st = .ok (fes', st') →
      ∃ cs : List Bytes, paths.map (fun p => fs (Join wd p)) = cs.map some ∧ fes' = fes ++ List.zipWith (entryFor wd) paths cs ∧
        Inv H pl bufSize (S ++ cs.flatten) st') ∧
    fileLoop H reads fs wd pl bufSize fuel paths fes st ≠ .panic ∧
    (∀ cs : List Bytes, paths.map (fun p => fs (Join wd p)) = cs.map some → (∀ t, (reads t).isSome) →
      (∀ c ∈ cs, c.length < fuel) → ∃ r, fileLoop H reads fs wd pl bufSize fuel paths fes st = .ok r) := by
  induction paths generalizing fes st S with
  | nil =>
    refine ⟨fun fes' st' h => ?_, by simp [fileLoop], fun _ _ _ _ => ⟨_, rfl⟩⟩
    simp only [fileLoop, Res.ok.injEq, Prod.mk.injEq] at h
    obtain ⟨rfl, rfl⟩ := h
    exact ⟨[], rfl, by simp, by simpa using hi⟩
  | cons p paths ih =>
    unfold fileLoop
    cases hf : fs (Join wd p) with
    | none =>
      refine ⟨fun _ _ h => (by cases h), by simp, fun cs hcs => ?_⟩
      cases cs with
      | nil => cases hcs
      | cons c cs => rw [List.map_cons, List.map_cons, hf] at hcs; cases hcs
    | some c =>
      obtain ⟨r1, r2, r3⟩ := readFile_spec H reads pl bufSize hpl hb hd fuel c st S hi
      simp only
      cases hrd : readFile H reads pl bufSize fuel c st with
      | ok st1 =>
        simp only [Res.ok_bind]
        obtain ⟨i1, i2, i3⟩ := ih (fes ++ [entryFor wd p c]) st1 (S ++ c) (r1 st1 hrd)
        refine ⟨fun fes' st' h => ?_, i2, fun cs hcs hr hfu => ?_⟩
        · obtain ⟨cs, e1, e2, e3⟩ := i1 fes' st' h
          refine ⟨c :: cs, by simp [hf, e1], by simp [e2], by simpa using e3⟩
        · cases cs with
          | nil => cases hcs
          | cons c' cs =>
            rw [List.map_cons, List.map_cons, hf] at hcs
            injection hcs with hc hcs
            exact i3 cs hcs hr (fun x hx => hfu x (List.mem_cons_of_mem _ hx))
      | err e =>
        refine ⟨fun _ _ h => (by cases h), (by intro h; cases h), fun cs hcs hr hfu => ?_⟩
        cases cs with
        | nil => cases hcs
        | cons c' cs =>
          rw [List.map_cons, List.map_cons, hf] at hcs
          injection hcs with hc hcs
          injection hc with hc
          subst hc
          obtain ⟨st', h⟩ := r3 hr (hfu c (by simp))
          rw [hrd] at h; cases h
      | panic => exact absurd hrd r2
      | timeout =>
        refine ⟨fun _ _ h => (by cases h), (by intro h; cases h), fun cs hcs hr hfu => ?_⟩
        cases cs with
        | nil => cases hcs
        | cons c' cs =>
          rw [List.map_cons, List.map_cons, hf] at hcs
          injection hcs with hc hcs
          injection hc with hc
          subst hc
          obtain ⟨st', h⟩ := r3 hr (hfu c (by simp))
          rw [hrd] at h; cases h

end Verif.Create
