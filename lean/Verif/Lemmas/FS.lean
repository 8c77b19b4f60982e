import Verif.Model.FS
/-
Helper lemmas about executions of OCAT.
-/
set_option autoImplicit false

namespace Verif.FS

/-- what a file of content `old` must become when prepared for length `n` -/
def prepared (old : Bytes) (n : Nat) : Bytes := old.take n ++ List.replicate (n - old.length) 0

/-- content of a file, nothing if there is no file -/
def old (fs : State) (path : Bytes) : Bytes := (fs path).getD []

theorem prepared_length (c : Bytes) (n : Nat) : (prepared c n).length = n := by
  unfold prepared; simp; omega

theorem prepared_of_length (c : Bytes) (n : Nat) (h : c.length = n) : prepared c n = c := by
  unfold prepared; rw [List.take_of_length_le (by omega), h]; simp

theorem prepared_take (c : Bytes) (n : Nat) (h : n ≤ c.length) : prepared c n = c.take n := by
  unfold prepared; rw [show n - c.length = 0 by omega]; simp

theorem prepared_grow (c : Bytes) (n j : Nat) (h : c.length + j ≤ n) :
    prepared (c ++ List.replicate j 0) n = prepared c n := by
  unfold prepared
  rw [List.take_of_length_le (by simp; omega), List.take_of_length_le (by omega)]
  rw [List.append_assoc, List.replicate_append_replicate]
  congr 2
  simp; omega

theorem prepared_idem (c : Bytes) (n : Nat) : prepared (prepared c n) n = prepared c n :=
  prepared_of_length _ _ (prepared_length c n)

theorem set_self (fs : State) (path c : Bytes) (h : fs path = some c) : fs.set path c = fs := by
  funext p
  unfold State.set
  split
  · rename_i e; rw [e, h]
  · rfl

theorem set_set (fs : State) (path c d : Bytes) : (fs.set path c).set path d = fs.set path d := by
  funext p
  unfold State.set
  split <;> rfl

@[simp] theorem set_get (fs : State) (path c : Bytes) : (fs.set path c) path = some c := by
  unfold State.set; rw [if_pos rfl]

theorem writeAt_end (c d : Bytes) : writeAt c c.length d = c ++ d := by
  unfold writeAt
  split
  · rename_i h; simp [h]
  · simp [List.drop_eq_nil_of_le]

theorem Exec.bind_inv {sp : Bool} {p : Prog} {f : Res Unit → Prog} {fs fs' : State} {o : Outcome}
    (h : Exec sp (p.bind f) fs o fs') :
    (o = .crashed ∧ Exec sp p fs .crashed fs') ∨
    ∃ r mid, Exec sp p fs (.done r) mid ∧ Exec sp (f r) mid o fs' := by
  induction p generalizing fs with
  | ret r => exact .inr ⟨r, fs, .ret _ _, h⟩
  | openRW path k ih =>
    cases h with
    | crash => exact .inl ⟨rfl, .crash _ _⟩
    | open_ok _ _ _ _ _ c hc h =>
      rcases ih _ h with ⟨e, h'⟩ | ⟨r, mid, h1, h2⟩
      · exact .inl ⟨e, .open_ok _ _ _ _ _ c hc h'⟩
      · exact .inr ⟨r, mid, .open_ok _ _ _ _ _ c hc h1, h2⟩
    | open_fail _ _ _ _ _ hc h =>
      rcases ih _ h with ⟨e, h'⟩ | ⟨r, mid, h1, h2⟩
      · exact .inl ⟨e, .open_fail _ _ _ _ _ hc h'⟩
      · exact .inr ⟨r, mid, .open_fail _ _ _ _ _ hc h1, h2⟩
  | mkdirAll path k ih =>
    cases h with
    | crash => exact .inl ⟨rfl, .crash _ _⟩
    | mkdir _ _ _ _ _ b h =>
      rcases ih _ h with ⟨e, h'⟩ | ⟨r, mid, h1, h2⟩
      · exact .inl ⟨e, .mkdir _ _ _ _ _ b h'⟩
      · exact .inr ⟨r, mid, .mkdir _ _ _ _ _ b h1, h2⟩
  | openTrunc path k ih =>
    cases h with
    | crash => exact .inl ⟨rfl, .crash _ _⟩
    | trunc_ok _ _ _ _ _ h =>
      rcases ih _ h with ⟨e, h'⟩ | ⟨r, mid, h1, h2⟩
      · exact .inl ⟨e, .trunc_ok _ _ _ _ _ h'⟩
      · exact .inr ⟨r, mid, .trunc_ok _ _ _ _ _ h1, h2⟩
    | trunc_fail _ _ _ _ _ h =>
      rcases ih _ h with ⟨e, h'⟩ | ⟨r, mid, h1, h2⟩
      · exact .inl ⟨e, .trunc_fail _ _ _ _ _ h'⟩
      · exact .inr ⟨r, mid, .trunc_fail _ _ _ _ _ h1, h2⟩
  | size path k ih =>
    cases h with
    | crash => exact .inl ⟨rfl, .crash _ _⟩
    | size_ok _ _ _ _ _ c hc h =>
      rcases ih _ h with ⟨e, h'⟩ | ⟨r, mid, h1, h2⟩
      · exact .inl ⟨e, .size_ok _ _ _ _ _ c hc h'⟩
      · exact .inr ⟨r, mid, .size_ok _ _ _ _ _ c hc h1, h2⟩
    | size_fail _ _ _ _ _ h =>
      rcases ih _ h with ⟨e, h'⟩ | ⟨r, mid, h1, h2⟩
      · exact .inl ⟨e, .size_fail _ _ _ _ _ h'⟩
      · exact .inr ⟨r, mid, .size_fail _ _ _ _ _ h1, h2⟩
  | truncate path n k ih =>
    cases h with
    | crash => exact .inl ⟨rfl, .crash _ _⟩
    | truncate_ok _ m _ _ _ _ c hc h =>
      rcases ih _ h with ⟨e, h'⟩ | ⟨r, mid, h1, h2⟩
      · exact .inl ⟨e, .truncate_ok _ m _ _ _ _ c hc h'⟩
      · exact .inr ⟨r, mid, .truncate_ok _ m _ _ _ _ c hc h1, h2⟩
    | truncate_fail _ _ _ _ _ _ h =>
      rcases ih _ h with ⟨e, h'⟩ | ⟨r, mid, h1, h2⟩
      · exact .inl ⟨e, .truncate_fail _ _ _ _ _ _ h'⟩
      · exact .inr ⟨r, mid, .truncate_fail _ _ _ _ _ _ h1, h2⟩
  | write path pos d k ih =>
    cases h with
    | crash => exact .inl ⟨rfl, .crash _ _⟩
    | write_ok _ _ _ _ _ _ _ c hc h =>
      rcases ih _ h with ⟨e, h'⟩ | ⟨r, mid, h1, h2⟩
      · exact .inl ⟨e, .write_ok _ _ _ _ _ _ _ c hc h'⟩
      · exact .inr ⟨r, mid, .write_ok _ _ _ _ _ _ _ c hc h1, h2⟩
    | write_fail _ _ _ _ _ _ _ c j hc h =>
      rcases ih _ h with ⟨e, h'⟩ | ⟨r, mid, h1, h2⟩
      · exact .inl ⟨e, .write_fail _ _ _ _ _ _ _ c j hc h'⟩
      · exact .inr ⟨r, mid, .write_fail _ _ _ _ _ _ _ c j hc h1, h2⟩
    | write_crash _ _ _ _ _ c j hc => exact .inl ⟨rfl, .write_crash _ _ _ _ _ c j hc⟩

/-- composition of executions -/
theorem Exec.bind {sp : Bool} {p : Prog} {f : Res Unit → Prog} {fs mid fs' : State} {r : Res Unit} {o : Outcome}
    (h1 : Exec sp p fs (.done r) mid) (h2 : Exec sp (f r) mid o fs') : Exec sp (p.bind f) fs o fs' := by
  generalize ho : Outcome.done r = o1 at h1
  induction h1 with
  | ret r' fs => cases ho; exact h2
  | crash => cases ho
  | open_ok _ _ _ _ _ c hc _ ih => exact .open_ok _ _ _ _ _ c hc (ih h2 ho)
  | open_fail _ _ _ _ _ hc _ ih => exact .open_fail _ _ _ _ _ hc (ih h2 ho)
  | mkdir _ _ _ _ _ b _ ih => exact .mkdir _ _ _ _ _ b (ih h2 ho)
  | trunc_ok _ _ _ _ _ _ ih => exact .trunc_ok _ _ _ _ _ (ih h2 ho)
  | trunc_fail _ _ _ _ _ _ ih => exact .trunc_fail _ _ _ _ _ (ih h2 ho)
  | size_ok _ _ _ _ _ c hc _ ih => exact .size_ok _ _ _ _ _ c hc (ih h2 ho)
  | size_fail _ _ _ _ _ _ ih => exact .size_fail _ _ _ _ _ (ih h2 ho)
  | truncate_ok _ m _ _ _ _ c hc _ ih => exact .truncate_ok _ m _ _ _ _ c hc (ih h2 ho)
  | truncate_fail _ _ _ _ _ _ _ ih => exact .truncate_fail _ _ _ _ _ _ (ih h2 ho)
  | write_ok _ _ _ _ _ _ _ c hc _ ih => exact .write_ok _ _ _ _ _ _ _ c hc (ih h2 ho)
  | write_fail _ _ _ _ _ _ _ c j hc _ ih => exact .write_fail _ _ _ _ _ _ _ c j hc (ih h2 ho)
  | write_crash => cases ho

/-- what can be said about the end of any run that extends a file by zeros -/
def GrowEnd (fs : State) (path c : Bytes) (a : Nat) (o : Outcome) (fs' : State) : Prop :=
  ∃ j, j ≤ a ∧ fs' = fs.set path (c ++ List.replicate j 0) ∧ (o = .done (.ok ()) → j = a) ∧
    o ≠ .done .panic ∧ o ≠ .done .timeout

theorem growEnd_refl {fs : State} {path c : Bytes} {a : Nat} {o : Outcome} (h : fs path = some c)
    (h1 : o ≠ .done (.ok ())) (h2 : o ≠ .done .panic) (h3 : o ≠ .done .timeout) : GrowEnd fs path c a o fs :=
  ⟨0, Nat.zero_le _, by simp [set_self fs path c h], fun e => absurd e h1, h2, h3⟩

theorem growEnd_step {fs : State} {path c : Bytes} {w a : Nat} {o : Outcome} {fs' : State}
    (h : GrowEnd (fs.set path (c ++ List.replicate w 0)) path (c ++ List.replicate w 0) a o fs') :
    GrowEnd fs path c (w + a) o fs' := by
  obtain ⟨j, h1, h2, h3, h4⟩ := h
  refine ⟨w + j, by omega, ?_, fun e => by rw [h3 e], h4⟩
  rw [h2, set_set, List.append_assoc, List.replicate_append_replicate]

theorem growEnd_partial {fs : State} {path c : Bytes} {w j a : Nat} {o : Outcome} (hw : w ≤ a)
    (h1 : o ≠ .done (.ok ())) (h2 : o ≠ .done .panic) (h3 : o ≠ .done .timeout) :
    GrowEnd fs path c a o (fs.set path (writeAt c c.length ((List.replicate w 0).take j))) := by
  refine ⟨min j w, by omega, ?_, fun e => absurd e h1, h2, h3⟩
  rw [writeAt_end, List.take_replicate]

theorem appendLoop_end (sp : Bool) (path : Bytes) (fuel a : Nat) (c : Bytes) (fs fs' : State) (o : Outcome)
    (hc : fs path = some c) (hfuel : a + 1 ≤ fuel)
    (h : Exec sp (appendLoop path fuel c.length a) fs o fs') : GrowEnd fs path c a o fs' := by
  induction fuel generalizing a c fs with
  | zero => omega
  | succ fuel ih =>
    rw [appendLoop] at h
    by_cases h0 : (a : Int) = 0
    · rw [if_pos h0] at h
      have ha : a = 0 := by omega
      subst ha
      cases h with
      | ret => exact ⟨0, Nat.le_refl _, by simp [set_self _ path c hc], fun _ => rfl, by simp, by simp⟩
      | crash => exact growEnd_refl hc (by simp) (by simp) (by simp)
    · rw [if_neg h0] at h
      by_cases hbig : (writeSize : Int) < a
      · rw [if_pos hbig] at h
        have hsplit : a = writeSize + (a - writeSize) := by omega
        have hpos : 0 < writeSize := by decide
        cases h with
        | crash => exact growEnd_refl hc (by simp) (by simp) (by simp)
        | write_ok _ _ _ _ _ _ _ c' hc' h =>
          rw [hc] at hc'; cases hc'
          rw [writeAt_end] at h
          simp only [if_true] at h
          rw [hsplit]
          apply growEnd_step
          refine ih (a - writeSize) (c ++ List.replicate writeSize 0) _ (set_get _ _ _) (by omega) ?_
          rw [List.length_append, List.length_replicate,
            show (((a - writeSize : Nat)) : Int) = (a : Int) - (writeSize : Int) by omega]
          exact h
        | write_fail _ _ _ _ _ _ _ c' j hc' h =>
          rw [hc] at hc'; cases hc'
          simp only [Bool.false_eq_true, if_false] at h
          cases h with
          | ret => exact growEnd_partial (by omega) (by simp) (by simp) (by simp)
          | crash => exact growEnd_partial (by omega) (by simp) (by simp) (by simp)
        | write_crash _ _ _ _ _ c' j hc' =>
          rw [hc] at hc'; cases hc'
          exact growEnd_partial (by omega) (by simp) (by simp) (by simp)
      · rw [if_neg hbig, if_neg (by omega)] at h
        simp only [Int.toNat_natCast] at h
        cases h with
        | crash => exact growEnd_refl hc (by simp) (by simp) (by simp)
        | write_ok _ _ _ _ _ _ _ c' hc' h =>
          rw [hc] at hc'; cases hc'
          rw [writeAt_end] at h
          simp only [if_true] at h
          rw [show a = a + 0 from rfl]
          apply growEnd_step
          refine ih 0 (c ++ List.replicate a 0) _ (set_get _ _ _) (by omega) ?_
          rw [List.length_append, List.length_replicate]
          exact h
        | write_fail _ _ _ _ _ _ _ c' j hc' h =>
          rw [hc] at hc'; cases hc'
          simp only [Bool.false_eq_true, if_false] at h
          cases h with
          | ret => exact growEnd_partial (by omega) (by simp) (by simp) (by simp)
          | crash => exact growEnd_partial (by omega) (by simp) (by simp) (by simp)
        | write_crash _ _ _ _ _ c' j hc' =>
          rw [hc] at hc'; cases hc'
          exact growEnd_partial (by omega) (by simp) (by simp) (by simp)

theorem appendZeros_end (sp : Bool) (path : Bytes) (a : Nat) (c : Bytes) (fs fs' : State) (o : Outcome)
    (hc : fs path = some c) (h : Exec sp (AppendZeros path a) fs o fs') : GrowEnd fs path c a o fs' := by
  unfold AppendZeros at h
  cases h with
  | crash => exact growEnd_refl hc (by simp) (by simp) (by simp)
  | size_ok _ _ _ _ _ c' hc' h =>
    rw [hc] at hc'; cases hc'
    exact appendLoop_end sp path _ a c fs fs' o hc (by simp) h
  | size_fail _ _ _ _ _ h =>
    cases h with
    | ret => exact growEnd_refl hc (by simp) (by simp) (by simp)
    | crash => exact growEnd_refl hc (by simp) (by simp) (by simp)

/-- end of a run that prepares the file for length `n` -/
def PrepEnd (fs : State) (path c : Bytes) (n : Nat) (o : Outcome) (fs' : State) : Prop :=
  ∃ c', fs' = fs.set path c' ∧ prepared c' n = prepared c n ∧ (o = .done (.ok ()) → c' = prepared c n) ∧
    o ≠ .done .panic ∧ o ≠ .done .timeout

theorem prepEnd_refl {fs : State} {path c : Bytes} {n : Nat} {o : Outcome} (h : fs path = some c)
    (h1 : o ≠ .done (.ok ())) (h2 : o ≠ .done .panic) (h3 : o ≠ .done .timeout) : PrepEnd fs path c n o fs :=
  ⟨c, by simp [set_self fs path c h], rfl, fun e => absurd e h1, h2, h3⟩

theorem growEnd_prep {fs fs' : State} {path c : Bytes} {n : Nat} {o : Outcome} (hn : c.length ≤ n)
    (h : GrowEnd fs path c (n - c.length) o fs') : PrepEnd fs path c n o fs' := by
  obtain ⟨j, h1, h2, h3, h4⟩ := h
  refine ⟨_, h2, prepared_grow c n j (by omega), fun e => ?_, h4⟩
  rw [h3 e]
  unfold prepared
  rw [List.take_of_length_le hn]

theorem checkSize_end (sp : Bool) (path : Bytes) (n : Nat) (c : Bytes) (fs fs' : State) (o : Outcome)
    (hc : fs path = some c) (h : Exec sp (checkSize path n) fs o fs') : PrepEnd fs path c n o fs' := by
  unfold checkSize at h
  cases h with
  | crash => exact prepEnd_refl hc (by simp) (by simp) (by simp)
  | size_fail _ _ _ _ _ h =>
    cases h with
    | ret => exact prepEnd_refl hc (by simp) (by simp) (by simp)
    | crash => exact prepEnd_refl hc (by simp) (by simp) (by simp)
  | size_ok _ _ _ _ _ c' hc' h =>
    rw [hc] at hc'; cases hc'
    simp only at h
    split at h
    · rename_i heq
      cases h with
      | ret =>
        exact ⟨c, by simp [set_self _ path c hc], rfl, fun _ => (prepared_of_length c n (by omega)).symm, by simp, by simp⟩
      | crash => exact prepEnd_refl hc (by simp) (by simp) (by simp)
    · rename_i hne
      split at h
      · rename_i hgt
        cases h with
        | crash => exact prepEnd_refl hc (by simp) (by simp) (by simp)
        | truncate_ok _ _ _ _ _ _ c' hc' h =>
          rw [hc] at hc'; cases hc'
          have hp : prepared (c.take n) n = prepared c n := by
            rw [prepared_of_length _ _ (by rw [List.length_take]; omega), prepared_take c n (by omega)]
          cases h with
          | ret => exact ⟨c.take n, rfl, hp, fun _ => (prepared_take c n (by omega)).symm, by simp, by simp⟩
          | crash => exact ⟨c.take n, rfl, hp, by simp, by simp, by simp⟩
        | truncate_fail _ _ _ _ _ _ h =>
          cases h with
          | ret => exact prepEnd_refl hc (by simp) (by simp) (by simp)
          | crash => exact prepEnd_refl hc (by simp) (by simp) (by simp)
      · rename_i hlt
        have : ((n : Int) - (c.length : Int)) = ((n - c.length : Nat) : Int) := by omega
        rw [this] at h
        exact growEnd_prep (by omega) (appendZeros_end sp path _ c fs fs' o hc h)

/-- end of a run that starts without the file -/
def NewEnd (fs : State) (path : Bytes) (n : Nat) (o : Outcome) (fs' : State) : Prop :=
  (fs' = fs ∧ o ≠ .done (.ok ()) ∧ o ≠ .done .panic ∧ o ≠ .done .timeout) ∨ PrepEnd fs path [] n o fs'

theorem create_end (sp : Bool) (path : Bytes) (n : Nat) (fs fs' : State) (o : Outcome)
    (h : Exec sp (CreateZeroFilledFile path n) fs o fs') : NewEnd fs path n o fs' := by
  unfold CreateZeroFilledFile at h
  cases h with
  | crash => exact .inl ⟨rfl, by simp, by simp, by simp⟩
  | mkdir _ _ _ _ _ b h =>
    cases b with
    | false =>
      cases h with
      | ret => exact .inl ⟨rfl, by simp, by simp, by simp⟩
      | crash => exact .inl ⟨rfl, by simp, by simp, by simp⟩
    | true =>
      simp only [if_true] at h
      cases h with
      | crash => exact .inl ⟨rfl, by simp, by simp, by simp⟩
      | trunc_ok _ _ _ _ _ h =>
        simp only [if_true] at h
        obtain ⟨c', h2, h3⟩ := growEnd_prep (c := []) (n := n) (by simp)
          (appendZeros_end sp path n [] _ fs' o (set_get _ _ _) h)
        rw [set_set] at h2
        exact .inr ⟨c', h2, h3⟩
      | trunc_fail _ _ _ _ _ h =>
        cases h with
        | ret => exact .inl ⟨rfl, by simp, by simp, by simp⟩
        | crash => exact .inl ⟨rfl, by simp, by simp, by simp⟩

theorem ocat_end_missing (sp : Bool) (path : Bytes) (n : Nat) (fs fs' : State) (o : Outcome)
    (h : Exec sp ((CreateZeroFilledFile path n).bind fun r =>
      match r with
      | .ok _ => checkSize path n
      | r => .ret r) fs o fs') : NewEnd fs path n o fs' := by
  rcases h.bind_inv with ⟨e, h'⟩ | ⟨r, mid, h1, h2⟩
  · subst e; exact create_end sp path n fs fs' _ h'
  · have hend := create_end sp path n fs mid _ h1
    cases r with
    | ok u =>
      rcases hend with ⟨-, hne, -⟩ | ⟨c', rfl, hp, hok, -⟩
      · exact absurd rfl hne
      · have hc' := hok rfl
        subst hc'
        obtain ⟨c'', e1, e2, e3, e4⟩ := checkSize_end sp path n _ _ fs' o (set_get _ _ _) h2
        rw [set_set] at e1
        rw [prepared_idem] at e2 e3
        exact .inr ⟨c'', e1, e2, e3, e4⟩
    | err e =>
      cases h2 with
      | ret => exact hend
      | crash =>
        rcases hend with ⟨h, -⟩ | ⟨c', h, hp, -⟩
        · exact .inl ⟨h, by simp, by simp, by simp⟩
        · exact .inr ⟨c', h, hp, by simp, by simp, by simp⟩
    | panic =>
      rcases hend with ⟨-, -, h, -⟩ | ⟨c', -, -, -, h, -⟩
      · exact absurd rfl h
      · exact absurd rfl h
    | timeout =>
      rcases hend with ⟨-, -, -, h⟩ | ⟨c', -, -, -, -, h⟩
      · exact absurd rfl h
      · exact absurd rfl h

/-- every end of OCAT, if opening an existing file does not fail -/
theorem ocat_end (path : Bytes) (n : Nat) (fs fs' : State) (o : Outcome) (h : Exec false (OCAT path n) fs o fs') :
    (fs' = fs ∧ o ≠ .done (.ok ()) ∧ o ≠ .done .panic ∧ o ≠ .done .timeout) ∨
    PrepEnd fs path (old fs path) n o fs' := by
  unfold OCAT at h
  cases h with
  | crash => exact .inl ⟨rfl, by simp, by simp, by simp⟩
  | open_ok _ _ _ _ _ c hc h =>
    have : old fs path = c := by unfold old; rw [hc]; rfl
    rw [this]
    exact .inr (checkSize_end false path n c fs fs' o hc h)
  | open_fail _ _ _ _ _ hc h =>
    rcases hc with hc | hc
    · have : old fs path = [] := by unfold old; rw [hc]; rfl
      rw [this]
      exact ocat_end_missing false path n fs fs' o h
    · cases hc

/-! ### a run without failures exists -/

theorem appendLoop_run (sp : Bool) (path : Bytes) (fuel a : Nat) (c : Bytes) (fs : State)
    (hc : fs path = some c) (hfuel : a + 1 ≤ fuel) :
    Exec sp (appendLoop path fuel c.length a) fs (.done (.ok ())) (fs.set path (c ++ List.replicate a 0)) := by
  induction fuel generalizing a c fs with
  | zero => omega
  | succ fuel ih =>
    rw [appendLoop]
    by_cases h0 : (a : Int) = 0
    · rw [if_pos h0]
      have ha : a = 0 := by omega
      subst ha
      simp only [List.replicate_zero, List.append_nil, set_self fs path c hc]
      exact .ret _ _
    · rw [if_neg h0]
      by_cases hbig : (writeSize : Int) < a
      · rw [if_pos hbig]
        have hpos : 0 < writeSize := by decide
        refine .write_ok _ _ _ _ _ _ _ c hc ?_
        simp only [if_true]
        rw [writeAt_end]
        have := ih (a - writeSize) (c ++ List.replicate writeSize 0) (fs.set path (c ++ List.replicate writeSize 0))
          (set_get _ _ _) (by omega)
        rw [set_set, List.append_assoc, List.replicate_append_replicate, List.length_append, List.length_replicate,
          show (((a - writeSize : Nat)) : Int) = (a : Int) - (writeSize : Int) by omega,
          show writeSize + (a - writeSize) = a by omega] at this
        exact this
      · rw [if_neg hbig, if_neg (by omega)]
        simp only [Int.toNat_natCast]
        refine .write_ok _ _ _ _ _ _ _ c hc ?_
        simp only [if_true]
        rw [writeAt_end]
        have := ih 0 (c ++ List.replicate a 0) (fs.set path (c ++ List.replicate a 0)) (set_get _ _ _) (by omega)
        rw [set_set, List.length_append, List.length_replicate, List.replicate_zero, List.append_nil] at this
        exact this

theorem appendZeros_run (sp : Bool) (path : Bytes) (a : Nat) (c : Bytes) (fs : State) (hc : fs path = some c) :
    Exec sp (AppendZeros path a) fs (.done (.ok ())) (fs.set path (c ++ List.replicate a 0)) :=
  .size_ok _ _ _ _ _ c hc (appendLoop_run sp path _ a c fs hc (by simp))

theorem checkSize_run (sp : Bool) (path : Bytes) (n : Nat) (c : Bytes) (fs : State) (hc : fs path = some c) :
    Exec sp (checkSize path n) fs (.done (.ok ())) (fs.set path (prepared c n)) := by
  refine .size_ok _ _ _ _ _ c hc ?_
  simp only
  split
  · rw [prepared_of_length c n (by omega), set_self fs path c hc]
    exact .ret _ _
  · split
    · rw [prepared_take c n (by omega)]
      exact .truncate_ok _ _ _ _ _ _ c hc (.ret _ _)
    · rw [show ((n : Int) - (c.length : Int)) = ((n - c.length : Nat) : Int) by omega]
      unfold prepared
      rw [List.take_of_length_le (by omega)]
      exact appendZeros_run sp path _ c fs hc

theorem ocat_run (sp : Bool) (path : Bytes) (n : Nat) (fs : State) :
    Exec sp (OCAT path n) fs (.done (.ok ())) (fs.set path (prepared (old fs path) n)) := by
  cases hc : fs path with
  | some c =>
    have : old fs path = c := by unfold old; rw [hc]; rfl
    rw [this]
    exact .open_ok _ _ _ _ _ c hc (checkSize_run sp path n c fs hc)
  | none =>
    have : old fs path = [] := by unfold old; rw [hc]; rfl
    rw [this]
    refine .open_fail _ _ _ _ _ (.inl hc) ?_
    simp only [Bool.false_eq_true, if_false]
    have h1 := appendZeros_run sp path n [] (fs.set path []) (set_get _ _ _)
    have h2 := checkSize_run sp path n ([] ++ List.replicate n 0) ((fs.set path []).set path ([] ++ List.replicate n 0)) (set_get _ _ _)
    have e1 : prepared ([] ++ List.replicate n 0) n = prepared [] n := prepared_grow [] n n (by simp)
    rw [e1, set_set, set_set] at h2
    rw [set_set] at h1
    exact Exec.bind (r := .ok ()) (.mkdir _ _ _ _ _ true (.trunc_ok _ _ _ _ _ h1)) h2

end Verif.FS
