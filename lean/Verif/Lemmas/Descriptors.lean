import Verif.Model.Descriptors
import Verif.Lemmas.FS
/-
Lemmas for C123.
-/
set_option autoImplicit false

namespace Verif.Descriptors
open Verif.FS

/-- every run with limits is a run without -/
theorem project {R : Rules} {p : Prog} {s s' : Sys} {o : Outcome} (h : ExecL R p s o s') : Exec true p s.fs o s'.fs := by
  induction h with
  | ret r s => exact .ret _ _
  | crash p s _ => exact .crash _ _
  | gc p s s' o _ _ ih => exact ih
  | open_ok path k s s' o c _ hc _ ih => exact .open_ok _ _ _ _ _ c hc ih
  | open_fail path k s s' o _ _ ih => exact .open_fail _ _ _ _ _ (.inr rfl) ih
  | mkdir path k s s' o b _ _ ih => exact .mkdir _ _ _ _ _ b ih
  | trunc_ok path k s s' o _ _ ih => exact .trunc_ok _ _ _ _ _ ih
  | trunc_fail path k s s' o _ _ ih => exact .trunc_fail _ _ _ _ _ ih
  | size_ok path k s s' o c hc _ ih => exact .size_ok _ _ _ _ _ c hc ih
  | size_fail path k s s' o _ _ ih => exact .size_fail _ _ _ _ _ ih
  | truncate_ok path n k s s' o c hc _ ih => exact .truncate_ok _ _ _ _ _ _ c hc ih
  | truncate_fail path n k s s' o _ _ ih => exact .truncate_fail _ _ _ _ _ _ ih
  | write_ok path pos data k s s' o c hc _ ih => exact .write_ok _ _ _ _ _ _ _ c hc ih
  | write_fail path pos data k s s' o c j _ hc _ ih => exact .write_fail _ _ _ _ _ _ _ c j hc ih
  | write_crash path pos data k s c j _ hc => exact .write_crash _ _ _ _ _ c j hc

/-- programs that open nothing -/
def NoOpen : Prog → Prop
  | .ret _ => True
  | .openRW _ _ => False
  | .mkdirAll _ k => ∀ b, NoOpen (k b)
  | .openTrunc _ _ => False
  | .size _ k => ∀ b, NoOpen (k b)
  | .truncate _ _ k => ∀ b, NoOpen (k b)
  | .write _ _ _ k => ∀ b, NoOpen (k b)

theorem noOpen_loop (path : Bytes) (fuel pos : Nat) (left : Int) : NoOpen (appendLoop path fuel pos left) := by
  induction fuel generalizing pos left with
  | zero => trivial
  | succ fuel ih =>
    rw [appendLoop]
    split
    · trivial
    split
    · intro b
      cases b
      · trivial
      · exact ih _ _
    split
    · trivial
    · intro b
      cases b
      · trivial
      · exact ih _ _

theorem noOpen_append (path : Bytes) (n : Int) : NoOpen (AppendZeros path n) := by
  intro b
  cases b
  · trivial
  · exact noOpen_loop _ _ _ _

theorem noOpen_check (path : Bytes) (n : Int) : NoOpen (checkSize path n) := by
  intro b
  cases b with
  | none => trivial
  | some m =>
    simp only
    split
    · trivial
    split
    · intro b; trivial
    · exact noOpen_append _ _

/-- such programs leave the descriptors alone, if there is no garbage -/
theorem noOpen_used {R : Rules} {p : Prog} {s s' : Sys} {o : Outcome} (h : ExecL R p s o s') (hn : NoOpen p) (hg : s.garbage = 0) :
    s'.used = s.used ∧ s'.garbage = 0 := by
  induction h with
  | ret r s => exact ⟨rfl, hg⟩
  | crash p s _ => exact ⟨rfl, hg⟩
  | gc p s s' o hp _ ih => omega
  | open_ok path k s s' o c _ hc _ ih => exact hn.elim
  | open_fail path k s s' o _ _ ih => exact hn.elim
  | mkdir path k s s' o b _ _ ih => exact ih (hn _) hg
  | trunc_ok path k s s' o _ _ ih => exact hn.elim
  | trunc_fail path k s s' o _ _ ih => exact hn.elim
  | size_ok path k s s' o c hc _ ih => exact ih (hn _) hg
  | size_fail path k s s' o _ _ ih => exact ih (hn _) hg
  | truncate_ok path n k s s' o c hc _ ih => exact ih (hn _) hg
  | truncate_fail path n k s s' o _ _ ih => exact ih (hn _) hg
  | write_ok path pos data k s s' o c hc _ ih => exact ih (hn _) hg
  | write_fail path pos data k s s' o c j _ hc _ ih => exact ih (hn _) hg
  | write_crash path pos data k s c j _ hc => exact ⟨rfl, hg⟩

/-! ### what has to happen if nothing fails -/

theorem loop_must {R : Rules} (hf : R.faulty = false) (path : Bytes) (fuel a : Nat) (c : Bytes) (s s' : Sys) (o : Outcome) (hg : s.garbage = 0)
    (hc : s.fs path = some c) (hfuel : a + 1 ≤ fuel) (h : ExecL R (appendLoop path fuel c.length a) s o s') : o = .done (.ok ()) := by
  induction fuel generalizing a c s with
  | zero => omega
  | succ fuel ih =>
    rw [appendLoop] at h
    have hpos : 0 < writeSize := by decide
    by_cases h0 : (a : Int) = 0
    · rw [if_pos h0] at h
      cases h with
      | ret => rfl
      | crash _ _ h => rw [hf] at h; cases h
      | gc _ _ _ _ h => omega
    · rw [if_neg h0] at h
      by_cases hbig : (writeSize : Int) < a
      · rw [if_pos hbig] at h
        cases h with
        | crash _ _ h => rw [hf] at h; cases h
        | gc _ _ _ _ h => omega
        | write_fail _ _ _ _ _ _ _ _ _ h => rw [hf] at h; cases h
        | write_crash _ _ _ _ _ _ _ h => rw [hf] at h; cases h
        | write_ok _ _ _ _ _ _ _ c' hc' h =>
          rw [hc] at hc'; cases hc'
          simp only [if_true] at h
          rw [writeAt_end, show (a : Int) - (writeSize : Int) = ((a - writeSize : Nat) : Int) by omega,
            show c.length + writeSize = (c ++ List.replicate writeSize 0).length by rw [List.length_append, List.length_replicate]] at h
          exact ih _ _ (s.withFs (s.fs.set path (c ++ List.replicate writeSize 0))) hg (set_get _ _ _) (by omega) h
      · rw [if_neg hbig, if_neg (by omega)] at h
        simp only [Int.toNat_natCast] at h
        cases h with
        | crash _ _ h => rw [hf] at h; cases h
        | gc _ _ _ _ h => omega
        | write_fail _ _ _ _ _ _ _ _ _ h => rw [hf] at h; cases h
        | write_crash _ _ _ _ _ _ _ h => rw [hf] at h; cases h
        | write_ok _ _ _ _ _ _ _ c' hc' h =>
          rw [hc] at hc'; cases hc'
          simp only [if_true] at h
          rw [writeAt_end, show c.length + a = (c ++ List.replicate a 0).length by rw [List.length_append, List.length_replicate]] at h
          exact ih 0 _ (s.withFs (s.fs.set path (c ++ List.replicate a 0))) hg (set_get _ _ _) (by omega) h

theorem append_must {R : Rules} (hf : R.faulty = false) (path : Bytes) (a : Nat) (c : Bytes) (s s' : Sys) (o : Outcome) (hg : s.garbage = 0)
    (hc : s.fs path = some c) (h : ExecL R (AppendZeros path a) s o s') : o = .done (.ok ()) := by
  unfold AppendZeros at h
  cases h with
  | crash _ _ h => rw [hf] at h; cases h
  | gc _ _ _ _ h => omega
  | size_fail _ _ _ _ _ h => rw [hf] at h; cases h
  | size_ok _ _ _ _ _ c' hc' h =>
    rw [hc] at hc'; cases hc'
    exact loop_must hf path _ a c s s' o hg hc (by simp) h

theorem check_must {R : Rules} (hf : R.faulty = false) (path : Bytes) (n : Nat) (c : Bytes) (s s' : Sys) (o : Outcome) (hg : s.garbage = 0)
    (hc : s.fs path = some c) (h : ExecL R (checkSize path n) s o s') : o = .done (.ok ()) := by
  unfold checkSize at h
  cases h with
  | crash _ _ h => rw [hf] at h; cases h
  | gc _ _ _ _ h => omega
  | size_fail _ _ _ _ _ h => rw [hf] at h; cases h
  | size_ok _ _ _ _ _ c' hc' h =>
    rw [hc] at hc'; cases hc'
    simp only at h
    split at h
    · cases h with
      | ret => rfl
      | crash _ _ h => rw [hf] at h; cases h
      | gc _ _ _ _ h => omega
    split at h
    · cases h with
      | crash _ _ h => rw [hf] at h; cases h
      | gc _ _ _ _ h => omega
      | truncate_fail _ _ _ _ _ _ h => rw [hf] at h; cases h
      | truncate_ok _ _ _ _ _ _ c' hc' h =>
        cases h with
        | ret => rfl
        | crash _ _ h => rw [hf] at h; cases h
        | gc _ _ _ _ h => have : s.garbage = 0 := hg; simp only [Sys.withFs] at h; omega
    · rename_i hlt
      rw [show ((n : Int) - (c.length : Int)) = ((n - c.length : Nat) : Int) by omega] at h
      exact append_must hf path _ c s s' o hg hc h

/-! ### runs without failures -/

theorem loop_run (R : Rules) (path : Bytes) (fuel a : Nat) (c : Bytes) (s : Sys) (hc : s.fs path = some c) (hfuel : a + 1 ≤ fuel) :
    ExecL R (appendLoop path fuel c.length a) s (.done (.ok ())) (s.withFs (s.fs.set path (c ++ List.replicate a 0))) := by
  induction fuel generalizing a c s with
  | zero => omega
  | succ fuel ih =>
    rw [appendLoop]
    have hpos : 0 < writeSize := by decide
    by_cases h0 : (a : Int) = 0
    · rw [if_pos h0]
      have ha : a = 0 := by omega
      subst ha
      simp only [List.replicate_zero, List.append_nil, set_self s.fs path c hc]
      exact .ret _ _
    · rw [if_neg h0]
      by_cases hbig : (writeSize : Int) < a
      · rw [if_pos hbig]
        refine .write_ok _ _ _ _ _ _ _ c hc ?_
        simp only [if_true]
        rw [writeAt_end]
        have := ih (a - writeSize) (c ++ List.replicate writeSize 0) (s.withFs (s.fs.set path (c ++ List.replicate writeSize 0))) (set_get _ _ _) (by omega)
        simp only [Sys.withFs] at this
        rw [set_set, List.append_assoc, List.replicate_append_replicate, List.length_append, List.length_replicate,
          show (((a - writeSize : Nat)) : Int) = (a : Int) - (writeSize : Int) by omega, show writeSize + (a - writeSize) = a by omega] at this
        exact this
      · rw [if_neg hbig, if_neg (by omega)]
        simp only [Int.toNat_natCast]
        refine .write_ok _ _ _ _ _ _ _ c hc ?_
        simp only [if_true]
        rw [writeAt_end]
        have := ih 0 (c ++ List.replicate a 0) (s.withFs (s.fs.set path (c ++ List.replicate a 0))) (set_get _ _ _) (by omega)
        simp only [Sys.withFs] at this
        rw [set_set, List.length_append, List.length_replicate, List.replicate_zero, List.append_nil] at this
        exact this

theorem append_run (R : Rules) (path : Bytes) (a : Nat) (c : Bytes) (s : Sys) (hc : s.fs path = some c) :
    ExecL R (AppendZeros path a) s (.done (.ok ())) (s.withFs (s.fs.set path (c ++ List.replicate a 0))) :=
  .size_ok _ _ _ _ _ c hc (loop_run R path _ a c s hc (by simp))

theorem check_run (R : Rules) (path : Bytes) (n : Nat) (c : Bytes) (s : Sys) (hc : s.fs path = some c) :
    ExecL R (checkSize path n) s (.done (.ok ())) (s.withFs (s.fs.set path (prepared c n))) := by
  refine .size_ok _ _ _ _ _ c hc ?_
  simp only
  split
  · rw [prepared_of_length c n (by omega), set_self s.fs path c hc]
    exact .ret _ _
  · split
    · rw [prepared_take c n (by omega)]
      exact .truncate_ok _ _ _ _ _ _ c hc (.ret _ _)
    · rename_i hlt
      rw [show ((n : Int) - (c.length : Int)) = ((n - c.length : Nat) : Int) by omega]
      have := append_run R path (n - c.length) c s hc
      unfold prepared
      rw [List.take_of_length_le (by omega)]
      exact this

theorem bind_run {R : Rules} {p : Prog} {f : Res Unit → Prog} {s m s' : Sys} {r : Res Unit} {o : Outcome} (h1 : ExecL R p s (.done r) m) (h2 : ExecL R (f r) m o s') :
    ExecL R (p.bind f) s o s' := by
  generalize hd : Outcome.done r = d at h1
  induction h1 with
  | ret r s => cases hd; exact h2
  | crash p s _ => cases hd
  | gc p s s' o hg _ ih => exact .gc _ _ _ _ hg (ih h2 hd)
  | open_ok path k s s' o c hm hc _ ih => exact .open_ok _ _ _ _ _ c hm hc (ih h2 hd)
  | open_fail path k s s' o hm _ ih => exact .open_fail _ _ _ _ _ hm (ih h2 hd)
  | mkdir path k s s' o b hm _ ih => exact .mkdir _ _ _ _ _ b hm (ih h2 hd)
  | trunc_ok path k s s' o hm _ ih => exact .trunc_ok _ _ _ _ _ hm (ih h2 hd)
  | trunc_fail path k s s' o hm _ ih => exact .trunc_fail _ _ _ _ _ hm (ih h2 hd)
  | size_ok path k s s' o c hc _ ih => exact .size_ok _ _ _ _ _ c hc (ih h2 hd)
  | size_fail path k s s' o hm _ ih => exact .size_fail _ _ _ _ _ hm (ih h2 hd)
  | truncate_ok path n k s s' o c hc _ ih => exact .truncate_ok _ _ _ _ _ _ c hc (ih h2 hd)
  | truncate_fail path n k s s' o hm _ ih => exact .truncate_fail _ _ _ _ _ _ hm (ih h2 hd)
  | write_ok path pos data k s s' o c hc _ ih => exact .write_ok _ _ _ _ _ _ _ c hc (ih h2 hd)
  | write_fail path pos data k s s' o c j hm hc _ ih => exact .write_fail _ _ _ _ _ _ _ c j hm hc (ih h2 hd)
  | write_crash path pos data k s c j _ hc => cases hd

/-- the file is created anew: any contents are lost -/
theorem create_run (R : Rules) (path : Bytes) (n : Nat) (s : Sys) (hm : R.may s path) :
    ExecL R ((CreateZeroFilledFile path n).bind fun r => match r with | .ok _ => checkSize path n | r => .ret r) s (.done (.ok ()))
      (s.opened.withFs (s.fs.set path (List.replicate n 0))) := by
  have h1 : ExecL R (CreateZeroFilledFile path n) s (.done (.ok ())) (s.opened.withFs (s.fs.set path (List.replicate n 0))) := by
    refine .mkdir _ _ _ _ _ true (.inl rfl) (.trunc_ok _ _ _ _ _ hm ?_)
    have := append_run R path n [] (s.opened.withFs (s.fs.set path [])) (set_get _ _ _)
    simp only [Sys.withFs, set_set, List.nil_append] at this
    exact this
  refine bind_run h1 ?_
  have := check_run R path n (List.replicate n 0) (s.opened.withFs (s.fs.set path (List.replicate n 0))) (set_get _ _ _)
  simp only [Sys.withFs] at this
  rw [set_set, prepared_of_length _ _ (by simp)] at this
  exact this

/-- a file that may be opened is prepared -/
theorem ocat_run_may (R : Rules) (path : Bytes) (n : Nat) (s : Sys) (hm : R.may s path) :
    ExecL R (OCAT path n) s (.done (.ok ())) (s.opened.withFs (s.fs.set path (prepared (old s.fs path) n))) := by
  unfold OCAT
  cases hc : s.fs path with
  | some c =>
    have : old s.fs path = c := by unfold old; rw [hc]; rfl
    rw [this]
    exact .open_ok _ _ _ _ _ c hm hc (check_run R path n c s.opened hc)
  | none =>
    have : old s.fs path = [] := by unfold old; rw [hc]; rfl
    rw [this]
    refine .open_fail _ _ _ _ _ (.inl hc) ?_
    have := create_run R path n s hm
    rw [show prepared [] n = List.replicate n 0 by simp [prepared]]
    exact this

/-- a file that may not be opened is left alone -/
theorem ocat_run_not (R : Rules) (path : Bytes) (n : Nat) (s : Sys) (hm : ¬ R.may s path) : ExecL R (OCAT path n) s (.done (.err .os)) s := by
  unfold OCAT
  refine .open_fail _ _ _ _ _ (.inr hm) ?_
  refine bind_run (r := .err .os) ?_ (.ret _ _)
  exact .mkdir _ _ _ _ _ true (.inl rfl) (.trunc_fail _ _ _ _ _ (.inl hm) (.ret _ _))

/-! ### one call of `OCAT` -/

theorem noOpen_bind {p : Prog} {f : Res Unit → Prog} (hp : NoOpen p) (hf : ∀ r, NoOpen (f r)) : NoOpen (p.bind f) := by
  induction p with
  | ret r => exact hf r
  | openRW path k ih => exact hp.elim
  | mkdirAll path k ih => exact fun b => ih b (hp b)
  | openTrunc path k ih => exact hp.elim
  | size path k ih => exact fun b => ih b (hp b)
  | truncate path n k ih => exact fun b => ih b (hp b)
  | write path pos d k ih => exact fun b => ih b (hp b)

theorem bind_inv {R : Rules} {p : Prog} {f : Res Unit → Prog} {s s' : Sys} {o : Outcome} (hp : NoOpen p) (hg : s.garbage = 0)
    (h : ExecL R (p.bind f) s o s') : (R.faulty = true ∧ o = .crashed) ∨ ∃ r mid, ExecL R p s (.done r) mid ∧ ExecL R (f r) mid o s' := by
  induction p generalizing s with
  | ret r => exact .inr ⟨r, s, .ret _ _, h⟩
  | openRW path k ih => exact hp.elim
  | openTrunc path k ih => exact hp.elim
  | mkdirAll path k ih =>
    cases h with
    | crash _ _ h => exact .inl ⟨h, rfl⟩
    | gc _ _ _ _ h => omega
    | mkdir _ _ _ _ _ b hb h =>
      rcases ih b (hp b) hg h with h' | ⟨r, mid, h1, h2⟩
      · exact .inl h'
      · exact .inr ⟨r, mid, .mkdir _ _ _ _ _ b hb h1, h2⟩
  | size path k ih =>
    cases h with
    | crash _ _ h => exact .inl ⟨h, rfl⟩
    | gc _ _ _ _ h => omega
    | size_ok _ _ _ _ _ c hc h =>
      rcases ih _ (hp _) hg h with h' | ⟨r, mid, h1, h2⟩
      · exact .inl h'
      · exact .inr ⟨r, mid, .size_ok _ _ _ _ _ c hc h1, h2⟩
    | size_fail _ _ _ _ _ hb h =>
      rcases ih _ (hp _) hg h with h' | ⟨r, mid, h1, h2⟩
      · exact .inl h'
      · exact .inr ⟨r, mid, .size_fail _ _ _ _ _ hb h1, h2⟩
  | truncate path n k ih =>
    cases h with
    | crash _ _ h => exact .inl ⟨h, rfl⟩
    | gc _ _ _ _ h => omega
    | truncate_ok _ m _ _ _ _ c hc h =>
      rcases ih _ (hp _) (by exact hg) h with h' | ⟨r, mid, h1, h2⟩
      · exact .inl h'
      · exact .inr ⟨r, mid, .truncate_ok _ m _ _ _ _ c hc h1, h2⟩
    | truncate_fail _ _ _ _ _ _ hb h =>
      rcases ih _ (hp _) hg h with h' | ⟨r, mid, h1, h2⟩
      · exact .inl h'
      · exact .inr ⟨r, mid, .truncate_fail _ _ _ _ _ _ hb h1, h2⟩
  | write path pos d k ih =>
    cases h with
    | crash _ _ h => exact .inl ⟨h, rfl⟩
    | gc _ _ _ _ h => omega
    | write_ok _ _ _ _ _ _ _ c hc h =>
      rcases ih _ (hp _) (by exact hg) h with h' | ⟨r, mid, h1, h2⟩
      · exact .inl h'
      · exact .inr ⟨r, mid, .write_ok _ _ _ _ _ _ _ c hc h1, h2⟩
    | write_fail _ _ _ _ _ _ _ c j hb hc h =>
      rcases ih _ (hp _) (by exact hg) h with h' | ⟨r, mid, h1, h2⟩
      · exact .inl h'
      · exact .inr ⟨r, mid, .write_fail _ _ _ _ _ _ _ c j hb hc h1, h2⟩
    | write_crash _ _ _ _ _ c j hb hc => exact .inl ⟨hb, rfl⟩

/-- how a file is left that could be opened -/
def Tried (R : Rules) (path : Bytes) (n : Nat) (s : Sys) (o : Outcome) (s' : Sys) : Prop :=
  ((s'.fs = s.fs ∧ o ≠ .done (.ok ())) ∨ PrepEnd s.fs path (old s.fs path) n o s'.fs) ∧
    (o = .done (.ok ()) → s'.used = s.used + 1) ∧ (R.faulty = false → o = .done (.ok ()))

/-- every end of `OCAT`, if there is no garbage -/
theorem ocat_cases {R : Rules} {path : Bytes} {n : Nat} {s s' : Sys} {o : Outcome} (hg : s.garbage = 0) (h : ExecL R (OCAT path n) s o s') :
    s'.garbage = 0 ∧ ((R.may s path ∧ Tried R path n s o s') ∨
      (¬ R.may s path ∧ s'.fs = s.fs ∧ s'.used = s.used ∧ ((∃ e, o = .done (.err e)) ∨ R.faulty = true ∧ o = .crashed))) := by
  have hcrash : R.faulty = true → o = .crashed → s'.fs = s.fs → s'.used = s.used → s'.garbage = 0 →
      s'.garbage = 0 ∧ ((R.may s path ∧ Tried R path n s o s') ∨
      (¬ R.may s path ∧ s'.fs = s.fs ∧ s'.used = s.used ∧ ((∃ e, o = .done (.err e)) ∨ R.faulty = true ∧ o = .crashed))) := by
    intro h1 h2 h3 h4 h5
    refine ⟨h5, ?_⟩
    by_cases hm : R.may s path
    · refine .inl ⟨hm, .inl ⟨h3, by rw [h2]; simp⟩, fun e => ?_, fun e => ?_⟩
      · rw [h2] at e; cases e
      · rw [h1] at e; cases e
    · exact .inr ⟨hm, h3, h4, .inr ⟨h1, h2⟩⟩
  have herr : ∀ e, R.faulty = true ∨ ¬ R.may s path → o = .done (.err e) → s'.fs = s.fs → s'.used = s.used → s'.garbage = 0 →
      s'.garbage = 0 ∧ ((R.may s path ∧ Tried R path n s o s') ∨
      (¬ R.may s path ∧ s'.fs = s.fs ∧ s'.used = s.used ∧ ((∃ e, o = .done (.err e)) ∨ R.faulty = true ∧ o = .crashed))) := by
    intro e h1 h2 h3 h4 h5
    refine ⟨h5, ?_⟩
    by_cases hm : R.may s path
    · refine .inl ⟨hm, .inl ⟨h3, by rw [h2]; simp⟩, fun e => ?_, fun e => ?_⟩
      · rw [h2] at e; cases e
      · rcases h1 with h1 | h1
        · rw [h1] at e; cases e
        · exact absurd hm h1
    · exact .inr ⟨hm, h3, h4, .inl ⟨e, h2⟩⟩
  unfold OCAT at h
  cases h with
  | crash _ _ h => exact hcrash h rfl rfl rfl hg
  | gc _ _ _ _ h => omega
  | open_ok _ _ _ _ _ c hm hc h =>
    obtain ⟨hu, hg'⟩ := noOpen_used (s := s.opened) h (noOpen_check _ _) hg
    have hold : old s.fs path = c := by unfold old; rw [hc]; rfl
    refine ⟨hg', .inl ⟨hm, .inr ?_, fun _ => hu, fun hf => check_must hf path n c s.opened s' o hg hc h⟩⟩
    rw [hold]
    exact checkSize_end true path n c s.fs s'.fs o hc (project (s := s.opened) h)
  | open_fail _ _ _ _ _ hc h =>
    have hend := ocat_end_missing true path n s.fs s'.fs o (project h)
    simp only [Bool.false_eq_true, if_false, CreateZeroFilledFile, Prog.bind] at h
    cases h with
    | crash _ _ h => exact hcrash h rfl rfl rfl hg
    | gc _ _ _ _ h => omega
    | mkdir _ _ _ _ _ b hb h =>
      cases b with
      | false =>
        simp only [Bool.false_eq_true, if_false, Prog.bind] at h
        have hb : R.faulty = true := by simpa using hb
        cases h with
        | ret => exact herr _ (.inl hb) rfl rfl rfl hg
        | crash _ _ h => exact hcrash h rfl rfl rfl hg
        | gc _ _ _ _ h => omega
      | true =>
        simp only [if_true, Prog.bind] at h
        cases h with
        | crash _ _ h => exact hcrash h rfl rfl rfl hg
        | gc _ _ _ _ h => omega
        | trunc_fail _ _ _ _ _ hb h =>
          simp only [Bool.false_eq_true, if_false, Prog.bind] at h
          cases h with
          | ret => exact herr _ hb.symm rfl rfl rfl hg
          | crash _ _ h => exact hcrash h rfl rfl rfl hg
          | gc _ _ _ _ h => omega
        | trunc_ok _ _ _ _ _ hm h =>
          simp only [if_true] at h
          have hnone : s.fs path = none := hc.resolve_right fun h => h hm
          have hold : old s.fs path = [] := by unfold old; rw [hnone]; rfl
          have hno : NoOpen (AppendZeros path n) := noOpen_append _ _
          obtain ⟨hu, hg'⟩ := noOpen_used (s := s.opened.withFs (s.fs.set path [])) h (noOpen_bind hno fun r => by
            cases r with
            | ok u => exact noOpen_check _ _
            | err e => trivial
            | panic => trivial
            | timeout => trivial) hg
          refine ⟨hg', .inl ⟨hm, ?_, fun _ => hu, fun hf => ?_⟩⟩
          · rw [hold]
            rcases hend with ⟨h1, h2, -⟩ | h1
            · exact .inl ⟨h1, h2⟩
            · exact .inr h1
          · rcases bind_inv hno (s := s.opened.withFs (s.fs.set path [])) hg h with ⟨h1, -⟩ | ⟨r, mid, h1, h2⟩
            · rw [hf] at h1; cases h1
            · have hr := append_must hf path n [] (s.opened.withFs (s.fs.set path [])) mid _ hg (set_get _ _ _) h1
              cases hr
              obtain ⟨-, hgm⟩ := noOpen_used (s := s.opened.withFs (s.fs.set path [])) h1 hno hg
              obtain ⟨c', e, -, hok, -⟩ := growEnd_prep (c := []) (n := n) (by simp)
                (appendZeros_end true path n [] _ mid.fs _ (set_get _ _ _) (project h1))
              have hm' : mid.fs path = some c' := by rw [e]; exact set_get _ _ _
              exact check_must hf path n c' mid s' o hgm hm' h2

/-- a crash in the first of two programs -/
theorem bind_crash {sp : Bool} {p : Prog} {f : Res Unit → Prog} {fs fs' : State} (h1 : Exec sp p fs .crashed fs') : Exec sp (p.bind f) fs .crashed fs' := by
  generalize ho : Outcome.crashed = o1 at h1
  induction h1 with
  | ret r' fs => cases ho
  | crash => exact .crash _ _
  | open_ok _ _ _ _ _ c hc _ ih => exact .open_ok _ _ _ _ _ c hc (ih ho)
  | open_fail _ _ _ _ _ hc _ ih => exact .open_fail _ _ _ _ _ hc (ih ho)
  | mkdir _ _ _ _ _ b _ ih => exact .mkdir _ _ _ _ _ b (ih ho)
  | trunc_ok _ _ _ _ _ _ ih => exact .trunc_ok _ _ _ _ _ (ih ho)
  | trunc_fail _ _ _ _ _ _ ih => exact .trunc_fail _ _ _ _ _ (ih ho)
  | size_ok _ _ _ _ _ c hc _ ih => exact .size_ok _ _ _ _ _ c hc (ih ho)
  | size_fail _ _ _ _ _ _ ih => exact .size_fail _ _ _ _ _ (ih ho)
  | truncate_ok _ m _ _ _ _ c hc _ ih => exact .truncate_ok _ m _ _ _ _ c hc (ih ho)
  | truncate_fail _ _ _ _ _ _ _ ih => exact .truncate_fail _ _ _ _ _ _ (ih ho)
  | write_ok _ _ _ _ _ _ _ c hc _ ih => exact .write_ok _ _ _ _ _ _ _ c hc (ih ho)
  | write_fail _ _ _ _ _ _ _ c j hc _ ih => exact .write_fail _ _ _ _ _ _ _ c j hc (ih ho)
  | write_crash _ _ _ _ _ c j hc => exact .write_crash _ _ _ _ _ c j hc

end Verif.Descriptors
