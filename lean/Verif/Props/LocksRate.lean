import Verif.Props.RateLimit
/-
C92 for the mutex of the rate limiter: here the holder waits, in a loop, for the budget.
-/
set_option autoImplicit false

namespace Verif.RateLimit

open Verif.RateSpec

/-- C92 refuted with limit 0: a state can be reached in which a `Write` has the lock and another one waits for it, and in every continuation
both stay where they are: the lock is never free again. -/
theorem C92_refuted_zero (n m : Nat) : ∃ ls0 s, Run (init 0) ls0 s ∧ s.pcs 0 = .spin n ∧ s.pcs 1 = .wantLock m ∧
    ∀ ls s', Run s ls s' → s'.pcs 0 = .spin n ∧ s'.pcs 1 = .wantLock m ∧ s'.lock = some 0 := by
  have hrun := Run.step (.call (init 0) 0 n rfl) <| .step (.limited _ 0 n rfl (by simp [init, State.go, NoLimit])) <| .step (.lock _ 0 n rfl rfl) <|
    .step (.call _ 1 m rfl) <| .step (.limited _ 1 m rfl (by simp [init, State.go, NoLimit])) <| .nil _
  refine ⟨_, _, hrun, rfl, rfl, ?_⟩
  intro ls s' h
  have hd : ∀ u, isDirect (((((((init 0).go 0 (.start n)).go 0 (.wantLock n)).go 0 (.spin n)).go 1 (.start m)).go 1 (.wantLock m)).pcs u) = false := by
    intro u
    simp only [go_pcs, init]
    split
    · rfl
    · split <;> rfl
  have he := excl_run hrun (excl_init 0)
  obtain ⟨h1, h2, -, -, h5⟩ := none_admitted he 0 n rfl rfl (Int.le_refl 0) hd ls s' h
  have h6 := (stuck he 0 n rfl (Int.le_refl 0) (Int.le_refl 0) ls s' h (by rw [h5]; show (0 : Int) + ((0 : Nat) : Int) < 2 ^ 63; decide)).2.2.2.2 1 (.inr ⟨m, rfl⟩)
  exact ⟨h1, h6, (excl_run h he 0).mp (by rw [h1]; rfl)⟩

/-- if no write waits for budget with a limit that is not positive, a waiting `Write` can get the lock, and at most the write that has it is admitted before -/
theorem gets_lock (r : Int) (ls0 : List Label) (s : State) (h0 : Run (init r) ls0 s) (u n : Nat) (hu : s.pcs u = .wantLock n)
    (hr : ∀ t m, s.pcs t = .spin m → 0 < s.rate) : ∃ ls s', Run s ls s' ∧ s'.pcs u = .spin n ∧ ls.length ≤ 5 ∧ (∀ v, v ≠ u → s.lock ≠ some v → s'.pcs v = s.pcs v) ∧
      (admitted ls = [] ∨ ∃ t k, admitted ls = [k] ∧ (s.pcs t = .spin k ∨ s.pcs t = .admit k)) := by
  have he := excl_run h0 (excl_init r)
  cases hl : s.lock with
  | none =>
    refine ⟨_, _, .step (.lock s u n hu hl) (.nil _), by rw [go_pcs, if_pos rfl], by simp, ?_, ?_⟩
    · intro v hv _
      rw [go_pcs, if_neg hv]
    · exact .inl rfl
  | some t =>
    have ht := (he t).mpr hl
    have hne : u ≠ t := by rintro rfl; rw [hu] at ht; cases ht
    have hrest : ∀ v, v ≠ u → some t ≠ some v → v ≠ t := by rintro v - h rfl; exact h rfl
    cases hp : s.pcs t with
    | spin m =>
      refine ⟨_, _, .step (.tick s) <| .step (.check _ t m hp (hr t m hp)) <| .step (.add _ t m (by rw [go_pcs, if_pos rfl])) <|
        .step (.unlock _ t m (by rw [go_pcs, if_pos rfl])) <| .step (.lock _ u n (by simp [go_pcs, hne, hu]) rfl) (.nil _), ?_, by simp, ?_, ?_⟩
      · rw [go_pcs, if_pos rfl]
      · intro v hv hv'; simp [go_pcs, hv, hrest v hv hv']
      · exact .inr ⟨t, m, rfl, .inl hp⟩
    | admit m =>
      refine ⟨_, _, .step (.add _ t m hp) <|
        .step (.unlock _ t m (by rw [go_pcs, if_pos rfl])) <| .step (.lock _ u n (by simp [go_pcs, hne, hu]) rfl) (.nil _), ?_, by simp, ?_, ?_⟩
      · rw [go_pcs, if_pos rfl]
      · intro v hv hv'; simp [go_pcs, hv, hrest v hv hv']
      · exact .inr ⟨t, m, rfl, .inr hp⟩
    | unlock m =>
      refine ⟨_, _, .step (.unlock _ t m hp) <| .step (.lock _ u n (by simp [go_pcs, hne, hu]) rfl) (.nil _), ?_, by simp, ?_, ?_⟩
      · rw [go_pcs, if_pos rfl]
      · intro v hv hv'; simp [go_pcs, hv, hrest v hv hv']
      · exact .inl rfl
    | setHold w =>
      refine ⟨_, _, .step (.setStore s t w hp) <| .step (.setUnlock _ t (by rw [go_pcs, if_pos rfl])) <|
        .step (.lock _ u n (by simp [go_pcs, hne, hu]) rfl) (.nil _), ?_, by simp, ?_, ?_⟩
      · rw [go_pcs, if_pos rfl]
      · intro v hv hv'; simp [go_pcs, hv, hrest v hv hv']
      · exact .inl rfl
    | setUnlock =>
      refine ⟨_, _, .step (.setUnlock _ t hp) <|
        .step (.lock _ u n (by simp [go_pcs, hne, hu]) rfl) (.nil _), ?_, by simp, ?_, ?_⟩
      · rw [go_pcs, if_pos rfl]
      · intro v hv hv'; simp [go_pcs, hv, hrest v hv hv']
      · exact .inl rfl
    | _ => rw [hp] at ht; cases ht

/-- **C92**, the mutex of the rate limiter (partial: a positive limit).  Whenever a `Write` waits for the lock, it is enough for it to get it that a tick
comes and the goroutine with the lock goes on; no other goroutine has to do anything. -/
theorem C92_write_partial (r : Int) (ls0 : List Label) (s : State) (h0 : Run (init r) ls0 s) (u n : Nat) (hu : s.pcs u = .wantLock n)
    (hr : 0 < s.rate) : ∃ ls s', Run s ls s' ∧ s'.pcs u = .spin n ∧ ls.length ≤ 5 ∧ ∀ v, v ≠ u → s.lock ≠ some v → s'.pcs v = s.pcs v := by
  obtain ⟨ls, s', h1, h2, h3, h4, -⟩ := gets_lock r ls0 s h0 u n hu (fun _ _ _ => hr)
  exact ⟨ls, s', h1, h2, h3, h4⟩

/-- **C92**, the mutex of the rate limiter, exactly (partial: less than 2^63 bytes are written): a `Write` that waits for the lock can get it unless another one
has it and waits for budget while the limit is 0 or has been lifted. -/
theorem C92_write_iff_partial (r : Int) (ls0 : List Label) (s : State) (h0 : Run (init r) ls0 s) (u n : Nat) (hu : s.pcs u = .wantLock n)
    (hsmall : (admitted ls0).sum < 2 ^ 63) (hnext : ∀ t k, s.pcs t = .spin k ∨ s.pcs t = .admit k → (admitted ls0).sum + k < 2 ^ 63) :
    (∃ ls s', Run s ls s' ∧ s'.lock = some u ∧ (admitted ls0).sum + (admitted ls).sum < 2 ^ 63) ↔
      ∀ t k, s.lock = some t → s.pcs t = .spin k → 0 < s.rate := by
  have he := excl_run h0 (excl_init r)
  constructor
  · rintro ⟨ls, s', h1, h2, h3⟩ t k ht hp
    apply Classical.byContradiction
    intro hr
    obtain ⟨g1, g2⟩ := used_le r ls0 s h0 hsmall
    have h4 := (stuck he t k hp (by omega) g1 ls s' h1 (by omega)).1
    have h5 := (excl_run h1 he t).mp (by rw [h4]; rfl)
    rw [h5] at h2
    cases h2
    rw [hu] at hp
    cases hp
  · intro hr
    obtain ⟨ls, s', h1, h2, -, -, h5⟩ := gets_lock r ls0 s h0 u n hu
      (fun t k hp => hr t k ((he t).mp (by rw [hp]; rfl)) hp)
    refine ⟨ls, s', h1, (excl_run h1 he u).mp (by rw [h2]; rfl), ?_⟩
    rcases h5 with h5 | ⟨t, k, h5, ht⟩
    · rw [h5]; simpa using hsmall
    · rw [h5]; simpa using hnext t k ht

/-- with limit 0 the second of two writes never gets the lock, with limit 3 it can -/
example : (∃ ls0 s, Run (init 0) ls0 s ∧ s.lock = some 0 ∧ s.pcs 1 = .wantLock 5 ∧
      ¬ ∃ ls s', Run s ls s' ∧ s'.lock = some 1 ∧ (admitted ls0).sum + (admitted ls).sum < 2 ^ 63) ∧
    ∃ ls0 s, Run (init 3) ls0 s ∧ s.lock = some 0 ∧ s.pcs 1 = .wantLock 5 ∧
      ∃ ls s', Run s ls s' ∧ s'.lock = some 1 ∧ (admitted ls0).sum + (admitted ls).sum < 2 ^ 63 := by
  have run : ∀ r : Int, r ≠ NoLimit → ∃ ls0 s, Run (init r) ls0 s ∧ s.rate = r ∧ s.lock = some 0 ∧ s.pcs 0 = .spin 4 ∧ s.pcs 1 = .wantLock 5 ∧ admitted ls0 = [] ∧
      ∀ t n, s.pcs t = .spin n ∨ s.pcs t = .admit n → n = 4 := by
    intro r hr
    refine ⟨_, _, Run.step (.call (init r) 0 4 rfl) <| .step (.limited _ 0 4 rfl hr) <| .step (.lock _ 0 4 rfl rfl) <|
      .step (.call _ 1 5 rfl) <| .step (.limited _ 1 5 rfl hr) <| .nil _, rfl, rfl, rfl, rfl, rfl, ?_⟩
    intro t n h
    simp only [State.go, init] at h
    split at h
    · rcases h with h | h <;> cases h
    · split at h
      · rcases h with h | h <;> cases h; rfl
      · rcases h with h | h <;> cases h
  constructor
  · obtain ⟨ls0, s, h0, h1, h2, h3, h4, h5, h6⟩ := run 0 (by decide)
    refine ⟨ls0, s, h0, h2, h4, ?_⟩
    rw [C92_write_iff_partial 0 ls0 s h0 1 5 h4 (by rw [h5]; decide) (by intro t n h; rw [h6 t n h, h5]; decide)]
    intro h
    have := h 0 4 h2 h3
    omega
  · obtain ⟨ls0, s, h0, h1, h2, h3, h4, h5, h6⟩ := run 3 (by decide)
    refine ⟨ls0, s, h0, h2, h4, ?_⟩
    rw [C92_write_iff_partial 3 ls0 s h0 1 5 h4 (by rw [h5]; decide) (by intro t n h; rw [h6 t n h, h5]; decide)]
    intro t n _ _
    omega

/-- a waiting `Write` with a positive limit -/
example : ∃ ls0 s, Run (init 3) ls0 s ∧ s.pcs 1 = .wantLock 5 ∧ 0 < s.rate ∧ s.lock = some 0 :=
  ⟨_, _, Run.step (.call (init 3) 0 4 rfl) <| .step (.limited _ 0 4 rfl (by simp [init, State.go, NoLimit])) <| .step (.lock _ 0 4 rfl rfl) <|
    .step (.call _ 1 5 rfl) <| .step (.limited _ 1 5 rfl (by simp [init, State.go, NoLimit])) <| .nil _, rfl, by decide, rfl⟩

end Verif.RateLimit
