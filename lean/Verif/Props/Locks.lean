import Verif.Props.Races
/-
C92: nobody waits for a mutex in vain.
-/
set_option autoImplicit false

namespace Verif.Races
open Verif.Lts

/-- a step of goroutine `i` alone, for which it need not wait: an access to memory, or unlocking -/
inductive Own (i : Nat) (σ : State) : State → Prop
  | step (t : Thread) (a : Act) (pc : Nat) (h : σ.Can i t a pc) (hl : a.local = true) : Own i σ (σ.go i t pc)
  | put (t : Thread) (b : Box) (pc : Nat) (h : σ.Can i t (.put b) pc) (hf : σ.full b (b.ix t.conn) = false) :
      Own i σ ((σ.go i t pc).setBox b (b.ix t.conn) true)

/-- the two mutexes of a running client -/
def Box.isMutex (b : Box) : Prop := b = .wlock ∨ b = .mutex

theorem Own.toStep {i : Nat} {σ σ' : State} (h : Own i σ σ') : Step σ σ' := by
  cases h with
  | step t a pc h hl => exact .step i t a pc h hl
  | put t b pc h hf => exact .put i t b pc h hf

/-! ### where a goroutine holds a mutex -/

/-- positions of `rateWrite a` inside of the lock -/
def inWrite (a n : Nat) : Bool := a + 3 ≤ n && n ≤ a + 6

/-- a goroutine of this kind at this position holds the mutex -/
def holds (b : Box) (k : Kind) (n : Nat) : Bool :=
  match b, k with
  | .wlock, .recv => inWrite 16 n
  | .wlock, .request => inWrite 11 n
  | .mutex, .recv => 29 ≤ n && n ≤ 31
  | .mutex, .request => 6 ≤ n && n ≤ 9
  | _, _ => false

/-- locking begins it, unlocking ends it, and nothing else does -/
def okHold (b : Box) (k : Kind) : Edge → Bool
  | (n, .take b', m) => if b' = b then !holds b k n && holds b k m else !holds b k n && !holds b k m
  | (n, .put b', m) => if b' = b then holds b k n && !holds b k m else !holds b k n && !holds b k m
  | (n, .send _, m) => !holds b k n && !holds b k m
  | (n, .recv _, m) => !holds b k n && !holds b k m
  | (n, .spawn _, m) => !holds b k n && !holds b k m
  | (n, .open _, m) => !holds b k n && !holds b k m
  | (n, _, m) => holds b k n == holds b k m

theorem okHold_all {b : Box} (hb : b.isMutex) (k : Kind) {e : Edge} (h : e ∈ code k) : okHold b k e = true := by
  have : (code k).all (okHold b k) = true := by
    rcases hb with rfl | rfl <;> cases k <;> decide +kernel
  exact List.all_eq_true.1 this e h

theorem holds_start {b : Box} (hb : b.isMutex) (k : Kind) : holds b k 0 = false := by
  rcases hb with rfl | rfl <;> cases k <;> rfl

/-- the goroutine holds the mutex -/
def State.Holds (σ : State) (b : Box) (i : Nat) : Prop := ∃ t, σ.threads[i]? = some t ∧ holds b t.kind t.pc = true

/-- a locked mutex is held by one goroutine, a free one by none -/
def HoldInv (b : Box) (σ : State) : Prop :=
  (σ.full b 0 = true → ∀ i, ¬ σ.Holds b i) ∧ (σ.full b 0 = false → ∃ i, σ.Holds b i ∧ ∀ j, σ.Holds b j → j = i)

theorem go_get (σ : State) (i : Nat) (t : Thread) (pc j : Nat) (h : σ.threads[i]? = some t) :
    (σ.go i t pc).threads[j]? = if j = i then some { t with pc := pc } else σ.threads[j]? := by
  have hi := (List.getElem?_eq_some_iff.mp h).1
  simp only [State.go, List.getElem?_set]
  by_cases hj : i = j
  · subst hj; simp [hi]
  · simp [hj, Ne.symm hj]

theorem holds_go {σ : State} {b : Box} {i : Nat} {t : Thread} {pc : Nat} (h : σ.threads[i]? = some t) (j : Nat) :
    (σ.go i t pc).Holds b j ↔ if j = i then holds b t.kind pc = true else σ.Holds b j := by
  unfold State.Holds
  rw [go_get σ i t pc j h]
  split
  · simp
  · rfl

theorem holds_at {σ : State} {b : Box} {i : Nat} {t : Thread} (h : σ.threads[i]? = some t) : σ.Holds b i ↔ holds b t.kind t.pc = true := by
  unfold State.Holds
  rw [h]
  simp

/-- if who holds the mutex stays the same -/
theorem HoldInv.same {b : Box} {σ σ' : State} (h : HoldInv b σ) (hf : σ'.full b 0 = σ.full b 0) (hh : ∀ j, σ'.Holds b j ↔ σ.Holds b j) : HoldInv b σ' := by
  refine ⟨fun h1 i => ?_, fun h1 => ?_⟩
  · rw [hh]; exact h.1 (by rw [← hf]; exact h1) i
  · obtain ⟨i, h2, h3⟩ := h.2 (by rw [← hf]; exact h1)
    exact ⟨i, (hh i).mpr h2, fun j hj => h3 j ((hh j).mp hj)⟩

theorem same_go {b : Box} {σ : State} {i : Nat} {t : Thread} {pc : Nat} (h : σ.threads[i]? = some t) (hs : holds b t.kind pc = holds b t.kind t.pc) (j : Nat) :
    (σ.go i t pc).Holds b j ↔ σ.Holds b j := by
  rw [holds_go h]
  split
  · rename_i hj
    subst hj
    rw [holds_at h, hs]
  · rfl

theorem holds_append {σ : State} {b : Box} (u : Thread) (n : Nat) (hu : holds b u.kind u.pc = false) (j : Nat) :
    State.Holds { σ with threads := σ.threads ++ [u], conns := n } b j ↔ σ.Holds b j := by
  unfold State.Holds
  rw [List.getElem?_append]
  split
  · rfl
  · rename_i hj
    constructor
    · rintro ⟨t, ht, hh⟩
      rw [List.getElem?_singleton] at ht
      split at ht
      · cases ht; rw [hu] at hh; cases hh
      · cases ht
    · rintro ⟨t, ht, -⟩
      exact absurd (List.getElem?_eq_some_iff.mp ht).1 hj

theorem ix_mutex {b : Box} (hb : b.isMutex) (c : Nat) : b.ix c = 0 := by rcases hb with rfl | rfl <;> rfl

theorem setBox_full (σ : State) (b b' : Box) (n : Nat) (v : Bool) : (σ.setBox b' n v).full b 0 = if b = b' ∧ 0 = n then v else σ.full b 0 := rfl

theorem holdInv_step {b : Box} (hb : b.isMutex) {σ σ' : State} (h : HoldInv b σ) (hs : Step σ σ') : HoldInv b σ' := by
  cases hs with
  | step i t a pc hc hl =>
    refine h.same rfl (same_go hc.1 ?_)
    have := okHold_all hb _ hc.2
    cases a <;> simp_all [okHold, Act.local]
  | take i t b' pc hc hf =>
    have ho := okHold_all hb _ hc.2
    by_cases he : b' = b
    · subst he
      rw [ix_mutex hb] at hf ⊢
      simp only [okHold, if_true, Bool.and_eq_true, Bool.not_eq_true'] at ho
      refine ⟨fun h1 => ?_, fun _ => ⟨i, ?_, ?_⟩⟩
      · rw [setBox_full] at h1; simp at h1
      · exact (holds_go hc.1 i).mpr (by simp [ho.2])
      · intro j hj
        have := (holds_go hc.1 j).mp hj
        by_cases hji : j = i
        · exact hji
        · rw [if_neg hji] at this
          exact absurd this (h.1 hf j)
    · simp only [okHold, if_neg he, Bool.and_eq_true, Bool.not_eq_true'] at ho
      refine h.same ?_ (same_go hc.1 (by rw [ho.1, ho.2]))
      rw [setBox_full, if_neg (fun hh => he hh.1.symm)]
      rfl
  | put i t b' pc hc hf =>
    have ho := okHold_all hb _ hc.2
    by_cases he : b' = b
    · subst he
      rw [ix_mutex hb] at hf ⊢
      simp only [okHold, if_true, Bool.and_eq_true, Bool.not_eq_true'] at ho
      obtain ⟨k, hk, hu⟩ := h.2 hf
      have hik : i = k := hu i ((holds_at hc.1).mpr ho.1)
      refine ⟨fun _ j hj => ?_, fun h1 => ?_⟩
      · have := (holds_go hc.1 j).mp hj
        by_cases hji : j = i
        · rw [if_pos hji, ho.2] at this; cases this
        · rw [if_neg hji] at this
          exact hji ((hu j this).trans hik.symm)
      · rw [setBox_full] at h1; simp at h1
    · simp only [okHold, if_neg he, Bool.and_eq_true, Bool.not_eq_true'] at ho
      refine h.same ?_ (same_go hc.1 (by rw [ho.1, ho.2]))
      rw [setBox_full, if_neg (fun hh => he hh.1.symm)]
      rfl
  | meet i j hij t u c pc pc' hc hc' hcn =>
    have ho := okHold_all hb _ hc.2
    have ho' := okHold_all hb _ hc'.2
    simp only [okHold, Bool.and_eq_true, Bool.not_eq_true'] at ho ho'
    have hj : (σ.go i t pc).threads[j]? = some u := by rw [go_get _ _ _ _ _ hc.1, if_neg (Ne.symm hij)]; exact hc'.1
    exact h.same rfl fun k => (same_go hj (by rw [ho'.1, ho'.2]) k).trans (same_go hc.1 (by rw [ho.1, ho.2]) k)
  | spawn i t k pc hc =>
    have ho := okHold_all hb _ hc.2
    simp only [okHold, Bool.and_eq_true, Bool.not_eq_true'] at ho
    exact h.same rfl fun j => (holds_append (σ := σ.go i t pc) _ σ.conns (holds_start hb k) j).trans (same_go hc.1 (by rw [ho.1, ho.2]) j)
  | «open» i t k pc hc =>
    have ho := okHold_all hb _ hc.2
    simp only [okHold, Bool.and_eq_true, Bool.not_eq_true'] at ho
    exact h.same rfl fun j => (holds_append (σ := σ.go i t pc) _ (σ.conns + 1) (holds_start hb k) j).trans (same_go hc.1 (by rw [ho.1, ho.2]) j)

theorem holdInv_reach {b : Box} (hb : b.isMutex) {σ : State} (hr : Reach Step init σ) : HoldInv b σ := by
  refine Reach.keep (Q := HoldInv b) (fun _ _ h hs => holdInv_step hb h hs) hr ⟨fun _ i => ?_, fun h => ?_⟩
  · rintro ⟨t, ht, hh⟩
    cases i with
    | zero => cases ht; rw [holds_start hb] at hh; cases hh
    | succ i => cases ht
  · rcases hb with rfl | rfl <;> simp [init] at h

/-! ### the way to the end of it -/

/-- there is a way of at most `f` steps to unlocking -/
def wayOut (b : Box) (k : Kind) : Nat → Nat → Bool
  | 0, _ => false
  | f + 1, n => (code k).any fun e => e.1 = n && (e.2.1 = .put b || (e.2.1.local && wayOut b k f e.2.2))

theorem wayOut_all {b : Box} (hb : b.isMutex) (k : Kind) (n : Nat) (h : holds b k n = true) : wayOut b k 5 n = true := by
  have key : ∀ n < 32, holds b k n = true → wayOut b k 5 n = true := by
    rcases hb with rfl | rfl <;> cases k <;> decide +kernel
  refine key n ?_ h
  rcases hb with rfl | rfl <;> cases k <;> simp [holds, inWrite] at h <;> omega

theorem wayOut_reach {b : Box} (hb : b.isMutex) (f : Nat) (σ : State) (i : Nat) (t : Thread) (h : σ.threads[i]? = some t) (hf : σ.full b 0 = false)
    (hw : wayOut b t.kind f t.pc = true) : ∃ σ', Reach (Own i) σ σ' ∧ σ'.full b 0 = true := by
  induction f generalizing σ t with
  | zero => cases hw
  | succ f ih =>
    rw [wayOut, List.any_eq_true] at hw
    obtain ⟨⟨n, a, m⟩, he, hw⟩ := hw
    simp only [Bool.and_eq_true, decide_eq_true_eq, Bool.or_eq_true] at hw
    obtain ⟨rfl, hw⟩ := hw
    rcases hw with rfl | ⟨hl, hw⟩
    · refine ⟨_, Reach.single (.put t b m ⟨h, he⟩ (by rw [ix_mutex hb]; exact hf)), ?_⟩
      rw [ix_mutex hb, setBox_full]
      simp
    · obtain ⟨σ', h1, h2⟩ := ih (σ.go i t m) { t with pc := m } (by rw [go_get _ _ _ _ _ h]; simp) hf hw
      exact ⟨σ', .head (.step t a m ⟨h, he⟩ hl) h1, h2⟩

/-- what can be done by someone who holds a mutex -/
theorem holder_acts {b : Box} (hb : b.isMutex) {σ : State} {i : Nat} {t : Thread} (hh : holds b t.kind t.pc = true) (a : Act) (pc : Nat)
    (hc : σ.Can i t a pc) : a.local = true ∨ a = .put b := by
  have ho := okHold_all hb _ hc.2
  cases a <;> simp [okHold, hh, Act.local] at ho ⊢
  exact ho.1

/-- **C92**: whenever a mutex is locked, there is a goroutine that goes on without waiting for anything (neither for another mutex nor for a channel) until it unlocks
it, and it can do so by steps of its own alone. -/
theorem C92_released (σ : State) (hr : Reach Step init σ) (b : Box) (hb : b.isMutex) (hf : σ.full b 0 = false) :
    ∃ i t, σ.threads[i]? = some t ∧ (∃ σ', Own i σ σ') ∧ (∀ a pc, σ.Can i t a pc → a.local = true ∨ a = .put b) ∧
      ∃ σ', Reach (Own i) σ σ' ∧ σ'.full b 0 = true := by
  obtain ⟨i, ⟨t, ht, hh⟩, -⟩ := (holdInv_reach hb hr).2 hf
  obtain ⟨σ', h1, h2⟩ := wayOut_reach hb 5 σ i t ht hf (wayOut_all hb _ _ hh)
  refine ⟨i, t, ht, ?_, fun a pc hc => holder_acts hb hh a pc hc, σ', h1, h2⟩
  have : ∀ {τ : State}, Reach (Own i) σ τ → τ = σ ∨ ∃ σ', Own i σ σ' := by
    intro τ h
    induction h with
    | refl => exact .inl rfl
    | tail s' s'' _ hs ih =>
      rcases ih with rfl | h
      · exact .inr ⟨_, hs⟩
      · exact .inr h
  rcases this h1 with rfl | h
  · rw [hf] at h2; cases h2
  · exact h

/-- **C92**: only one goroutine at a time can be about to unlock a mutex: it is locked by one at a time. -/
theorem C92_one_holder (σ : State) (hr : Reach Step init σ) (b : Box) (hb : b.isMutex) (i j : Nat) (t u : Thread) (pc pc' : Nat)
    (h : σ.Can i t (.put b) pc) (h' : σ.Can j u (.put b) pc') : i = j := by
  have hi : σ.Holds b i := (holds_at h.1).mpr (by have := okHold_all hb _ h.2; simp [okHold] at this; exact this.1)
  have hj : σ.Holds b j := (holds_at h'.1).mpr (by have := okHold_all hb _ h'.2; simp [okHold] at this; exact this.1)
  cases hf : σ.full b 0 with
  | true => exact absurd hi ((holdInv_reach hb hr).1 hf i)
  | false =>
    obtain ⟨k, -, hk⟩ := (holdInv_reach hb hr).2 hf
    rw [hk i hi, hk j hj]

/-- **C92**: a goroutine that waits for a mutex waits for another goroutine, and that one is not waiting; in particular the client never stands still while somebody waits
for a mutex. -/
theorem C92_waiting (σ : State) (hr : Reach Step init σ) (b : Box) (hb : b.isMutex) (i : Nat) (t : Thread) (pc : Nat) (h : σ.Can i t (.take b) pc)
    (hf : σ.full b 0 = false) :
    ∃ j u, j ≠ i ∧ σ.threads[j]? = some u ∧ (∃ σ', Own j σ σ') ∧ (∀ a pc, σ.Can j u a pc → a.local = true ∨ a = .put b) ∧
      ∃ σ', Reach (Own j) σ σ' ∧ σ'.full b 0 = true ∧ σ'.Can i t (.take b) pc := by
  obtain ⟨j, u, hu, h1, h2, σ', h3, h4⟩ := C92_released σ hr b hb hf
  have hne : j ≠ i := by
    rintro rfl
    have : u = t := by have := h.1; rw [hu] at this; exact Option.some.inj this
    subst this
    rcases h2 _ _ h with h | h <;> simp [Act.local] at h
  refine ⟨j, u, hne, hu, h1, h2, σ', h3, h4, ?_, h.2⟩
  -- nobody else moves
  clear h4
  induction h3 with
  | refl => exact h.1
  | tail s' s'' _ hs ih =>
    cases hs with
    | step v a q hv hl => rw [go_get _ _ _ _ _ hv.1, if_neg (Ne.symm hne)]; exact ih
    | put v b' q hv hf' =>
      show (s'.go j v q).threads[i]? = some t
      rw [go_get _ _ _ _ _ hv.1, if_neg (Ne.symm hne)]; exact ih

/-- the recvLoop of connection 2 waits for the tracker's mutex while that of connection 1 registers pieces -/
example : ∃ σ j u, Reach Step init σ ∧ σ.Can 8 ⟨.recv, 2, 28⟩ (.take .mutex) 29 ∧ σ.full .mutex 0 = false ∧ j ≠ 8 ∧ σ.threads[j]? = some u ∧
    ∃ σ', Reach (Own j) σ σ' ∧ σ'.full .mutex 0 = true := by
  have h : ((run init registering).map fun σ => (σ.threads[8]?, σ.full .mutex 0)) = some (some ⟨.recv, 2, 28⟩, false) := by decide +kernel
  rw [Option.map_eq_some_iff] at h
  obtain ⟨σ, h3, h4⟩ := h
  simp only [Prod.mk.injEq] at h4
  have hc : σ.Can 8 ⟨.recv, 2, 28⟩ (.take .mutex) 29 := ⟨h4.1, by decide +kernel⟩
  obtain ⟨j, u, h5, h6, -, -, σ', h7, h8, -⟩ := C92_waiting σ (run_reach h3) .mutex (.inr rfl) 8 _ 29 hc h4.2
  exact ⟨σ, j, u, run_reach h3, hc, h4.2, h5, h6, σ', h7, h8⟩

end Verif.Races
