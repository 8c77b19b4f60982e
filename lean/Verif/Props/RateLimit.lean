import Verif.Spec.Rate
/-
Properties C53 and C54: the rate limit for writing (/repo/src/io/ratelimit.go).
-/
set_option autoImplicit false

namespace Verif.RateLimit
open Verif.RateSpec

/-! ### schedules -/

theorem admitted_append (a b : List Label) : admitted (a ++ b) = admitted a ++ admitted b := by
  induction a with
  | nil => rfl
  | cons l a ih => cases l <;> simp [admitted, ih]

theorem sinceTick_snoc (ls : List Label) (l : Label) : sinceTick (ls ++ [l]) = if l = .tick then [] else sinceTick ls ++ [l] := by
  induction ls with
  | nil => cases l <;> simp [sinceTick]
  | cons x ls ih =>
    rw [List.cons_append, sinceTick, ih]
    by_cases hl : l = .tick
    · simp only [hl, if_true]; simp
    · simp only [hl, if_false]
      rw [sinceTick]
      by_cases hm : Label.tick ∈ ls
      · rw [if_pos (by simp [hm]), if_pos hm]
      · rw [if_neg (by simp [hm, Ne.symm hl]), if_neg hm]
        split <;> rfl

theorem Run.trans {s s' s'' : State} {a b : List Label} (h : Run s a s') (h2 : Run s' b s'') : Run s (a ++ b) s'' := by
  induction h2 with
  | nil => rw [List.append_nil]; exact h
  | snoc s'' s3 ls l hr hs ih => rw [← List.append_assoc]; exact .snoc _ _ _ _ _ ih hs

theorem Run.step {s s' s'' : State} {l : Label} {b : List Label} (h : Step s l s') (h2 : Run s' b s'') : Run s (l :: b) s'' :=
  Run.trans (.snoc _ _ _ [] _ (.nil _) h) h2

/-! ### mutual exclusion -/

/-- the places inside the critical sections -/
def holds : Pc → Bool
  | .spin _ | .admit _ | .unlock _ | .setHold _ | .setUnlock => true
  | _ => false

/-- exactly the owner of the lock is in a critical section -/
def Excl (s : State) : Prop := ∀ t, holds (s.pcs t) = true ↔ s.lock = some t

theorem go_pcs (s : State) (t : Nat) (pc : Pc) (u : Nat) : (s.go t pc).pcs u = if u = t then pc else s.pcs u := rfl

/-- a step of a goroutine that keeps its side of the lock -/
theorem excl_keep {s : State} (h : Excl s) (t : Nat) (pc : Pc) (hk : holds pc = holds (s.pcs t)) (s' : State) (hl : s'.lock = s.lock) (hp : s'.pcs = s.pcs) :
    Excl (s'.go t pc) := by
  intro u
  rw [go_pcs]
  show _ ↔ s'.lock = some u
  rw [hl, ← h u]
  by_cases hu : u = t
  · rw [if_pos hu, hu, hk]
  · rw [if_neg hu, hp]

theorem excl_take {s : State} (h : Excl s) (hn : s.lock = none) (t : Nat) (pc : Pc) (hk : holds pc = true) : Excl ({ s with lock := some t }.go t pc) := by
  intro u
  rw [go_pcs]
  show _ ↔ some t = some u
  by_cases hu : u = t
  · rw [if_pos hu, hk, hu]; simp
  · rw [if_neg hu]
    have := h u
    rw [hn] at this
    simp only [this, reduceCtorEq, Option.some.injEq, false_iff]
    exact fun e => hu e.symm

theorem excl_release {s : State} (h : Excl s) (t : Nat) (ht : holds (s.pcs t) = true) (pc : Pc) (hk : holds pc = false) : Excl ({ s with lock := none }.go t pc) := by
  intro u
  rw [go_pcs]
  show _ ↔ none = some u
  by_cases hu : u = t
  · rw [if_pos hu, hk]; simp
  · rw [if_neg hu]
    have h1 := (h t).mp ht
    have h2 := h u
    rw [h1] at h2
    simp only [h2, Option.some.injEq, reduceCtorEq, iff_false]
    exact fun e => hu e.symm

theorem excl_step {s s' : State} {l : Label} (h : Step s l s') (hi : Excl s) : Excl s' := by
  cases h with
  | call t n hp => exact excl_keep hi t _ (by rw [hp]; rfl) s rfl rfl
  | unlimited t n hp hr => exact excl_keep hi t _ (by rw [hp]; rfl) s rfl rfl
  | limited t n hp hr => exact excl_keep hi t _ (by rw [hp]; rfl) s rfl rfl
  | direct t n hp => exact excl_keep hi t _ (by rw [hp]; rfl) s rfl rfl
  | directUsed t n hp => exact excl_keep hi t _ (by rw [hp]; rfl) _ rfl rfl
  | directTotal t n hp => exact excl_keep hi t _ (by rw [hp]; rfl) _ rfl rfl
  | lock t n hp hl => exact excl_take hi hl t _ rfl
  | check t n hp hu => exact excl_keep hi t _ (by rw [hp]; rfl) s rfl rfl
  | add t n hp => exact excl_keep hi t _ (by rw [hp]; rfl) _ rfl rfl
  | unlock t n hp => exact excl_release hi t (by rw [hp]; rfl) _ rfl
  | addTotal t n hp => exact excl_keep hi t _ (by rw [hp]; rfl) _ rfl rfl
  | out t n hp => exact excl_keep hi t _ (by rw [hp]; rfl) s rfl rfl
  | setCall t l hp => exact excl_keep hi t _ (by rw [hp]; rfl) s rfl rfl
  | setLock t l hp hl => exact excl_take hi hl t _ rfl
  | setStore t l hp => exact excl_keep hi t _ (by rw [hp]; rfl) _ rfl rfl
  | setUnlock t hp => exact excl_release hi t (by rw [hp]; rfl) _ rfl
  | tick => exact hi

theorem excl_init (r : Int) : Excl (init r) := by intro t; simp [init, holds]

theorem excl_run {s s' : State} {ls : List Label} (h : Run s ls s') (hi : Excl s) : Excl s' := by
  induction h with
  | nil => exact hi
  | snoc s' s'' ls l hr hs ih => exact excl_step hs ih

theorem excl_unique {s : State} (h : Excl s) {t u : Nat} (ht : holds (s.pcs t) = true) (hu : holds (s.pcs u) = true) : t = u := by
  have h1 := (h t).mp ht
  have h2 := (h u).mp hu
  rw [h1] at h2
  exact Option.some.inj h2

/-! ### C53 -/

/-- the places of a write without limit -/
def isDirect : Pc → Bool
  | .direct _ | .directUsed _ | .directTotal _ => true
  | _ => false

/-- with a constant limit: what is counted is what was admitted since the last tick, and somebody about to be admitted has found budget -/
structure Limited (r : Nat) (s : State) (ls : List Label) : Prop where
  excl : Excl s
  rate : s.rate = r
  nodirect : ∀ t, isDirect (s.pcs t) = false
  used : s.used = ((admitted (sinceTick ls)).sum : Nat)
  ready : ∀ t n, s.pcs t = .admit n → s.used < r
  before : ∀ a n, admitted (sinceTick ls) = a ++ [n] → a.sum < r

theorem admitted_quiet (ls : List Label) (l : Label) (hl : ∀ t n, l ≠ .admit t n) (ht : l ≠ .tick) :
    admitted (sinceTick (ls ++ [l])) = admitted (sinceTick ls) := by
  rw [sinceTick_snoc, if_neg ht, admitted_append]
  cases l with
  | admit t n => exact absurd rfl (hl t n)
  | _ => simp [admitted]

theorem limited_quiet {r : Nat} {s : State} {ls : List Label} (h : Limited r s ls) (l : Label) (hl : ∀ t n, l ≠ .admit t n) (ht : l ≠ .tick)
    (s' : State) (he : Excl s') (hr : s'.rate = s.rate) (hu : s'.used = s.used) (hd : ∀ t, isDirect (s'.pcs t) = false)
    (hy : ∀ t n, s'.pcs t = .admit n → s.used < r) : Limited r s' (ls ++ [l]) := by
  refine ⟨he, by rw [hr, h.rate], hd, ?_, ?_, ?_⟩
  · rw [hu, admitted_quiet ls l hl ht]; exact h.used
  · intro t n hp; rw [hu]; exact hy t n hp
  · rw [admitted_quiet ls l hl ht]; exact h.before

theorem limited_step {r : Nat} {s s' : State} {ls : List Label} {l : Label} (h : Limited r s ls) (hs : Step s l s')
    (hset : ∀ t v, l ≠ .setRate t v) (hbig : ∀ t n, l = .admit t n → r + n < 2 ^ 63) : Limited r s' (ls ++ [l]) := by
  have he := excl_step hs h.excl
  have nd : ∀ (t : Nat) (pc : Pc) (s1 : State), s1.pcs = s.pcs → isDirect pc = false → ∀ u, isDirect ((s1.go t pc).pcs u) = false := by
    intro t pc s1 e hpc u
    rw [go_pcs]; split
    · exact hpc
    · rw [e]; exact h.nodirect u
  have rd : ∀ (t : Nat) (pc : Pc) (s1 : State), s1.pcs = s.pcs → (∀ n, pc ≠ .admit n) → ∀ u n, (s1.go t pc).pcs u = .admit n → s.used < r := by
    intro t pc s1 e hpc u n hp
    rw [go_pcs] at hp
    split at hp
    · exact absurd hp (hpc n)
    · rw [e] at hp; exact h.ready u n hp
  cases hs with
  | call t n hp => exact limited_quiet h _ (by simp) (by simp) _ he rfl rfl (nd t _ _ rfl rfl) (rd t _ _ rfl (by simp))
  | unlimited t n hp hr => have := h.rate; rw [hr] at this; unfold NoLimit at this; omega
  | limited t n hp hr => exact limited_quiet h _ (by simp) (by simp) _ he rfl rfl (nd t _ _ rfl rfl) (rd t _ _ rfl (by simp))
  | direct t n hp => have := h.nodirect t; rw [hp] at this; cases this
  | directUsed t n hp => have := h.nodirect t; rw [hp] at this; cases this
  | directTotal t n hp => have := h.nodirect t; rw [hp] at this; cases this
  | lock t n hp hl => exact limited_quiet h _ (by simp) (by simp) _ he rfl rfl (nd t _ _ rfl rfl) (rd t _ _ rfl (by simp))
  | check t n hp hu =>
    refine limited_quiet h _ (by simp) (by simp) _ he rfl rfl (nd t _ _ rfl rfl) ?_
    intro u m hm
    rw [h.rate] at hu
    exact hu
  | add t n hp =>
    have hu := h.used
    have hrd := h.ready t n hp
    have hb := hbig t n rfl
    have hadm : admitted (sinceTick (ls ++ [.admit t n])) = admitted (sinceTick ls) ++ [n] := by
      rw [sinceTick_snoc, if_neg (by simp), admitted_append]; rfl
    have hlt : (admitted (sinceTick ls)).sum < r := by omega
    have hw : wrap64 (s.used + n) = s.used + n := wrap64_of_in (by unfold InInt64; omega)
    refine ⟨he, h.rate, nd t _ _ rfl rfl, ?_, ?_, ?_⟩
    · rw [hadm]
      show wrap64 (s.used + n) = _
      rw [hw, hu, List.sum_append]
      simp
    · intro u m hm
      rw [go_pcs] at hm
      split at hm
      · cases hm
      · rename_i hne
        exact absurd (excl_unique h.excl (t := u) (u := t) (by rw [show s.pcs u = .admit m from hm]; rfl) (by rw [hp]; rfl)) hne
    · intro a m e
      rw [hadm] at e
      obtain ⟨rfl, -⟩ := List.append_inj' e rfl
      exact hlt
  | unlock t n hp => exact limited_quiet h _ (by simp) (by simp) _ he rfl rfl (nd t _ _ rfl rfl) (rd t _ _ rfl (by simp))
  | addTotal t n hp => exact limited_quiet h _ (by simp) (by simp) _ he rfl rfl (nd t _ _ rfl rfl) (rd t _ _ rfl (by simp))
  | out t n hp => exact limited_quiet h _ (by simp) (by simp) _ he rfl rfl (nd t _ _ rfl rfl) (rd t _ _ rfl (by simp))
  | setCall t l hp => exact limited_quiet h _ (by simp) (by simp) _ he rfl rfl (nd t _ _ rfl rfl) (rd t _ _ rfl (by simp))
  | setLock t l hp hl => exact limited_quiet h _ (by simp) (by simp) _ he rfl rfl (nd t _ _ rfl rfl) (rd t _ _ rfl (by simp))
  | setStore t l hp => exact absurd rfl (hset t l)
  | setUnlock t hp => exact limited_quiet h _ (by simp) (by simp) _ he rfl rfl (nd t _ _ rfl rfl) (rd t _ _ rfl (by simp))
  | tick =>
    have hadm : admitted (sinceTick (ls ++ [.tick])) = [] := by rw [sinceTick_snoc, if_pos rfl]; rfl
    refine ⟨he, h.rate, h.nodirect, by rw [hadm]; rfl, ?_, ?_⟩
    · intro t n hp
      have h1 := h.ready t n hp
      have h2 := h.used
      show (0 : Int) < r
      omega
    · intro a n e; rw [hadm] at e; simp at e

theorem limited_run {r : Nat} {s : State} {ls : List Label} (h : Run (init r) ls s) (hset : ∀ t v, Label.setRate t v ∉ ls)
    (hbig : ∀ t n, Label.admit t n ∈ ls → r + n < 2 ^ 63) : Limited r s ls := by
  generalize hs0 : init r = s0 at h
  induction h with
  | nil =>
    subst hs0
    exact ⟨excl_init r, rfl, fun _ => rfl, rfl, (fun t n hp => by cases hp), (fun a n e => by simp [sinceTick, admitted] at e)⟩
  | snoc s' s'' ls l hr hs ih =>
    exact limited_step (ih (fun t v hm => hset t v (by simp [hm])) (fun t n hm => hbig t n (by simp [hm]))) hs
      (fun t v e => hset t v (by simp [e])) (fun t n e => hbig t n (by simp [e]))

/-- **C53**: with a limit `r` that is not changed, at every moment of every schedule the writes admitted since the last tick, all but the
last one of them, add up to less than `r`; so all together are less than `r` plus the size of one write.  (For limits and sizes whose
sum is below 2^63.) -/
theorem C53_window (r : Nat) (s : State) (ls : List Label) (h : Run (init r) ls s) (hset : ∀ t v, Label.setRate t v ∉ ls)
    (hbig : ∀ t n, Label.admit t n ∈ ls → r + n < 2 ^ 63) :
    (∀ a n, admitted (sinceTick ls) = a ++ [n] → a.sum < r) ∧
    (admitted (sinceTick ls) = [] ∨ ∃ n ∈ admitted (sinceTick ls), (admitted (sinceTick ls)).sum < r + n) := by
  have hl := (limited_run h hset hbig).before
  refine ⟨hl, ?_⟩
  rcases List.eq_nil_or_concat (admitted (sinceTick ls)) with h0 | ⟨a, n, e⟩
  · exact .inl h0
  · rw [List.concat_eq_append] at e
    refine .inr ⟨n, by rw [e]; simp, ?_⟩
    have := hl a n e
    rw [e, List.sum_append]
    simp; omega

/-- two writes of three bytes under a limit of four bytes: the second is admitted, a third one is not (nobody gets beyond `spin`) -/
example : ∃ ls s, Run (init (4 : Nat)) ls s ∧ admitted (sinceTick ls) = [3, 3] ∧ s.used = 6 := by
  refine ⟨_, _, .step (.call _ 0 3 rfl) <| .step (.limited _ 0 3 rfl (by decide)) <| .step (.lock _ 0 3 rfl rfl) <| .step (.check _ 0 3 rfl (by decide)) <|
    .step (.add _ 0 3 rfl) <| .step (.unlock _ 0 3 rfl) <| .step (.call _ 1 3 rfl) <| .step (.limited _ 1 3 rfl (by decide)) <|
    .step (.lock _ 1 3 rfl rfl) <| .step (.check _ 1 3 rfl (by decide)) <| .step (.add _ 1 3 rfl) <| .nil _, by decide, by decide⟩

/-! ### C54 -/

/-- a write that waits for budget: what a step can do to it -/
theorem spin_step {s s' : State} {l : Label} (hs : Step s l s') (he : Excl s) (t n : Nat) (hp : s.pcs t = .spin n) :
    (s'.pcs t = .spin n ∨ s'.pcs t = .admit n ∧ s.used < s.rate) ∧ s'.rate = s.rate ∧ (∀ u v, l ≠ .setRate u v) ∧
    (∀ u, holds (s.pcs u) = false → holds (s'.pcs u) = false) := by
  have hh : ∀ u, holds (s.pcs u) = true → u = t := fun u hu => excl_unique he hu (by rw [hp]; rfl)
  have hlock : s.lock = some t := (he t).mp (by rw [hp]; rfl)
  have other : ∀ (u : Nat) (pc : Pc) (s1 : State), s1.pcs = s.pcs → s.pcs u ≠ .spin n → (s1.go u pc).pcs t = .spin n := by
    intro u pc s1 e hne
    rw [go_pcs, if_neg (by rintro rfl; exact hne hp), e, hp]
  have keep : ∀ (u : Nat) (pc : Pc) (s1 : State), s1.pcs = s.pcs → holds pc = false → ∀ w, holds (s.pcs w) = false → holds ((s1.go u pc).pcs w) = false := by
    intro u pc s1 e hpc w hw
    rw [go_pcs]; split
    · exact hpc
    · rw [e]; exact hw
  cases hs with
  | call u m hq => exact ⟨.inl (other u _ _ rfl (by rw [hq]; simp)), rfl, by simp, keep u _ _ rfl rfl⟩
  | unlimited u m hq hr => exact ⟨.inl (other u _ _ rfl (by rw [hq]; simp)), rfl, by simp, keep u _ _ rfl rfl⟩
  | limited u m hq hr => exact ⟨.inl (other u _ _ rfl (by rw [hq]; simp)), rfl, by simp, keep u _ _ rfl rfl⟩
  | direct u m hq => exact ⟨.inl (other u _ _ rfl (by rw [hq]; simp)), rfl, by simp, keep u _ _ rfl rfl⟩
  | directUsed u m hq => exact ⟨.inl (other u _ _ rfl (by rw [hq]; simp)), rfl, by simp, keep u _ _ rfl rfl⟩
  | directTotal u m hq => exact ⟨.inl (other u _ _ rfl (by rw [hq]; simp)), rfl, by simp, keep u _ _ rfl rfl⟩
  | lock u m hq hl => rw [hlock] at hl; cases hl
  | check u m hq hu =>
    have e := hh u (by rw [hq]; rfl)
    subst e
    rw [hp] at hq
    cases hq
    refine ⟨.inr ⟨by rw [go_pcs, if_pos rfl], hu⟩, rfl, by simp, ?_⟩
    intro w hw
    rw [go_pcs, if_neg (by rintro rfl; rw [hp] at hw; cases hw)]; exact hw
  | add u m hq => have e := hh u (by rw [hq]; rfl); subst e; rw [hp] at hq; cases hq
  | unlock u m hq => have e := hh u (by rw [hq]; rfl); subst e; rw [hp] at hq; cases hq
  | addTotal u m hq => exact ⟨.inl (other u _ _ rfl (by rw [hq]; simp)), rfl, by simp, keep u _ _ rfl rfl⟩
  | out u m hq => exact ⟨.inl (other u _ _ rfl (by rw [hq]; simp)), rfl, by simp, keep u _ _ rfl rfl⟩
  | setCall u v hq => exact ⟨.inl (other u _ _ rfl (by rw [hq]; simp)), rfl, by simp, keep u _ _ rfl rfl⟩
  | setLock u v hq hl => rw [hlock] at hl; cases hl
  | setStore u v hq => have e := hh u (by rw [hq]; rfl); subst e; rw [hp] at hq; cases hq
  | setUnlock u hq => have e := hh u (by rw [hq]; rfl); subst e; rw [hp] at hq; cases hq
  | tick => exact ⟨.inl hp, rfl, by simp, fun u hu => hu⟩

/-- somebody who waits for the lock while it is taken stays where they are -/
theorem want_step {s s' : State} {l : Label} (hs : Step s l s') (t : Nat) (hl : s.lock = some t) (u : Nat)
    (hu : (∃ v, s.pcs u = .setWant v) ∨ ∃ m, s.pcs u = .wantLock m) : s'.pcs u = s.pcs u := by
  have other : ∀ (w : Nat) (pc : Pc) (s1 : State), s1.pcs = s.pcs → s.pcs w ≠ s.pcs u → (s1.go w pc).pcs u = s.pcs u := by
    intro w pc s1 e hne
    rw [go_pcs, if_neg (by rintro rfl; exact hne rfl), e]
  have ne : ∀ (w : Nat), (∀ v, s.pcs w ≠ .setWant v) → (∀ m, s.pcs w ≠ .wantLock m) → s.pcs w ≠ s.pcs u := by
    intro w h1 h2 e
    rcases hu with ⟨v, hv⟩ | ⟨m, hm⟩
    · exact h1 v (e.trans hv)
    · exact h2 m (e.trans hm)
  cases hs with
  | lock w m hq hn => rw [hl] at hn; cases hn
  | setLock w v hq hn => rw [hl] at hn; cases hn
  | tick => rfl
  | call w m hq => exact other w _ _ rfl (ne w (by rw [hq]; simp) (by rw [hq]; simp))
  | unlimited w m hq hr => exact other w _ _ rfl (ne w (by rw [hq]; simp) (by rw [hq]; simp))
  | limited w m hq hr => exact other w _ _ rfl (ne w (by rw [hq]; simp) (by rw [hq]; simp))
  | direct w m hq => exact other w _ _ rfl (ne w (by rw [hq]; simp) (by rw [hq]; simp))
  | directUsed w m hq => exact other w _ _ rfl (ne w (by rw [hq]; simp) (by rw [hq]; simp))
  | directTotal w m hq => exact other w _ _ rfl (ne w (by rw [hq]; simp) (by rw [hq]; simp))
  | check w m hq _ => exact other w _ _ rfl (ne w (by rw [hq]; simp) (by rw [hq]; simp))
  | add w m hq => exact other w _ _ rfl (ne w (by rw [hq]; simp) (by rw [hq]; simp))
  | unlock w m hq => exact other w _ _ rfl (ne w (by rw [hq]; simp) (by rw [hq]; simp))
  | addTotal w m hq => exact other w _ _ rfl (ne w (by rw [hq]; simp) (by rw [hq]; simp))
  | out w m hq => exact other w _ _ rfl (ne w (by rw [hq]; simp) (by rw [hq]; simp))
  | setCall w v hq => exact other w _ _ rfl (ne w (by rw [hq]; simp) (by rw [hq]; simp))
  | setStore w v hq => exact other w _ _ rfl (ne w (by rw [hq]; simp) (by rw [hq]; simp))
  | setUnlock w hq => exact other w _ _ rfl (ne w (by rw [hq]; simp) (by rw [hq]; simp))

/-- a goroutine that has found budget and not yet taken it -/
theorem admit_step {s s' : State} {l : Label} (hs : Step s l s') (he : Excl s) (t n : Nat) (hp : s.pcs t = .admit n) :
    (l = .admit t n ∨ s'.pcs t = .admit n) ∧ s'.rate = s.rate ∧ ∀ u v, l ≠ .setRate u v := by
  have hh : ∀ u, holds (s.pcs u) = true → u = t := fun u hu => excl_unique he hu (by rw [hp]; rfl)
  have hlock : s.lock = some t := (he t).mp (by rw [hp]; rfl)
  have other : ∀ (u : Nat) (pc : Pc) (s1 : State), s1.pcs = s.pcs → s.pcs u ≠ .admit n → (s1.go u pc).pcs t = .admit n := by
    intro u pc s1 e hne
    rw [go_pcs, if_neg (by rintro rfl; exact hne hp), e, hp]
  cases hs with
  | call u m hq => exact ⟨.inr (other u _ _ rfl (by rw [hq]; simp)), rfl, by simp⟩
  | unlimited u m hq hr => exact ⟨.inr (other u _ _ rfl (by rw [hq]; simp)), rfl, by simp⟩
  | limited u m hq hr => exact ⟨.inr (other u _ _ rfl (by rw [hq]; simp)), rfl, by simp⟩
  | direct u m hq => exact ⟨.inr (other u _ _ rfl (by rw [hq]; simp)), rfl, by simp⟩
  | directUsed u m hq => exact ⟨.inr (other u _ _ rfl (by rw [hq]; simp)), rfl, by simp⟩
  | directTotal u m hq => exact ⟨.inr (other u _ _ rfl (by rw [hq]; simp)), rfl, by simp⟩
  | lock u m hq hl => rw [hlock] at hl; cases hl
  | check u m hq hu => have e := hh u (by rw [hq]; rfl); subst e; rw [hp] at hq; cases hq
  | add u m hq =>
    have e := hh u (by rw [hq]; rfl)
    subst e
    rw [hp] at hq
    cases hq
    exact ⟨.inl rfl, rfl, by simp⟩
  | unlock u m hq => have e := hh u (by rw [hq]; rfl); subst e; rw [hp] at hq; cases hq
  | addTotal u m hq => exact ⟨.inr (other u _ _ rfl (by rw [hq]; simp)), rfl, by simp⟩
  | out u m hq => exact ⟨.inr (other u _ _ rfl (by rw [hq]; simp)), rfl, by simp⟩
  | setCall u v hq => exact ⟨.inr (other u _ _ rfl (by rw [hq]; simp)), rfl, by simp⟩
  | setLock u v hq hl => rw [hlock] at hl; cases hl
  | setStore u v hq => have e := hh u (by rw [hq]; rfl); subst e; rw [hp] at hq; cases hq
  | setUnlock u hq => have e := hh u (by rw [hq]; rfl); subst e; rw [hp] at hq; cases hq
  | tick => exact ⟨.inr hp, rfl, by simp⟩

/-- C54 refuted, always: from the moment a write waits for budget until it is admitted, no schedule stores a new limit. -/
theorem C54_refuted_waiting (r : Int) (ls0 : List Label) (s : State) (h0 : Run (init r) ls0 s) (t n : Nat) (hp : s.pcs t = .spin n)
    (ls : List Label) (s' : State) (h : Run s ls s') (hno : ∀ m, Label.admit t m ∉ ls) :
    s'.rate = s.rate ∧ ∀ u v, Label.setRate u v ∉ ls := by
  have he := excl_run h0 (excl_init r)
  have key : (s'.pcs t = .spin n ∨ s'.pcs t = .admit n) ∧ s'.rate = s.rate ∧ ∀ u v, Label.setRate u v ∉ ls := by
    induction h with
    | nil => exact ⟨.inl hp, rfl, by simp⟩
    | snoc s1 s2 ls l hr hs ih =>
      obtain ⟨h1, h2, h3⟩ := ih (fun m hm => hno m (by simp [hm]))
      have hex := excl_run hr he
      have fin : ∀ u v, l ≠ .setRate u v → Label.setRate u v ∉ ls ++ [l] := by
        intro u v hl hm
        rcases List.mem_append.mp hm with hm | hm
        · exact h3 u v hm
        · exact hl (List.mem_singleton.mp hm).symm
      rcases h1 with h1 | h1
      · obtain ⟨k1, k2, k3, -⟩ := spin_step hs hex t n h1
        refine ⟨?_, by rw [k2, h2], fun u v => fin u v (k3 u v)⟩
        rcases k1 with k1 | ⟨k1, -⟩
        · exact .inl k1
        · exact .inr k1
      · obtain ⟨k1, k2, k3⟩ := admit_step hs hex t n h1
        refine ⟨?_, by rw [k2, h2], fun u v => fin u v (k3 u v)⟩
        rcases k1 with k1 | k1
        · exact absurd (by rw [k1]; simp) (hno n)
        · exact .inr k1
  exact key.2

/-- a write that waits with a limit of 0 or without limit waits for ever, together with everybody who wants the lock (as long as the
counter does not overflow) -/
theorem stuck {s : State} (he : Excl s) (t n : Nat) (hp : s.pcs t = .spin n) (hr : s.rate ≤ 0) (hu : 0 ≤ s.used) (ls : List Label) (s' : State) (h : Run s ls s')
    (hbig : s.used + ((admitted ls).sum : Nat) < 2 ^ 63) :
    s'.pcs t = .spin n ∧ s'.rate = s.rate ∧ (0 ≤ s'.used ∧ s'.used ≤ s.used + ((admitted ls).sum : Nat)) ∧ (∀ u v, Label.setRate u v ∉ ls) ∧
    ∀ u, ((∃ v, s.pcs u = .setWant v) ∨ ∃ m, s.pcs u = .wantLock m) → s'.pcs u = s.pcs u := by
  induction h with
  | nil => exact ⟨hp, rfl, by simp [admitted, hu], by simp, fun u _ => rfl⟩
  | snoc s1 s2 ls l hrun hs ih =>
    rw [admitted_append, List.sum_append] at hbig
    obtain ⟨h1, h2, h3, h4, h5⟩ := ih (by omega)
    have hex := excl_run hrun he
    obtain ⟨k1, k2, k3, -⟩ := spin_step hs hex t n h1
    have hlock : s1.lock = some t := (hex t).mp (by rw [h1]; rfl)
    rw [admitted_append, List.sum_append]
    refine ⟨?_, by rw [k2, h2], ?_, ?_, ?_⟩
    · rcases k1 with k1 | ⟨-, k1⟩
      · exact k1
      · omega
    · cases hs with
      | directUsed u m hq =>
        have e : (admitted [Label.admit u m]).sum = m := by simp [admitted]
        rw [e] at hbig ⊢
        show 0 ≤ wrap64 (s1.used + m) ∧ wrap64 (s1.used + m) ≤ _
        rw [wrap64_of_in (by unfold InInt64; omega)]
        omega
      | add u m hq =>
        have e := excl_unique hex (t := u) (u := t) (by rw [hq]; rfl) (by rw [h1]; rfl)
        rw [e, h1] at hq; cases hq
      | tick => show 0 ≤ (0 : Int) ∧ (0 : Int) ≤ _; omega
      | _ => simp only [State.go, admitted]; omega
    · intro u v hm
      rcases List.mem_append.mp hm with hm | hm
      · exact h4 u v hm
      · exact k3 u v (List.mem_singleton.mp hm).symm
    · intro u hw
      rw [← h5 u hw]
      exact want_step hs t hlock u (by rw [h5 u hw]; exact hw)

/-- with a limit of 0 nothing is admitted once all unlimited writes have ended -/
theorem none_admitted {s : State} (he : Excl s) (t n : Nat) (hp : s.pcs t = .spin n) (hr : s.rate = 0) (hu : 0 ≤ s.used) (hd : ∀ u, isDirect (s.pcs u) = false)
    (ls : List Label) (s' : State) (h : Run s ls s') : s'.pcs t = .spin n ∧ s'.rate = 0 ∧ 0 ≤ s'.used ∧ (∀ u, isDirect (s'.pcs u) = false) ∧ admitted ls = [] := by
  induction h with
  | nil => exact ⟨hp, hr, hu, hd, rfl⟩
  | snoc s1 s2 ls l hrun hs ih =>
    obtain ⟨h1, h2, h3, h4, h5⟩ := ih
    have hex := excl_run hrun he
    obtain ⟨k1, k2, k3, -⟩ := spin_step hs hex t n h1
    have nd : ∀ (w : Nat) (pc : Pc) (s3 : State), s3.pcs = s1.pcs → isDirect pc = false → ∀ u, isDirect ((s3.go w pc).pcs u) = false := by
      intro w pc s3 e hpc u
      rw [go_pcs]; split
      · exact hpc
      · rw [e]; exact h4 u
    have hspin : s2.pcs t = .spin n := by
      rcases k1 with k1 | ⟨-, k1⟩
      · exact k1
      · omega
    rw [admitted_append, h5, List.nil_append]
    refine ⟨hspin, by rw [k2, h2], ?_⟩
    cases hs with
    | call w m hq => exact ⟨h3, nd w _ _ rfl rfl, rfl⟩
    | unlimited w m hq hr' => rw [h2] at hr'; exact absurd hr' (by decide)
    | limited w m hq hr' => exact ⟨h3, nd w _ _ rfl rfl, rfl⟩
    | direct w m hq => have := h4 w; rw [hq] at this; cases this
    | directUsed w m hq => have := h4 w; rw [hq] at this; cases this
    | directTotal w m hq => have := h4 w; rw [hq] at this; cases this
    | lock w m hq hl => exact ⟨h3, nd w _ _ rfl rfl, rfl⟩
    | check w m hq hl => exact ⟨h3, nd w _ _ rfl rfl, rfl⟩
    | add w m hq =>
      have e := excl_unique hex (t := w) (u := t) (by rw [hq]; rfl) (by rw [h1]; rfl)
      rw [e, h1] at hq; cases hq
    | unlock w m hq => exact ⟨h3, nd w _ _ rfl rfl, rfl⟩
    | addTotal w m hq => exact ⟨h3, nd w _ _ rfl rfl, rfl⟩
    | out w m hq => exact ⟨h3, nd w _ _ rfl rfl, rfl⟩
    | setCall w v hq => exact ⟨h3, nd w _ _ rfl rfl, rfl⟩
    | setLock w v hq hl => exact ⟨h3, nd w _ _ rfl rfl, rfl⟩
    | setStore w v hq => exact ⟨h3, nd w _ _ rfl rfl, rfl⟩
    | setUnlock w hq => exact ⟨h3, nd w _ _ rfl rfl, rfl⟩
    | tick => exact ⟨Int.le_refl 0, h4, rfl⟩

theorem clamp_eq (v : Int) : clamp v = max v (-1) := by
  unfold clamp NoLimit
  omega

/-- C54 refuted with limit 0: a state can be reached in which a write waits and a call of `SetWriteRate` waits for it, and in every
continuation both wait, the limit stays 0 and nothing is ever admitted again. -/
theorem C54_refuted_zero (n : Nat) (v : Int) : ∃ ls0 s, Run (init 0) ls0 s ∧ s.pcs 0 = .spin n ∧ s.pcs 1 = .setWant (max v (-1)) ∧
    ∀ ls s', Run s ls s' → s'.pcs 0 = .spin n ∧ s'.pcs 1 = .setWant (max v (-1)) ∧ s'.rate = 0 ∧ admitted ls = [] := by
  rw [← clamp_eq]
  have hrun := Run.step (.call (init 0) 0 n rfl) <| .step (.limited _ 0 n rfl (by simp [init, State.go, NoLimit])) <| .step (.lock _ 0 n rfl rfl) <| .step (.setCall _ 1 v rfl) <| .nil _
  refine ⟨_, _, hrun, rfl, rfl, ?_⟩
  intro ls s' h
  have hd : ∀ u, isDirect ((((((init 0).go 0 (.start n)).go 0 (.wantLock n)).go 0 (.spin n)).go 1 (.setWant (clamp v))).pcs u) = false := by
    intro u
    simp only [go_pcs, init]
    split
    · rfl
    · split
      · rfl
      · rfl
  obtain ⟨h1, h2, -, -, h5⟩ := none_admitted (excl_run hrun (excl_init 0)) 0 n rfl rfl (Int.le_refl 0) hd ls s' h
  have h6 := (stuck (excl_run hrun (excl_init 0)) 0 n rfl (Int.le_refl 0) (Int.le_refl 0) ls s' h (by rw [h5]; show (0 : Int) + ((0 : Nat) : Int) < 2 ^ 63; decide)).2.2.2.2 1 (.inl ⟨clamp v, rfl⟩)
  exact ⟨h1, h6, h2, h5⟩

/-- C54 refuted when the limit is lifted: if `SetWriteRate(NoLimit)` comes between a write's look at the limit and its locking, that write
waits for ever, and with it every later `SetWriteRate`, as long as less than 2^63 bytes are written. -/
theorem C54_refuted_lifted (r : Nat) (n : Nat) (v : Int) : ∃ ls0 s, Run (init r) ls0 s ∧ s.pcs 0 = .spin n ∧ s.pcs 1 = .setWant (max v (-1)) ∧ s.rate = -1 ∧
    ∀ ls s', Run s ls s' → (admitted ls).sum < 2 ^ 63 → s'.pcs 0 = .spin n ∧ s'.pcs 1 = .setWant (max v (-1)) ∧ s'.rate = -1 := by
  rw [← clamp_eq]
  have hrun := Run.step (.call (init r) 0 n rfl) <| .step (.limited _ 0 n rfl (by simp [init, State.go, NoLimit])) <| .step (.setCall _ 1 NoLimit rfl) <|
    .step (.setLock _ 1 NoLimit rfl rfl) <| .step (.setStore _ 1 NoLimit rfl) <| .step (.setUnlock _ 1 rfl) <| .step (.lock _ 0 n rfl rfl) <| .step (.setCall _ 1 v rfl) <| .nil _
  refine ⟨_, _, hrun, rfl, rfl, rfl, ?_⟩
  intro ls s' h hbig
  obtain ⟨h1, h2, -, -, h5⟩ := stuck (excl_run hrun (excl_init r)) 0 n rfl (by show NoLimit ≤ 0; decide) (Int.le_refl 0) ls s' h (by show (0 : Int) + _ < _; omega)
  exact ⟨h1, h5 1 (.inl ⟨clamp v, rfl⟩), h2⟩

/-- if no write waits with a limit that is not positive, the new limit can be stored, and at most the write that has the lock is admitted before -/
theorem takes_effect (r : Int) (ls0 : List Label) (s : State) (h0 : Run (init r) ls0 s) (u : Nat) (v : Int) (hu : s.pcs u = .setWant v)
    (hr : ∀ t n, s.pcs t = .spin n → 0 < s.rate) : ∃ ls s' k, Run s ls s' ∧ s'.rate = v ∧ Label.setRate u v ∈ ls ∧ (admitted ls).sum ≤ k ∧
      (k = 0 ∨ ∃ t, s.pcs t = .spin k ∨ s.pcs t = .admit k) := by
  have he := excl_run h0 (excl_init r)
  have free : ∀ s1 : State, s1.lock = none → s1.pcs u = .setWant v → ∃ ls s', Run s1 ls s' ∧ s'.rate = v ∧ Label.setRate u v ∈ ls ∧ (admitted ls).sum ≤ 0 := by
    intro s1 hl hp
    refine ⟨_, _, .step (.setLock s1 u v hp hl) <| .step (.setStore _ u v (by rw [go_pcs, if_pos rfl])) <| .nil _, rfl, by simp, by simp [admitted]⟩
  have pre : ∀ (s1 s2 : State) (a : List Label) (m : Nat), Run s1 a s2 → (∃ ls s', Run s2 ls s' ∧ s'.rate = v ∧ Label.setRate u v ∈ ls ∧ (admitted ls).sum ≤ m) →
      ∃ ls s', Run s1 ls s' ∧ s'.rate = v ∧ Label.setRate u v ∈ ls ∧ (admitted ls).sum ≤ (admitted a).sum + m := by
    rintro s1 s2 a m ha ⟨ls, s', h1, h2, h3, h4⟩
    exact ⟨_, _, ha.trans h1, h2, by simp [h3], by rw [admitted_append, List.sum_append]; omega⟩
  have other : ∀ (t : Nat) (pc : Pc) (s1 : State), s1.pcs u = .setWant v → t ≠ u → (s1.go t pc).pcs u = .setWant v := by
    intro t pc s1 e hne
    rw [go_pcs, if_neg (Ne.symm hne), e]
  have unl : ∀ (s1 : State) (t n : Nat), s1.pcs t = .unlock n → s1.pcs u = .setWant v → t ≠ u → ∃ ls s', Run s1 ls s' ∧ s'.rate = v ∧ Label.setRate u v ∈ ls ∧ (admitted ls).sum ≤ 0 := by
    intro s1 t n hp hq hne
    simpa [admitted] using pre _ _ _ 0 (.step (.unlock s1 t n hp) (.nil _)) (free _ rfl (other t _ _ hq hne))
  have adm : ∀ (s1 : State) (t n : Nat), s1.pcs t = .admit n → s1.pcs u = .setWant v → t ≠ u → ∃ ls s', Run s1 ls s' ∧ s'.rate = v ∧ Label.setRate u v ∈ ls ∧ (admitted ls).sum ≤ n := by
    intro s1 t n hp hq hne
    simpa [admitted] using pre _ _ _ 0 (.step (.add s1 t n hp) (.nil _)) (unl _ t n (by rw [go_pcs, if_pos rfl]) (other t _ _ hq hne) hne)
  have sun : ∀ (s1 : State) (t : Nat), s1.pcs t = .setUnlock → s1.pcs u = .setWant v → t ≠ u → ∃ ls s', Run s1 ls s' ∧ s'.rate = v ∧ Label.setRate u v ∈ ls ∧ (admitted ls).sum ≤ 0 := by
    intro s1 t hp hq hne
    simpa [admitted] using pre _ _ _ 0 (.step (.setUnlock s1 t hp) (.nil _)) (free _ rfl (other t _ _ hq hne))
  have fin : ∀ k, (∃ ls s', Run s ls s' ∧ s'.rate = v ∧ Label.setRate u v ∈ ls ∧ (admitted ls).sum ≤ k) → (k = 0 ∨ ∃ t, s.pcs t = .spin k ∨ s.pcs t = .admit k) →
      ∃ ls s' k, Run s ls s' ∧ s'.rate = v ∧ Label.setRate u v ∈ ls ∧ (admitted ls).sum ≤ k ∧ (k = 0 ∨ ∃ t, s.pcs t = .spin k ∨ s.pcs t = .admit k) := by
    rintro k ⟨ls, s', h1, h2, h3, h4⟩ h5
    exact ⟨ls, s', k, h1, h2, h3, h4, h5⟩
  cases hl : s.lock with
  | none => exact fin 0 (free s hl hu) (.inl rfl)
  | some t =>
    have ht := (he t).mpr hl
    have hne : t ≠ u := by rintro rfl; rw [hu] at ht; cases ht
    cases hp : s.pcs t with
    | spin n =>
      refine fin n ?_ (.inr ⟨t, .inl hp⟩)
      simpa [admitted] using pre _ _ _ n (.step (.tick s) (.step (.check _ t n hp (hr t n hp)) (.nil _))) (adm _ t n (by rw [go_pcs, if_pos rfl]) (other t _ _ hu hne) hne)
    | admit n => exact fin n (adm s t n hp hu hne) (.inr ⟨t, .inr hp⟩)
    | unlock n => exact fin 0 (unl s t n hp hu hne) (.inl rfl)
    | setHold w =>
      refine fin 0 ?_ (.inl rfl)
      simpa [admitted] using pre _ _ _ 0 (.step (.setStore s t w hp) (.nil _)) (sun _ t (by rw [go_pcs, if_pos rfl]) (other t _ _ hu hne) hne)
    | setUnlock => exact fin 0 (sun s t hp hu hne) (.inl rfl)
    | _ => rw [hp] at ht; cases ht

/-- **C54** (partial: with a positive limit, and only after the waiting write).  Whenever `SetWriteRate` waits and the limit is positive,
some continuation stores the new limit: it is enough that a tick comes and the goroutine with the lock goes on. -/
theorem C54_takes_effect_partial (r : Int) (ls0 : List Label) (s : State) (h0 : Run (init r) ls0 s) (u : Nat) (v : Int) (hu : s.pcs u = .setWant v)
    (hr : 0 < s.rate) : ∃ ls s', Run s ls s' ∧ s'.rate = v ∧ Label.setRate u v ∈ ls := by
  obtain ⟨ls, s', k, h1, h2, h3, -⟩ := takes_effect r ls0 s h0 u v hu (fun _ _ _ => hr)
  exact ⟨ls, s', h1, h2, h3⟩

/-- the budget used is at most what was admitted -/
theorem used_le (r : Int) (ls : List Label) (s : State) (h : Run (init r) ls s) (hb : (admitted ls).sum < 2 ^ 63) :
    0 ≤ s.used ∧ s.used ≤ ((admitted ls).sum : Nat) := by
  generalize hs : init r = s0 at h
  induction h with
  | nil => subst hs; simp [init]
  | snoc s1 s2 ls l hrun hstep ih =>
    subst hs
    rw [admitted_append, List.sum_append] at hb ⊢
    obtain ⟨h1, h2⟩ := ih (by omega)
    cases hstep with
    | directUsed u m hq =>
      have e : (admitted [Label.admit u m]).sum = m := by simp [admitted]
      rw [e] at hb ⊢
      show 0 ≤ wrap64 (s1.used + m) ∧ wrap64 (s1.used + m) ≤ _
      rw [wrap64_of_in (by unfold InInt64; omega)]
      omega
    | add u m hq =>
      have e : (admitted [Label.admit u m]).sum = m := by simp [admitted]
      rw [e] at hb ⊢
      show 0 ≤ wrap64 (s1.used + m) ∧ wrap64 (s1.used + m) ≤ _
      rw [wrap64_of_in (by unfold InInt64; omega)]
      omega
    | tick => show 0 ≤ (0 : Int) ∧ (0 : Int) ≤ _; omega
    | _ => simp only [State.go, admitted]; omega

/-- **C54**, exactly when a new limit can take effect, as long as less than 2^63 bytes are written: a waiting `SetWriteRate` can store its limit unless a write
waits for budget while the limit is 0 or has been lifted. -/
theorem C54_effect_iff (r : Int) (ls0 : List Label) (s : State) (h0 : Run (init r) ls0 s) (u : Nat) (v : Int) (hu : s.pcs u = .setWant v)
    (hsmall : (admitted ls0).sum < 2 ^ 63) (hnext : ∀ t n, s.pcs t = .spin n ∨ s.pcs t = .admit n → (admitted ls0).sum + n < 2 ^ 63) :
    (∃ ls s', Run s ls s' ∧ Label.setRate u v ∈ ls ∧ (admitted ls0).sum + (admitted ls).sum < 2 ^ 63) ↔
      ∀ t n, s.pcs t = .spin n → 0 < s.rate := by
  constructor
  · rintro ⟨ls, s', h1, h2, h3⟩ t n hp
    apply Classical.byContradiction
    intro hr
    obtain ⟨g1, g2⟩ := used_le r ls0 s h0 hsmall
    exact (stuck (excl_run h0 (excl_init r)) t n hp (by omega) g1 ls s' h1 (by omega)).2.2.2.1 u v h2
  · intro hr
    obtain ⟨ls, s', k, h1, -, h3, h4, h5⟩ := takes_effect r ls0 s h0 u v hu hr
    refine ⟨ls, s', h1, h3, ?_⟩
    rcases h5 with rfl | ⟨t, ht⟩
    · omega
    · have := hnext t k ht; omega

/-- a write of 5 bytes waits (with limit 0) or may go on (with limit 3), and `SetWriteRate(7)` waits for it -/
example : (∃ ls0 s, Run (init 0) ls0 s ∧ s.pcs 0 = .spin 5 ∧ s.pcs 1 = .setWant 7 ∧
      ¬ ∃ ls s', Run s ls s' ∧ Label.setRate 1 7 ∈ ls ∧ (admitted ls0).sum + (admitted ls).sum < 2 ^ 63) ∧
    ∃ ls0 s, Run (init 3) ls0 s ∧ s.pcs 0 = .spin 5 ∧ s.pcs 1 = .setWant 7 ∧
      ∃ ls s', Run s ls s' ∧ Label.setRate 1 7 ∈ ls ∧ (admitted ls0).sum + (admitted ls).sum < 2 ^ 63 := by
  have run : ∀ r : Int, r ≠ NoLimit → ∃ ls0 s, Run (init r) ls0 s ∧ s.rate = r ∧ s.pcs 0 = .spin 5 ∧ s.pcs 1 = .setWant 7 ∧ admitted ls0 = [] ∧
      ∀ t n, s.pcs t = .spin n ∨ s.pcs t = .admit n → n = 5 := by
    intro r hr
    refine ⟨_, _, Run.step (.call (init r) 0 5 rfl) <| .step (.limited _ 0 5 rfl hr) <| .step (.lock _ 0 5 rfl rfl) <| .step (.setCall _ 1 7 rfl) <| .nil _,
      rfl, rfl, rfl, rfl, ?_⟩
    intro t n h
    simp only [State.go, init] at h
    split at h
    · rcases h with h | h <;> cases h
    · split at h
      · rcases h with h | h <;> cases h; rfl
      · rcases h with h | h <;> cases h
  constructor
  · obtain ⟨ls0, s, h0, h1, h2, h3, h4, h5⟩ := run 0 (by decide)
    refine ⟨ls0, s, h0, h2, h3, ?_⟩
    rw [C54_effect_iff 0 ls0 s h0 1 7 h3 (by rw [h4]; decide) (by intro t n h; rw [h5 t n h, h4]; decide)]
    intro h
    have := h 0 5 h2
    omega
  · obtain ⟨ls0, s, h0, h1, h2, h3, h4, h5⟩ := run 3 (by decide)
    refine ⟨ls0, s, h0, h2, h3, ?_⟩
    rw [C54_effect_iff 3 ls0 s h0 1 7 h3 (by rw [h4]; decide) (by intro t n h; rw [h5 t n h, h4]; decide)]
    intro t n _
    omega

/-! the totals -/

/-- the writes admitted, with their goroutines -/
def admits : List Label → List (Nat × Nat)
  | [] => []
  | .admit t n :: ls => (t, n) :: admits ls
  | _ :: ls => admits ls

/-- the writes counted in the total, with their goroutines -/
def counts : List Label → List (Nat × Nat)
  | [] => []
  | .counted t n :: ls => (t, n) :: counts ls
  | _ :: ls => counts ls

theorem admits_append (a b : List Label) : admits (a ++ b) = admits a ++ admits b := by
  induction a with
  | nil => rfl
  | cons l a ih => cases l <;> simp [admits, ih]

theorem counts_append (a b : List Label) : counts (a ++ b) = counts a ++ counts b := by
  induction a with
  | nil => rfl
  | cons l a ih => cases l <;> simp [counts, ih]

theorem admits_sizes (ls : List Label) : (admits ls).map Prod.snd = admitted ls := by
  induction ls with
  | nil => rfl
  | cons l a ih => cases l <;> simp [admits, admitted, ih]

/-- admitted and not yet counted -/
def owed (t : Nat) : Pc → List (Nat × Nat)
  | .directTotal n | .unlock n | .addTotal n => [(t, n)]
  | _ => []

/-- the writes of one goroutine -/
def ofThread (t : Nat) (xs : List (Nat × Nat)) : List (Nat × Nat) := xs.filter fun x => x.1 == t

structure Counted (s : State) (ls : List Label) : Prop where
  total : s.total = wrap64 (((counts ls).map Prod.snd).sum : Nat)
  each : ∀ t, ofThread t (admits ls) = ofThread t (counts ls) ++ owed t (s.pcs t)

theorem wrap64_add (a b : Int) : wrap64 (wrap64 a + b) = wrap64 (a + b) := by unfold wrap64; omega

theorem counted_quiet {s : State} {ls : List Label} (h : Counted s ls) (l : Label) (ha : admits [l] = []) (hc : counts [l] = []) (s' : State)
    (ht : s'.total = s.total) (t : Nat) (pc : Pc) (hp : s'.pcs = s.pcs) (ho : owed t pc = owed t (s.pcs t)) : Counted (s'.go t pc) (ls ++ [l]) := by
  refine ⟨?_, ?_⟩
  · rw [counts_append, hc, List.append_nil]; exact ht.trans h.total
  · intro u
    rw [admits_append, counts_append, ha, hc, List.append_nil, List.append_nil, go_pcs, h.each u]
    by_cases hu : u = t
    · rw [if_pos hu, hu, ho]
    · rw [if_neg hu, hp]

theorem ofThread_append (t : Nat) (a b : List (Nat × Nat)) : ofThread t (a ++ b) = ofThread t a ++ ofThread t b := List.filter_append ..

theorem counted_admit {s : State} {ls : List Label} (h : Counted s ls) (t n : Nat) (s' : State)
    (ht : s'.total = s.total) (pc : Pc) (hp : s'.pcs = s.pcs) (h0 : owed t (s.pcs t) = []) (h1 : owed t pc = [(t, n)]) : Counted (s'.go t pc) (ls ++ [.admit t n]) := by
  have hc : counts [Label.admit t n] = [] := rfl
  have ha : admits [Label.admit t n] = [(t, n)] := rfl
  refine ⟨?_, ?_⟩
  · rw [counts_append, hc, List.append_nil]; exact ht.trans h.total
  · intro u
    rw [admits_append, counts_append, ha, hc, List.append_nil, go_pcs, ofThread_append, h.each u]
    by_cases hu : u = t
    · subst hu
      rw [if_pos rfl, h0, h1, List.append_nil]
      simp [ofThread]
    · rw [if_neg hu, hp]
      simp [ofThread, Ne.symm hu]

theorem counted_count {s : State} {ls : List Label} (h : Counted s ls) (t n : Nat) (s' : State)
    (ht : s'.total = wrap64 (s.total + n)) (pc : Pc) (hp : s'.pcs = s.pcs) (h0 : owed t (s.pcs t) = [(t, n)]) (h1 : owed t pc = []) :
    Counted (s'.go t pc) (ls ++ [.counted t n]) := by
  have hc : counts [Label.counted t n] = [(t, n)] := rfl
  have ha : admits [Label.counted t n] = [] := rfl
  refine ⟨?_, ?_⟩
  · rw [counts_append, hc, List.map_append, List.sum_append]
    show s'.total = _
    rw [ht, h.total, wrap64_add]
    simp
  · intro u
    rw [admits_append, counts_append, ha, hc, List.append_nil, go_pcs, ofThread_append, h.each u]
    by_cases hu : u = t
    · subst hu
      rw [if_pos rfl, h0, h1, List.append_nil]
      simp [ofThread]
    · rw [if_neg hu, hp]
      simp [ofThread, Ne.symm hu]

theorem counted_run {r : Int} {s : State} {ls : List Label} (h : Run (init r) ls s) : Counted s ls := by
  induction h with
  | nil => exact ⟨rfl, fun t => rfl⟩
  | snoc s1 s2 ls l hr hs ih =>
    cases hs with
    | call t n hp => refine counted_quiet ih _ ?_ ?_ _ ?_ t _ ?_ ?_ <;> first | rfl | (simp only [hp, owed])
    | unlimited t n hp hr => refine counted_quiet ih _ ?_ ?_ _ ?_ t _ ?_ ?_ <;> first | rfl | (simp only [hp, owed])
    | limited t n hp hr => refine counted_quiet ih _ ?_ ?_ _ ?_ t _ ?_ ?_ <;> first | rfl | (simp only [hp, owed])
    | direct t n hp => refine counted_quiet ih _ ?_ ?_ _ ?_ t _ ?_ ?_ <;> first | rfl | (simp only [hp, owed])
    | directUsed t n hp => refine counted_admit ih t n _ ?_ _ ?_ ?_ ?_ <;> first | rfl | (simp only [hp, owed])
    | directTotal t n hp => refine counted_count ih t n _ ?_ _ ?_ ?_ ?_ <;> first | rfl | (simp only [hp, owed])
    | lock t n hp hl => refine counted_quiet ih _ ?_ ?_ _ ?_ t _ ?_ ?_ <;> first | rfl | (simp only [hp, owed])
    | check t n hp hu => refine counted_quiet ih _ ?_ ?_ _ ?_ t _ ?_ ?_ <;> first | rfl | (simp only [hp, owed])
    | add t n hp => refine counted_admit ih t n _ ?_ _ ?_ ?_ ?_ <;> first | rfl | (simp only [hp, owed])
    | unlock t n hp => refine counted_quiet ih _ ?_ ?_ _ ?_ t _ ?_ ?_ <;> first | rfl | (simp only [hp, owed])
    | addTotal t n hp => refine counted_count ih t n _ ?_ _ ?_ ?_ ?_ <;> first | rfl | (simp only [hp, owed])
    | out t n hp => refine counted_quiet ih _ ?_ ?_ _ ?_ t _ ?_ ?_ <;> first | rfl | (simp only [hp, owed])
    | setCall t v hp => refine counted_quiet ih _ ?_ ?_ _ ?_ t _ ?_ ?_ <;> first | rfl | (simp only [hp, owed])
    | setLock t v hp hl => refine counted_quiet ih _ ?_ ?_ _ ?_ t _ ?_ ?_ <;> first | rfl | (simp only [hp, owed])
    | setStore t v hp => refine counted_quiet ih _ ?_ ?_ _ ?_ t _ ?_ ?_ <;> first | rfl | (simp only [hp, owed])
    | setUnlock t hp => refine counted_quiet ih _ ?_ ?_ _ ?_ t _ ?_ ?_ <;> first | rfl | (simp only [hp, owed])
    | tick => exact ⟨by rw [counts_append]; simpa [counts] using ih.total, fun t => by rw [admits_append, counts_append]; simpa [counts, admits] using ih.each t⟩

theorem perm_of_threads (xs ys : List (Nat × Nat)) (h : ∀ t, ofThread t xs = ofThread t ys) : xs.Perm ys := by
  rw [List.perm_iff_count]
  intro a
  have h1 : ∀ zs : List (Nat × Nat), zs.count a = (ofThread a.1 zs).count a := by
    intro zs
    unfold ofThread
    rw [List.count_filter (by simp)]
  rw [h1 xs, h1 ys, h a.1]

/-- the writes handed to the writer, with their goroutines -/
def writes : List Label → List (Nat × Nat)
  | [] => []
  | .written t n :: ls => (t, n) :: writes ls
  | _ :: ls => writes ls

theorem writes_append (a b : List Label) : writes (a ++ b) = writes a ++ writes b := by
  induction a with
  | nil => rfl
  | cons l a ih => cases l <;> simp [writes, ih]

/-- admitted and not yet written -/
def due (t : Nat) : Pc → List (Nat × Nat)
  | .unlock n | .addTotal n | .out n => [(t, n)]
  | _ => []

/-- written and not yet admitted -/
def early (t : Nat) : Pc → List (Nat × Nat)
  | .directUsed n => [(t, n)]
  | _ => []

theorem written_keep {s : State} {ls : List Label} (h : ∀ t, ofThread t (admits ls) ++ early t (s.pcs t) = ofThread t (writes ls) ++ due t (s.pcs t)) (l : Label)
    (s' : State) (t : Nat) (pc : Pc) (hp : s'.pcs = s.pcs) (hother : ∀ u, u ≠ t → ofThread u (admits [l]) = [] ∧ ofThread u (writes [l]) = [])
    (ht : ofThread t (admits ls) ++ early t (s.pcs t) = ofThread t (writes ls) ++ due t (s.pcs t) →
      ofThread t (admits ls) ++ (ofThread t (admits [l]) ++ early t pc) = ofThread t (writes ls) ++ (ofThread t (writes [l]) ++ due t pc)) :
    ∀ u, ofThread u (admits (ls ++ [l])) ++ early u ((s'.go t pc).pcs u) = ofThread u (writes (ls ++ [l])) ++ due u ((s'.go t pc).pcs u) := by
  intro u
  rw [admits_append, writes_append, ofThread_append, ofThread_append, go_pcs, List.append_assoc, List.append_assoc]
  by_cases hu : u = t
  · subst hu
    rw [if_pos rfl]
    exact ht (h u)
  · rw [if_neg hu, (hother u hu).1, (hother u hu).2, hp, List.nil_append, List.nil_append]
    exact h u

theorem written_run {r : Int} {s : State} {ls : List Label} (h : Run (init r) ls s) :
    ∀ t, ofThread t (admits ls) ++ early t (s.pcs t) = ofThread t (writes ls) ++ due t (s.pcs t) := by
  induction h with
  | nil => exact fun t => rfl
  | snoc s1 s2 ls l hr hs ih =>
    have quiet : ∀ u : Nat, ofThread u (admits [Label.tau]) = [] ∧ ofThread u (writes [Label.tau]) = [] := fun u => ⟨rfl, rfl⟩
    cases hs with
    | call t n hp => refine written_keep ih _ _ t _ rfl (fun u hu => quiet u) ?_; rw [hp]; exact id
    | unlimited t n hp hr => refine written_keep ih _ _ t _ rfl (fun u hu => quiet u) ?_; rw [hp]; exact id
    | limited t n hp hr => refine written_keep ih _ _ t _ rfl (fun u hu => quiet u) ?_; rw [hp]; exact id
    | direct t n hp =>
      refine written_keep ih _ _ t _ rfl (fun u hu => ⟨rfl, by simp [writes, ofThread, Ne.symm hu]⟩) ?_
      rw [hp]; simp [writes, admits, ofThread, due, early]
    | directUsed t n hp =>
      refine written_keep ih _ _ t _ rfl (fun u hu => ⟨by simp [admits, ofThread, Ne.symm hu], rfl⟩) ?_
      rw [hp]; simp [writes, admits, ofThread, due, early]
    | directTotal t n hp => refine written_keep ih _ _ t _ rfl (fun u hu => ⟨rfl, rfl⟩) ?_; rw [hp]; exact id
    | lock t n hp hl => refine written_keep ih _ _ t _ rfl (fun u hu => quiet u) ?_; rw [hp]; exact id
    | check t n hp hu => refine written_keep ih _ _ t _ rfl (fun u hu => quiet u) ?_; rw [hp]; exact id
    | add t n hp =>
      refine written_keep ih _ _ t _ rfl (fun u hu => ⟨by simp [admits, ofThread, Ne.symm hu], rfl⟩) ?_
      rw [hp]; simp [writes, admits, ofThread, due, early]
    | unlock t n hp => refine written_keep ih _ _ t _ rfl (fun u hu => quiet u) ?_; rw [hp]; exact id
    | addTotal t n hp => refine written_keep ih _ _ t _ rfl (fun u hu => ⟨rfl, rfl⟩) ?_; rw [hp]; exact id
    | out t n hp =>
      refine written_keep ih _ _ t _ rfl (fun u hu => ⟨rfl, by simp [writes, ofThread, Ne.symm hu]⟩) ?_
      rw [hp]; simp [writes, admits, ofThread, due, early]
    | setCall t v hp => refine written_keep ih _ _ t _ rfl (fun u hu => quiet u) ?_; rw [hp]; exact id
    | setLock t v hp hl => refine written_keep ih _ _ t _ rfl (fun u hu => quiet u) ?_; rw [hp]; exact id
    | setStore t v hp => refine written_keep ih _ _ t _ rfl (fun u hu => ⟨rfl, rfl⟩) ?_; rw [hp]; exact id
    | setUnlock t hp => refine written_keep ih _ _ t _ rfl (fun u hu => quiet u) ?_; rw [hp]; exact id
    | tick => exact fun t => by rw [admits_append, writes_append]; simpa [writes, admits] using ih t

/-- when no call is in progress, exactly the writes that were admitted have been handed to the writer -/
theorem written_idle (r : Int) (ls : List Label) (s : State) (h : Run (init r) ls s) (hidle : ∀ t, s.pcs t = .idle) : (writes ls).Perm (admits ls) := by
  apply perm_of_threads
  intro t
  have := written_run h t
  rw [hidle t] at this
  simpa [early, due] using this.symm

theorem writes_sizes (ls : List Label) : (writes ls).map Prod.snd = written ls := by
  induction ls with
  | nil => rfl
  | cons l a ih => cases l <;> simp [writes, written, ih]

/-- **C54**, the totals: whenever no call is in progress, the writes that were handed to the writer are those that were admitted, and the total
counter is the sum of their sizes (modulo 2^64), in every schedule, whatever the limits were. -/
theorem C54_total (r : Int) (ls : List Label) (s : State) (h : Run (init r) ls s) (hidle : ∀ t, s.pcs t = .idle) :
    s.total = wrap64 ((admitted ls).sum : Nat) ∧ (written ls).Perm (admitted ls) := by
  have hc := counted_run h
  have hp : (admits ls).Perm (counts ls) := by
    apply perm_of_threads
    intro t
    rw [hc.each t, hidle t]
    simp [owed]
  refine ⟨by rw [hc.total, ← admits_sizes, (hp.map Prod.snd).sum_nat], ?_⟩
  rw [← writes_sizes, ← admits_sizes]
  exact (written_idle r ls s h hidle).map _

/-- two calls that are finished -/
example : ∃ ls s, Run (init (4 : Nat)) ls s ∧ (∀ t, s.pcs t = .idle) ∧ s.total = 8 := by
  refine ⟨_, _, .step (.call _ 0 3 rfl) <| .step (.limited _ 0 3 rfl (by decide)) <| .step (.lock _ 0 3 rfl rfl) <| .step (.check _ 0 3 rfl (by decide)) <|
    .step (.add _ 0 3 rfl) <| .step (.unlock _ 0 3 rfl) <| .step (.addTotal _ 0 3 rfl) <| .step (.out _ 0 3 rfl) <|
    .step (.setCall _ 1 (-7) rfl) <| .step (.setLock _ 1 (-1) rfl rfl) <| .step (.setStore _ 1 (-1) rfl) <| .step (.setUnlock _ 1 rfl) <|
    .step (.call _ 1 5 rfl) <| .step (.unlimited _ 1 5 rfl rfl) <| .step (.direct _ 1 5 rfl) <| .step (.directUsed _ 1 5 rfl) <| .step (.directTotal _ 1 5 rfl) <| .nil _, ?_, by decide⟩
  intro t
  simp only [go_pcs, init]
  split
  · rfl
  · split <;> first | rfl | (split <;> first | rfl | simp_all)

end Verif.RateLimit
