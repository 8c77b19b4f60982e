import Verif.Model.Listener
/-
Property C80: the listener goes on accepting connections, and its list of peer handlers is complete.
-/
set_option autoImplicit false

namespace Verif.Listener
open Verif.Lts

/-- in the middle of the append -/
def Mid : Phase → Prop
  | .loaded _ _ _ | .wroteCap _ _ | .room _ _ | .wroteLen _ _ => True
  | _ => False

/-- the connection's handler is in use or was -/
def Served (p : Phase) : Prop := p = .looping ∨ p = .ended

/-- a step at whose end at most one goroutine is in the middle of the append -/
def StepAlone (limit : Nat) (grow : Nat → Nat) (σ σ' : State) : Prop :=
  Step limit grow σ σ' ∧ ∀ (i j : Nat) (p q : Phase), σ'.phase[i]? = some p → σ'.phase[j]? = some q → Mid p → Mid q → i = j

/-- the list as it is read: the first `len` elements of the array `ptr` -/
def listed (σ : State) : List (Option Nat) := σ.array.take σ.len

/-- what holds of the words of the slice: at rest, and in the middle of the append of a connection -/
def Quiet (σ : State) : Prop :=
  ∃ a, σ.mem[σ.ptr]? = some a ∧ a.length = σ.cap ∧ σ.len ≤ σ.cap ∧ a.take σ.len = σ.order.map some ∧ σ.len = σ.order.length

def MidInv (σ : State) : Phase → Prop
  | .loaded p l c => p = σ.ptr ∧ l = σ.len ∧ c = σ.cap ∧ Quiet σ
  | .wroteCap p l => l = σ.len ∧ l < σ.cap ∧ l = σ.order.length ∧ (∃ a, σ.mem[σ.ptr]? = some a ∧ a.take l = σ.order.map some) ∧
      ∃ a, σ.mem[p]? = some a ∧ a.length = σ.cap ∧ a.take l = σ.order.map some
  | .room p l => p = σ.ptr ∧ l = σ.len ∧ l < σ.cap ∧ Quiet σ
  | .wroteLen p l => p = σ.ptr ∧ σ.len = l + 1 ∧ l < σ.cap ∧ l = σ.order.length ∧ ∃ a, σ.mem[σ.ptr]? = some a ∧ a.length = σ.cap ∧ a.take l = σ.order.map some
  | _ => False

structure Inv (σ : State) : Prop where
  sane : σ.corrupted = false
  mem : ∀ i, i ∈ σ.order ↔ ∃ p, σ.phase[i]? = some p ∧ Served p
  nodup : σ.order.Nodup
  mid : (∀ (j : Nat) (p : Phase), σ.phase[j]? = some p → ¬ Mid p) ∧ Quiet σ ∨
    ∃ (i : Nat) (p : Phase), σ.phase[i]? = some p ∧ Mid p ∧ (∀ (j : Nat) (q : Phase), σ.phase[j]? = some q → Mid q → j = i) ∧ MidInv σ p

theorem phase_go (σ : State) (i : Nat) (p q : Phase) (h : σ.phase[i]? = some q) (j : Nat) : (σ.go i p).phase[j]? = if j = i then some p else σ.phase[j]? := by
  have hl : i < σ.phase.length := (List.getElem?_eq_some_iff.mp h).1
  simp only [State.go, List.getElem?_set]
  by_cases hj : j = i
  · subst hj; simp [hl]
  · rw [if_neg (Ne.symm hj), if_neg hj]

theorem mid_dec (p : Phase) : Mid p ∨ ¬ Mid p := by cases p <;> simp [Mid]

theorem take_mem {a : List (Option Nat)} {n : Nat} {o : List Nat} (h : a.take n = o.map some) {i : Nat} (hi : i ∈ o) : some i ∈ a :=
  List.mem_of_mem_take (h ▸ List.mem_map_of_mem hi)

theorem mem_array {σ : State} (h : Inv σ) {i : Nat} (hi : i ∈ σ.order) : some i ∈ σ.array := by
  have key : ∃ a n, σ.mem[σ.ptr]? = some a ∧ a.take n = σ.order.map some := by
    rcases h.mid with ⟨-, a, h1, -, -, h4, -⟩ | ⟨j, p, -, -, -, hm⟩
    · exact ⟨a, _, h1, h4⟩
    · cases p with
      | loaded p l c => obtain ⟨-, -, -, a, h1, -, -, h4, -⟩ := hm; exact ⟨a, _, h1, h4⟩
      | wroteCap p l => obtain ⟨-, -, -, ⟨a, h1, h4⟩, -⟩ := hm; exact ⟨a, _, h1, h4⟩
      | room p l => obtain ⟨-, -, -, a, h1, -, -, h4, -⟩ := hm; exact ⟨a, _, h1, h4⟩
      | wroteLen p l => obtain ⟨-, -, -, -, a, h1, -, h4⟩ := hm; exact ⟨a, _, h1, h4⟩
      | _ => exact hm.elim
  obtain ⟨a, n, h1, h2⟩ := key
  simp only [State.array, h1, Option.getD_some]
  exact take_mem h2 hi

/-- a change of phase outside the append -/
theorem inv_go {σ : State} (h : Inv σ) (i : Nat) (p q : Phase) (hi : σ.phase[i]? = some q) (hq : ¬ Mid q) (hp : ¬ Mid p) (hs : Served q ↔ Served p) :
    Inv (σ.go i p) := by
  refine ⟨h.sane, fun j => ?_, h.nodup, ?_⟩
  · refine (h.mem j).trans ?_
    rw [phase_go σ i p q hi j]
    by_cases hj : j = i
    · subst hj
      simp [hi, hs]
    · simp [hj]
  · rcases h.mid with ⟨h1, h2⟩ | ⟨k, r, h1, h2, h3, h4⟩
    · refine .inl ⟨fun j r hr => ?_, h2⟩
      rw [phase_go σ i p q hi j] at hr
      split at hr
      · cases hr; exact hp
      · exact h1 j r hr
    · have hk : k ≠ i := fun e => by subst e; rw [h1] at hi; cases hi; exact hq h2
      refine .inr ⟨k, r, ?_, h2, fun j s hj hs => ?_, ?_⟩
      · rw [phase_go σ i p q hi k, if_neg hk]; exact h1
      · rw [phase_go σ i p q hi j] at hj
        split at hj
        · cases hj; exact absurd hs hp
        · exact h3 j s hj hs
      · cases r <;> exact h4

/-- a step of the append of the connection that is in its middle -/
theorem inv_mid {σ σ' : State} (h : Inv σ) (i : Nat) (p q : Phase) (hi : σ.phase[i]? = some q) (hq : Mid q) (hp : Mid p) (e1 : σ'.phase = (σ.go i p).phase)
    (e2 : σ'.order = σ.order) (e3 : σ'.corrupted = σ.corrupted) (hm : MidInv σ q → MidInv σ' p) : Inv σ' := by
  have hg := phase_go σ i p q hi
  refine ⟨e3 ▸ h.sane, fun j => ?_, e2 ▸ h.nodup, ?_⟩
  · rw [e2, e1, hg j]
    refine (h.mem j).trans ?_
    by_cases hj : j = i
    · subst hj
      have n1 : ¬ Served q := by rintro (e | e) <;> (subst e; exact hq)
      have n2 : ¬ Served p := by rintro (e | e) <;> (subst e; exact hp)
      simp [hi, n1, n2]
    · simp [hj]
  · rcases h.mid with ⟨h1, -⟩ | ⟨k, r, h1, h2, h3, h4⟩
    · exact absurd hq (h1 i q hi)
    · have hk : i = k := h3 i q hi hq
      subst hk
      rw [hi] at h1; cases h1
      refine .inr ⟨i, p, ?_, hp, fun j s hj hs => ?_, hm h4⟩
      · rw [e1, hg i, if_pos rfl]
      · rw [e1, hg j] at hj
        split at hj
        · assumption
        · exact h3 j s hj hs

theorem inv_step (limit : Nat) (grow : Nat → Nat) (hg : ∀ n, n < grow n) {σ σ' : State} (h : Inv σ) (hs : StepAlone limit grow σ σ') : Inv σ' := by
  obtain ⟨hs, ha⟩ := hs
  cases hs with
  | accept hc hl =>
    have hp : ∀ (j : Nat) (p : Phase), (σ.phase ++ [Phase.shaking])[j]? = some p → σ.phase[j]? = some p ∨ p = .shaking := by
      intro j p hj
      rw [List.getElem?_append] at hj
      split at hj
      · exact .inl hj
      · right
        cases hk : j - σ.phase.length with
        | zero => rw [hk] at hj; simp at hj; exact hj.symm
        | succ n => rw [hk] at hj; simp at hj
    have hp' : ∀ (j : Nat) (p : Phase), σ.phase[j]? = some p → (σ.phase ++ [Phase.shaking])[j]? = some p := by
      intro j p hj
      rw [List.getElem?_append_left (List.getElem?_eq_some_iff.mp hj).1]; exact hj
    refine ⟨h.sane, fun j => (h.mem j).trans ?_, h.nodup, ?_⟩
    · constructor
      · rintro ⟨p, h1, h2⟩; exact ⟨p, hp' j p h1, h2⟩
      · rintro ⟨p, h1, h2⟩
        rcases hp j p h1 with h1 | rfl
        · exact ⟨p, h1, h2⟩
        · rcases h2 with h2 | h2 <;> cases h2
    · rcases h.mid with ⟨h1, h2⟩ | ⟨k, r, h1, h2, h3, h4⟩
      · refine .inl ⟨fun j p hj => ?_, h2⟩
        rcases hp j p hj with hj | rfl
        · exact h1 j p hj
        · exact id
      · refine .inr ⟨k, r, hp' k r h1, h2, fun j s hj hm => ?_, ?_⟩
        · rcases hp j s hj with hj | rfl
          · exact h3 j s hj hm
          · exact hm.elim
        · cases r <;> exact h4
  | acceptFails hc hl =>
    refine ⟨h.sane, h.mem, h.nodup, ?_⟩
    rcases h.mid with h1 | ⟨k, r, h1, h2, h3, h4⟩
    · exact .inl h1
    · refine .inr ⟨k, r, h1, h2, h3, ?_⟩
      cases r <;> exact h4
  | bad i hc hi => exact inv_go h i _ _ hi id id (by simp [Served])
  | fail i hc hi => exact inv_go h i _ _ hi id id (by simp [Served])
  | good i hc hi => exact inv_go h i _ _ hi id id (by simp [Served])
  | load i hc hi =>
    have hg := phase_go σ i (.loaded σ.ptr σ.len σ.cap) .ready hi
    have hii : (σ.go i (.loaded σ.ptr σ.len σ.cap)).phase[i]? = some (.loaded σ.ptr σ.len σ.cap) := by rw [hg i, if_pos rfl]
    refine ⟨h.sane, fun j => ?_, h.nodup, ?_⟩
    · refine (h.mem j).trans ?_
      rw [hg j]
      by_cases hj : j = i
      · subst hj; simp [hi, Served]
      · simp [hj]
    · refine .inr ⟨i, _, hii, trivial, fun j q hj hm => ha j i q _ hj hii hm trivial, rfl, rfl, rfl, ?_⟩
      rcases h.mid with ⟨-, h2⟩ | ⟨k, r, h1, h2, -, -⟩
      · exact h2
      · have hk : k ≠ i := fun e => by subst e; rw [h1] at hi; cases hi; exact h2
        exact absurd (ha k i r _ (by rw [hg k, if_neg hk]; exact h1) hii h2 trivial) hk
  | fits i p l c hc hi hl =>
    refine inv_mid h i (.room p l) _ hi trivial trivial rfl rfl rfl ?_
    rintro ⟨rfl, rfl, rfl, h4⟩
    exact ⟨rfl, rfl, hl, h4⟩
  | grows i p l c a hc hi hl hm =>
    refine inv_mid h i (.wroteCap σ.mem.length l) _ hi trivial trivial rfl rfl rfl ?_
    rintro ⟨rfl, rfl, rfl, b, h1, h2, h3, h4, h5⟩
    rw [hm] at h1; cases h1
    have hlc : σ.len = σ.cap := by omega
    have hgc := hg σ.cap
    refine ⟨rfl, ?_, h5, ⟨a, ?_, h4⟩, _, List.getElem?_concat_length, ?_, ?_⟩
    · show σ.len < grow σ.cap
      omega
    · show (σ.mem ++ _)[σ.ptr]? = some a
      rw [List.getElem?_append_left (List.getElem?_eq_some_iff.mp hm).1]; exact hm
    · show _ = grow σ.cap
      simp only [List.length_append, List.length_take, List.length_replicate]
      omega
    · have : (a.take σ.len).length = σ.len := by rw [List.length_take]; omega
      rw [List.take_append_of_le_length (by omega), List.take_take, Nat.min_self]
      exact h4
  | setPtr i p l hc hi =>
    refine inv_mid h i (.room p l) _ hi trivial trivial rfl rfl rfl ?_
    rintro ⟨rfl, h2, h3, -, a, h4, h5, h6⟩
    exact ⟨rfl, rfl, h2, a, h4, h5, Nat.le_of_lt h2, h6, h3⟩
  | setLen i p l hc hi =>
    refine inv_mid h i (.wroteLen p l) _ hi trivial trivial rfl rfl rfl ?_
    rintro ⟨rfl, rfl, h3, a, h4, h5, h6, h7, h8⟩
    exact ⟨rfl, rfl, h3, h8, a, h4, h5, h7⟩
  | setElem i p l hc hi =>
    have hg := phase_go σ i .looping (.wroteLen p l) hi
    rcases h.mid with ⟨h1, -⟩ | ⟨k, r, h1, h2, h3, h4⟩
    · exact absurd trivial (h1 i _ hi)
    have hk : i = k := h3 i _ hi trivial
    subst hk
    rw [hi] at h1; cases h1
    obtain ⟨rfl, k2, k3, k4, a, k5, k6, k7⟩ := h4
    have hst : (σ.go i .looping).store σ.ptr l i =
        { σ.go i .looping with mem := σ.mem.set σ.ptr (a.set l (some i)), order := σ.order ++ [i] } := by
      unfold State.store
      rw [show (σ.go i .looping).mem[σ.ptr]? = some a from k5]
      simp only
      rw [if_pos (by omega)]
      rfl
    rw [hst]
    have hni : i ∉ σ.order := fun hm => by
      obtain ⟨p, e1, e2⟩ := (h.mem i).mp hm
      rw [hi] at e1; cases e1
      rcases e2 with e | e <;> cases e
    refine ⟨h.sane, fun j => ?_, ?_, .inl ⟨fun j q hj => ?_, ?_⟩⟩
    · show j ∈ σ.order ++ [i] ↔ ∃ p, (σ.go i .looping).phase[j]? = some p ∧ Served p
      rw [hg j]
      by_cases hj : j = i
      · subst hj; simp [Served]
      · simp only [List.mem_append, List.mem_singleton, hj, or_false, if_false]
        exact h.mem j
    · show (σ.order ++ [i]).Nodup
      rw [List.nodup_append]
      exact ⟨h.nodup, by simp, fun x hx y hy e => by simp at hy; subst hy; subst e; exact hni hx⟩
    · have hj : (σ.go i .looping).phase[j]? = some q := hj
      rw [hg j] at hj
      split at hj
      · cases hj; exact id
      · rename_i hne
        exact fun hm => hne (h3 j q hj hm)
    · have hlt : σ.ptr < σ.mem.length := (List.getElem?_eq_some_iff.mp k5).1
      refine ⟨a.set l (some i), ?_, ?_, ?_, ?_, ?_⟩
      · show (σ.mem.set σ.ptr _)[σ.ptr]? = _
        rw [List.getElem?_set]; simp [hlt]
      · show (a.set l (some i)).length = σ.cap
        rw [List.length_set]; exact k6
      · show σ.len ≤ σ.cap
        omega
      · show (a.set l (some i)).take σ.len = (σ.order ++ [i]).map some
        rw [k2, List.map_append, ← k7]
        apply List.ext_getElem?
        intro n
        simp only [List.getElem?_take, List.getElem?_append, List.getElem?_set, List.length_take]
        have : min l a.length = l := by omega
        rw [this]
        by_cases hn : n < l
        · rw [if_pos (by omega), if_neg (by omega), if_pos hn, if_pos hn]
        · rw [if_neg hn]
          by_cases he : n = l
          · subst he; simp [show n < a.length by omega]
          · rw [if_neg (by omega), List.getElem?_eq_none (by simp; omega)]
      · show σ.len = (σ.order ++ [i]).length
        simp; omega
  | ends i hc hi => exact inv_go h i _ _ hi id id (by simp [Served])
  | finalize i hc hi hr =>
    rcases hi with hi | hi
    · exact inv_go h i _ _ hi id id (by simp [Served])
    · exact absurd (mem_array h ((h.mem i).mpr ⟨_, hi, .inr rfl⟩)) hr

theorem inv_init : Inv init :=
  ⟨rfl, fun i => by simp [init], List.nodup_nil, .inl ⟨fun j p hj => by simp [init] at hj, List.replicate 4 none, rfl, rfl, by decide, rfl, rfl⟩⟩

theorem inv_reach (limit : Nat) (grow : Nat → Nat) (hg : ∀ n, n < grow n) {σ : State} (h : Reach (StepAlone limit grow) init σ) : Inv σ := by
  induction h with
  | refl => exact inv_init
  | tail s' s'' _ hs ih => exact inv_step limit grow hg ih hs

/-- **C80** (partial: as long as no two goroutines are in the middle of the append at the same time).  No memory outside of the list's array is written, and
whenever no append is under way, the list contains exactly the handlers of the connections served so far, each once. -/
theorem C80_complete_partial (limit : Nat) (grow : Nat → Nat) (hg : ∀ n, n < grow n) (σ : State) (h : Reach (StepAlone limit grow) init σ) :
    σ.corrupted = false ∧
    ((∀ (i : Nat) (p : Phase), σ.phase[i]? = some p → ¬ Mid p) →
      ∃ o : List Nat, listed σ = o.map some ∧ o.Nodup ∧ ∀ i, i ∈ o ↔ ∃ p, σ.phase[i]? = some p ∧ Served p) := by
  have hI := inv_reach limit grow hg h
  refine ⟨hI.sane, fun hq => ⟨σ.order, ?_, hI.nodup, hI.mem⟩⟩
  rcases hI.mid with ⟨-, a, h1, -, -, h4, -⟩ | ⟨k, r, h1, h2, -, -⟩
  · simp only [listed, State.array, h1, Option.getD_some]; exact h4
  · exact absurd h2 (hq k r h1)

/-- **C80** refuted: a peer that was served once holds a descriptor for ever, whether it has left or not. -/
theorem C80_refuted_leak (limit : Nat) (grow : Nat → Nat) (hg : ∀ n, n < grow n) (σ σ' : State) (h : Reach (StepAlone limit grow) init σ)
    (h' : Reach (StepAlone limit grow) σ σ') (i : Nat) (p : Phase) (hi : σ.phase[i]? = some p) (hp : Served p) :
    ∃ p', σ'.phase[i]? = some p' ∧ Served p' := by
  have hI := inv_reach limit grow hg h
  have key : i ∈ σ'.order ∧ Inv σ' := by
    induction h' with
    | refl => exact ⟨(hI.mem i).mpr ⟨p, hi, hp⟩, hI⟩
    | tail s t _ hs ih =>
      refine ⟨?_, inv_step limit grow hg ih.2 hs⟩
      obtain ⟨hs, -⟩ := hs
      cases hs with
      | setElem j p l hc hj =>
        unfold State.store
        split
        · split
          · exact List.mem_append_left _ ih.1
          · exact ih.1
        · exact ih.1
      | _ => exact ih.1
  exact (key.2.mem i).mp key.1

theorem nodup_le (l m : List Nat) (hn : l.Nodup) (h : ∀ k ∈ l, k ∈ m) : l.length ≤ m.length := by
  induction l generalizing m with
  | nil => exact Nat.zero_le _
  | cons x xs ih =>
    rw [List.nodup_cons] at hn
    have hx : x ∈ m := h x (List.mem_cons_self ..)
    have := ih (m.erase x) hn.2 (fun k hk => (List.mem_erase_of_ne (fun (e : k = x) => hn.1 (e ▸ hk))).mpr (h k (List.mem_cons_of_mem _ hk)))
    rw [List.length_erase_of_mem hx] at this
    have := List.length_pos_of_mem hx
    rw [List.length_cons]; omega

theorem open_le (limit : Nat) (grow : Nat → Nat) {σ : State} (h : Reach (Step limit grow) init σ) : σ.openConns ≤ limit := by
  have set_le : ∀ (ps : List Phase) (i : Nat) (p q : Phase), ps[i]? = some q → q ≠ .closed →
      ((ps.set i p).filter (· ≠ .closed)).length ≤ (ps.filter (· ≠ .closed)).length := by
    intro ps
    induction ps with
    | nil => intro i p q hi; simp at hi
    | cons x xs ih =>
      intro i p q hi hq
      cases i with
      | zero =>
        simp at hi; subst hi
        simp only [List.set_cons_zero, List.filter_cons]
        by_cases hp : p = .closed <;> simp [hp, hq]
      | succ n =>
        have := ih n p q (by simpa using hi) hq
        simp only [List.set_cons_succ, List.filter_cons]
        split
        · simp only [List.length_cons]; omega
        · exact this
  induction h with
  | refl => exact Nat.zero_le _
  | tail s t _ hs ih =>
    have hgo : ∀ (i : Nat) (p q : Phase), s.phase[i]? = some q → q ≠ .closed → (s.go i p).openConns ≤ limit := fun i p q h1 h2 =>
      Nat.le_trans (set_le s.phase i p q h1 h2) ih
    cases hs with
    | accept hc hl =>
      have e : (s.phase ++ [Phase.shaking]).filter (· ≠ .closed) = s.phase.filter (· ≠ .closed) ++ [.shaking] := by
        rw [List.filter_append]; rfl
      show ((s.phase ++ [Phase.shaking]).filter (· ≠ .closed)).length ≤ limit
      rw [e, List.length_append]
      exact hl
    | acceptFails hc hl => exact ih
    | bad i hc hi => exact hgo i _ _ hi (by simp)
    | fail i hc hi => exact hgo i _ _ hi (by simp)
    | good i hc hi => exact hgo i _ _ hi (by simp)
    | load i hc hi => exact hgo i _ _ hi (by simp)
    | fits i p l c hc hi hl => exact hgo i _ _ hi (by simp)
    | grows i p l c a hc hi hl hm => exact hgo i (.wroteCap s.mem.length l) _ hi (by simp)
    | setPtr i p l hc hi => exact hgo i (.room p l) _ hi (by simp)
    | setLen i p l hc hi => exact hgo i (.wroteLen p l) _ hi (by simp)
    | setElem i p l hc hi =>
      have := hgo i .looping _ hi (by simp)
      unfold State.store
      split
      · split <;> exact this
      · exact this
    | ends i hc hi => exact hgo i _ _ hi (by simp)
    | finalize i hc hi hr =>
      rcases hi with hi | hi
      · exact hgo i _ _ hi (by simp)
      · exact hgo i _ _ hi (by simp)

theorem alone_reach {limit : Nat} {grow : Nat → Nat} {σ σ' : State} (h : Reach (StepAlone limit grow) σ σ') : Reach (Step limit grow) σ σ' := by
  induction h with
  | refl => exact .refl
  | tail s t _ hs ih => exact .tail s t ih hs.1

/-- **C80** refuted: in the whole life of the process, no more than `limit` incoming peers are served; once that many were served, no connection is accepted
any more, and the next attempt ends the process. -/
theorem C80_refuted_limit (limit : Nat) (grow : Nat → Nat) (σ : State) (h : Reach (StepAlone limit grow) init σ)
    (ps : List Nat) (hn : ps.Nodup) (hp : ∀ i ∈ ps, ∃ p, σ.phase[i]? = some p ∧ Served p) :
    ps.length ≤ limit ∧
    (ps.length = limit → σ.crashed = false → (∀ σ', Step limit grow σ σ' → σ'.phase.length = σ.phase.length) ∧ Step limit grow σ { σ with crashed := true }) := by
  have hle := open_le limit grow (alone_reach h)
  have hcount : ps.length ≤ σ.openConns := by
    have hsub : ∀ i ∈ ps, i ∈ (List.range σ.phase.length).filter (fun i => decide (σ.phase[i]? ≠ some .closed)) := by
      intro i hi
      obtain ⟨p, h1, h2⟩ := hp i hi
      simp only [List.mem_filter, List.mem_range, decide_eq_true_eq]
      refine ⟨(List.getElem?_eq_some_iff.mp h1).1, fun e => ?_⟩
      rw [h1] at e; cases e
      rcases h2 with e | e <;> cases e
    have h1 : ps.length ≤ ((List.range σ.phase.length).filter (fun i => decide (σ.phase[i]? ≠ some .closed))).length :=
      nodup_le _ _ hn hsub
    have h2 : ∀ qs : List Phase, ((List.range qs.length).filter (fun i => decide (qs[i]? ≠ some .closed))).length = (qs.filter (· ≠ .closed)).length := by
      intro qs
      induction qs with
      | nil => rfl
      | cons q qs ih =>
        rw [List.length_cons, List.range_succ_eq_map, List.filter_cons, List.filter_map, List.filter_cons]
        have e : ((fun i => decide ((q :: qs)[i]? ≠ some Phase.closed)) ∘ Nat.succ) = fun i => decide (qs[i]? ≠ some Phase.closed) := by
          funext i; simp
        rw [e]
        by_cases hq : q = .closed
        · simp [hq]; simpa using ih
        · simp [hq]; simpa using ih
    rw [h2] at h1
    exact h1
  refine ⟨Nat.le_trans hcount hle, fun he hc => ⟨fun σ' hs => ?_, .acceptFails hc (by omega)⟩⟩
  cases hs with
  | accept hc hl => omega
  | setElem i p l hc hi =>
    unfold State.store
    split
    · split <;> simp [State.go]
    · simp [State.go]
  | _ => simp [State.go]

/-- **C80** refuted: and then it is over for all peers, those that are being served and those in their handshake. -/
theorem C80_refuted_over (limit : Nat) (grow : Nat → Nat) (σ : State) (h : σ.crashed = true) : Stuck (Step limit grow) σ := by
  intro σ' hs
  cases hs <;> simp_all

example : ∃ σ, Reach (Step 1 (· + 1)) init σ ∧ σ.crashed = true ∧ σ.phase[0]? = some .shaking :=
  ⟨_, .tail _ _ (.tail _ _ .refl (.accept rfl (by decide))) (.acceptFails rfl (by decide)), rfl, rfl⟩

/-- a step at whose end at most one peer is there: every other connection has ended -/
def StepSingle (limit : Nat) (grow : Nat → Nat) (σ σ' : State) : Prop :=
  Step limit grow σ σ' ∧ ∀ (i j : Nat) (p q : Phase), σ'.phase[i]? = some p → σ'.phase[j]? = some q → p ≠ .ended → q ≠ .ended → i = j

theorem single_alone {limit : Nat} {grow : Nat → Nat} {σ σ' : State} (h : StepSingle limit grow σ σ') : StepAlone limit grow σ σ' :=
  ⟨h.1, fun i j p q h1 h2 h3 h4 => h.2 i j p q h1 h2 (fun e => by subst e; exact h3) (fun e => by subst e; exact h4)⟩

theorem reach_trans {S : Type} {R : S → S → Prop} {a b c : S} (h : Reach R a b) (h' : Reach R b c) : Reach R a c := by
  induction h' with
  | refl => exact h
  | tail s t _ hs ih => exact .tail s t ih hs

/-- all connections but the last one have ended -/
theorem single_of (ps : List Phase) (p : Phase) (h : ∀ q ∈ ps, q = .ended) :
    ∀ (i j : Nat) (x y : Phase), (ps ++ [p])[i]? = some x → (ps ++ [p])[j]? = some y → x ≠ .ended → y ≠ .ended → i = j := by
  have key : ∀ (i : Nat) (x : Phase), (ps ++ [p])[i]? = some x → x ≠ .ended → i = ps.length := by
    intro i x hx hne
    rw [List.getElem?_append] at hx
    split at hx
    · exact absurd (h x (List.mem_of_getElem? hx)) hne
    · rename_i hi
      cases hk : i - ps.length with
      | zero => omega
      | succ n => rw [hk] at hx; simp at hx
  intro i j x y hx hy h1 h2
  rw [key i x hx h1, key j y hy h2]

/-- one more peer comes, is served and leaves -/
theorem serve_one (limit : Nat) (grow : Nat → Nat) (hg : ∀ n, n < grow n) (σ : State) (h : Inv σ) (hc : σ.crashed = false) (hall : ∀ q ∈ σ.phase, q = .ended)
    (hl : σ.phase.length < limit) :
    ∃ σ', Reach (StepSingle limit grow) σ σ' ∧ Inv σ' ∧ σ'.crashed = false ∧ (∀ q ∈ σ'.phase, q = .ended) ∧ σ'.phase.length = σ.phase.length + 1 := by
  have hidx : ∀ x : Phase, (σ.phase ++ [x])[σ.phase.length]? = some x := fun x => List.getElem?_concat_length
  have hset : ∀ x y : Phase, (σ.phase ++ [x]).set σ.phase.length y = σ.phase ++ [y] := fun x y => by
    rw [List.set_append_right _ _ (Nat.le_refl _)]; simp
  have hone := fun x => single_of σ.phase x hall
  have hopen : σ.openConns < limit := Nat.lt_of_le_of_lt (List.length_filter_le ..) hl
  obtain ⟨a, q1, q2, q3, q4, q5⟩ : Quiet σ := by
    rcases h.mid with ⟨-, h2⟩ | ⟨k, r, h1, h2, -, -⟩
    · exact h2
    · have := hall r (List.mem_of_getElem? h1)
      subst this; exact h2.elim
  -- the states after accept, good handshake and load
  have s1 : StepSingle limit grow σ { σ with phase := σ.phase ++ [.shaking] } := ⟨.accept hc hopen, hone _⟩
  have s2 : StepSingle limit grow { σ with phase := σ.phase ++ [.shaking] } { σ with phase := σ.phase ++ [.ready] } := by
    refine ⟨?_, hone _⟩
    have := Step.good (limit := limit) (grow := grow) (σ := { σ with phase := σ.phase ++ [.shaking] }) σ.phase.length hc (hidx _)
    simpa only [State.go, hset] using this
  have s3 : StepSingle limit grow { σ with phase := σ.phase ++ [.ready] } { σ with phase := σ.phase ++ [.loaded σ.ptr σ.len σ.cap] } := by
    refine ⟨?_, hone _⟩
    have := Step.load (limit := limit) (grow := grow) (σ := { σ with phase := σ.phase ++ [.ready] }) σ.phase.length hc (hidx _)
    simpa only [State.go, hset] using this
  have r3 : Reach (StepSingle limit grow) σ { σ with phase := σ.phase ++ [.loaded σ.ptr σ.len σ.cap] } := .tail _ _ (.tail _ _ (.tail _ _ .refl s1) s2) s3
  -- there is room, perhaps after growing
  obtain ⟨τ, p, r4, t1, t2, t3⟩ : ∃ (τ : State) (p : Nat), Reach (StepSingle limit grow) σ τ ∧ τ.phase = σ.phase ++ [.room p σ.len] ∧ τ.crashed = false ∧
      ∃ b, τ.mem[p]? = some b ∧ σ.len < b.length := by
    by_cases hr : σ.len < σ.cap
    · refine ⟨{ σ with phase := σ.phase ++ [.room σ.ptr σ.len] }, σ.ptr, .tail _ _ r3 ⟨?_, hone _⟩, rfl, hc, a, q1, by omega⟩
      have := Step.fits (limit := limit) (grow := grow) (σ := { σ with phase := σ.phase ++ [.loaded σ.ptr σ.len σ.cap] }) σ.phase.length _ _ _ hc (hidx _) hr
      simpa only [State.go, hset] using this
    · have s4 : StepSingle limit grow { σ with phase := σ.phase ++ [.loaded σ.ptr σ.len σ.cap] }
          { σ with phase := σ.phase ++ [.wroteCap σ.mem.length σ.len], mem := σ.mem ++ [a.take σ.len ++ List.replicate (grow σ.cap - σ.len) none], cap := grow σ.cap } := by
        refine ⟨?_, hone _⟩
        have := Step.grows (limit := limit) (grow := grow) (σ := { σ with phase := σ.phase ++ [.loaded σ.ptr σ.len σ.cap] }) σ.phase.length _ _ _ a hc (hidx _) hr q1
        simpa only [State.go, hset] using this
      have s5 : StepSingle limit grow
          { σ with phase := σ.phase ++ [.wroteCap σ.mem.length σ.len], mem := σ.mem ++ [a.take σ.len ++ List.replicate (grow σ.cap - σ.len) none], cap := grow σ.cap }
          { σ with phase := σ.phase ++ [.room σ.mem.length σ.len], mem := σ.mem ++ [a.take σ.len ++ List.replicate (grow σ.cap - σ.len) none], cap := grow σ.cap, ptr := σ.mem.length } := by
        refine ⟨?_, hone _⟩
        have := Step.setPtr (limit := limit) (grow := grow)
          (σ := { σ with phase := σ.phase ++ [.wroteCap σ.mem.length σ.len], mem := σ.mem ++ [a.take σ.len ++ List.replicate (grow σ.cap - σ.len) none], cap := grow σ.cap })
          σ.phase.length _ _ hc (hidx _)
        simpa only [State.go, hset] using this
      refine ⟨_, σ.mem.length, .tail _ _ (.tail _ _ r3 s4) s5, rfl, hc, _, List.getElem?_concat_length, ?_⟩
      have := hg σ.cap
      simp only [List.length_append, List.length_take, List.length_replicate]
      omega
  obtain ⟨b, b1, b2⟩ := t3
  have s6 : StepSingle limit grow τ { τ with phase := σ.phase ++ [.wroteLen p σ.len], len := σ.len + 1 } := by
    refine ⟨?_, hone _⟩
    have := Step.setLen (limit := limit) (grow := grow) (σ := τ) σ.phase.length p σ.len t2 (by rw [t1]; exact hidx _)
    simpa only [State.go, t1, hset] using this
  have s7 : StepSingle limit grow { τ with phase := σ.phase ++ [.wroteLen p σ.len], len := σ.len + 1 }
      { τ with phase := σ.phase ++ [.looping], len := σ.len + 1, mem := τ.mem.set p (b.set σ.len (some σ.phase.length)), order := τ.order ++ [σ.phase.length] } := by
    refine ⟨?_, hone _⟩
    have := Step.setElem (limit := limit) (grow := grow) (σ := { τ with phase := σ.phase ++ [.wroteLen p σ.len], len := σ.len + 1 }) σ.phase.length p σ.len t2 (hidx _)
    simpa only [State.go, State.store, hset, b1, if_pos b2] using this
  have s8 : StepSingle limit grow
      { τ with phase := σ.phase ++ [.looping], len := σ.len + 1, mem := τ.mem.set p (b.set σ.len (some σ.phase.length)), order := τ.order ++ [σ.phase.length] }
      { τ with phase := σ.phase ++ [.ended], len := σ.len + 1, mem := τ.mem.set p (b.set σ.len (some σ.phase.length)), order := τ.order ++ [σ.phase.length] } := by
    refine ⟨?_, hone _⟩
    have := Step.ends (limit := limit) (grow := grow)
      (σ := { τ with phase := σ.phase ++ [.looping], len := σ.len + 1, mem := τ.mem.set p (b.set σ.len (some σ.phase.length)), order := τ.order ++ [σ.phase.length] })
      σ.phase.length t2 (hidx _)
    simpa only [State.go, hset] using this
  have r8 := Reach.tail _ _ (.tail _ _ (.tail _ _ r4 s6) s7) s8
  refine ⟨_, r8, ?_, t2, ?_, by simp⟩
  · have : ∀ {x y : State}, Reach (StepSingle limit grow) x y → Inv x → Inv y := by
      intro x y hxy hx
      induction hxy with
      | refl => exact hx
      | tail s t _ hs ih => exact inv_step limit grow hg ih (single_alone hs)
    exact this r8 h
  · intro q hq
    simp only [List.mem_append, List.mem_singleton] at hq
    rcases hq with hq | hq
    · exact hall q hq
    · exact hq

/-- **C80** refuted: peers that come one after the other, each leaving before the next one comes, end the process, however many descriptors there are. -/
theorem C80_refuted_one_by_one (limit : Nat) (grow : Nat → Nat) (hg : ∀ n, n < grow n) :
    ∃ σ, Reach (StepSingle limit grow) init σ ∧ σ.crashed = true ∧ σ.phase = List.replicate limit .ended := by
  have key : ∀ n, n ≤ limit → ∃ σ, Reach (StepSingle limit grow) init σ ∧ Inv σ ∧ σ.crashed = false ∧ (∀ q ∈ σ.phase, q = .ended) ∧ σ.phase.length = n := by
    intro n
    induction n with
    | zero => exact fun _ => ⟨init, .refl, inv_init, rfl, fun q hq => by simp [init] at hq, rfl⟩
    | succ n ih =>
      intro hn
      obtain ⟨σ, h1, h2, h3, h4, h5⟩ := ih (by omega)
      obtain ⟨σ', k1, k2, k3, k4, k5⟩ := serve_one limit grow hg σ h2 h3 h4 (by omega)
      exact ⟨σ', reach_trans h1 k1, k2, k3, k4, by omega⟩
  obtain ⟨σ, h1, h2, h3, h4, h5⟩ := key limit (Nat.le_refl _)
  have h6 : σ.phase = List.replicate limit .ended := List.eq_replicate_iff.mpr ⟨h5, h4⟩
  refine ⟨{ σ with crashed := true }, .tail _ _ h1 ⟨.acceptFails h3 ?_, ?_⟩, rfl, h6⟩
  · show limit ≤ (σ.phase.filter (· ≠ .closed)).length
    rw [h6, List.filter_replicate]
    simp
  · intro i j p q hp hq hp'
    exact absurd (h4 p (List.mem_of_getElem? hp)) hp'

/-- the capacity is doubled, as `growslice` does for small slices -/
def double (n : Nat) : Nat := max 1 (2 * n)

theorem lt_double (n : Nat) : n < double n := by unfold double; omega

/-- a run of the listener given by the steps -/
theorem next {limit : Nat} {grow : Nat → Nat} {a b c : State} (h : Reach (Step limit grow) a b) (hs : Step limit grow b c) : Reach (Step limit grow) a c :=
  .tail _ _ h hs

/-- **C80** refuted: if two peers are accepted at the same time, one of their handlers is not in the list. -/
theorem C80_refuted_lost : ∃ σ, Reach (Step 100 double) init σ ∧ σ.crashed = false ∧ σ.phase = [.looping, .looping] ∧ listed σ = [some 1] := by
  have h0 : Reach (Step 100 double) init init := .refl
  have h := next h0 (.accept rfl (by decide))
  have h := next h (.accept rfl (by decide))
  have h := next h (.good 0 rfl rfl)
  have h := next h (.good 1 rfl rfl)
  have h := next h (.load 0 rfl rfl)
  have h := next h (.load 1 rfl rfl)
  have h := next h (.fits 0 _ _ _ rfl rfl (by decide))
  have h := next h (.fits 1 _ _ _ rfl rfl (by decide))
  have h := next h (.setLen 0 _ _ rfl rfl)
  have h := next h (.setElem 0 _ _ rfl rfl)
  have h := next h (.setLen 1 _ _ rfl rfl)
  have h := next h (.setElem 1 _ _ rfl rfl)
  exact ⟨_, h, rfl, rfl, rfl⟩

/-- the run of C80_refuted_memory up to four handlers in the list -/
def full : State := ⟨[.looping, .looping, .looping, .looping], 0, 4, 4, [[some 0, some 1, some 2, some 3]], false, false, [0, 1, 2, 3]⟩

theorem reach_full : Reach (Step 100 double) init full := by
  have h0 : Reach (Step 100 double) init init := .refl
  have h := next h0 (.accept rfl (by decide))
  have h := next h (.good 0 rfl rfl)
  have h := next h (.load 0 rfl rfl)
  have h := next h (.fits 0 _ _ _ rfl rfl (by decide))
  have h := next h (.setLen 0 _ _ rfl rfl)
  have h := next h (.setElem 0 _ _ rfl rfl)
  have h := next h (.accept rfl (by decide))
  have h := next h (.good 1 rfl rfl)
  have h := next h (.load 1 rfl rfl)
  have h := next h (.fits 1 _ _ _ rfl rfl (by decide))
  have h := next h (.setLen 1 _ _ rfl rfl)
  have h := next h (.setElem 1 _ _ rfl rfl)
  have h := next h (.accept rfl (by decide))
  have h := next h (.good 2 rfl rfl)
  have h := next h (.load 2 rfl rfl)
  have h := next h (.fits 2 _ _ _ rfl rfl (by decide))
  have h := next h (.setLen 2 _ _ rfl rfl)
  have h := next h (.setElem 2 _ _ rfl rfl)
  have h := next h (.accept rfl (by decide))
  have h := next h (.good 3 rfl rfl)
  have h := next h (.load 3 rfl rfl)
  have h := next h (.fits 3 _ _ _ rfl rfl (by decide))
  have h := next h (.setLen 3 _ _ rfl rfl)
  have h := next h (.setElem 3 _ _ rfl rfl)
  exact h

/-- **C80** refuted: the fifth and the sixth peer, accepted at the same time, make the process write beyond the end of an array: the sixth reads the new capacity
with the old pointer. -/
theorem C80_refuted_memory : ∃ σ, Reach (Step 100 double) init σ ∧ σ.crashed = false ∧ σ.corrupted = true := by
  have h := next reach_full (.accept rfl (by decide))
  have h := next h (.accept rfl (by decide))
  have h := next h (.good 4 rfl rfl)
  have h := next h (.good 5 rfl rfl)
  have h := next h (.load 4 rfl rfl)
  have h := next h (.grows 4 _ _ _ _ rfl rfl (by decide) rfl)
  have h := next h (.load 5 rfl rfl)
  have h := next h (.fits 5 _ _ _ rfl rfl (by decide))
  have h := next h (.setLen 5 _ _ rfl rfl)
  have h := next h (.setElem 5 _ _ rfl rfl)
  exact ⟨_, h, rfl, rfl⟩

/-- the hypotheses of C80_complete_partial, C80_refuted_leak and C80_refuted_limit are met: two peers were served, one after the other -/
example : ∃ σ, Reach (StepAlone 2 double) init σ ∧ σ.crashed = true ∧ σ.phase = [.ended, .ended] := by
  obtain ⟨σ, h1, h2, h3⟩ := C80_refuted_one_by_one 2 double lt_double
  refine ⟨σ, ?_, h2, h3⟩
  clear h2 h3
  induction h1 with
  | refl => exact .refl
  | tail s t _ hs ih => exact .tail s t ih (single_alone hs)

/-- what is in an array was put there by its own goroutine -/
theorem stored (limit : Nat) (grow : Nat → Nat) {σ : State} (h : Reach (Step limit grow) init σ) (a : List (Option Nat)) (ha : a ∈ σ.mem) (k : Nat) (hk : some k ∈ a) :
    ∃ p, σ.phase[k]? = some p ∧ (p = .looping ∨ p = .ended ∨ p = .closed) := by
  induction h generalizing a with
  | refl =>
    simp only [init, List.mem_singleton] at ha
    subst ha
    exact absurd (List.eq_of_mem_replicate hk) (by simp)
  | tail σ σ' _ hs ih =>
    have go : ∀ (i : Nat) (p q : Phase), σ.phase[i]? = some q → ¬ (q = .looping ∨ q = .ended ∨ q = .closed) ∨ (p = .looping ∨ p = .ended ∨ p = .closed) → a ∈ σ.mem →
        ∃ p', (σ.go i p).phase[k]? = some p' ∧ (p' = .looping ∨ p' = .ended ∨ p' = .closed) := by
      intro i p q hi hor hm
      obtain ⟨p', h1, h2⟩ := ih a hm hk
      rw [phase_go σ i p q hi]
      by_cases e : k = i
      · subst e
        rw [if_pos rfl]
        rw [hi] at h1
        cases h1
        exact ⟨p, rfl, hor.resolve_left (fun hn => hn h2)⟩
      · rw [if_neg e]; exact ⟨p', h1, h2⟩
    cases hs with
    | accept hc h =>
      obtain ⟨p', h1, h2⟩ := ih a ha hk
      exact ⟨p', by rw [List.getElem?_append_left (List.getElem?_eq_some_iff.mp h1).1]; exact h1, h2⟩
    | acceptFails hc h => exact ih a ha hk
    | bad i hc hi => exact go i _ _ hi (.inr (by simp)) ha
    | fail i hc hi => exact go i _ _ hi (.inl (by simp)) ha
    | good i hc hi => exact go i _ _ hi (.inl (by simp)) ha
    | load i hc hi => exact go i _ _ hi (.inl (by simp)) ha
    | fits i p l c hc hi h => exact go i _ _ hi (.inl (by simp)) ha
    | grows i p l c b hc hi h hb =>
      rcases List.mem_append.mp ha with ha | ha
      · exact go i _ _ hi (.inl (by simp)) ha
      · rw [List.mem_singleton.mp ha] at hk
        rcases List.mem_append.mp hk with hk | hk
        · obtain ⟨p', h1, h2⟩ := ih b (List.mem_of_getElem? hb) (List.mem_of_mem_take hk)
          refine ⟨p', ?_, h2⟩
          show (σ.go i _).phase[k]? = _
          rw [phase_go σ i _ _ hi, if_neg]
          · exact h1
          · rintro rfl; rw [hi] at h1; cases h1; simp at h2
        · exact absurd (List.eq_of_mem_replicate hk) (by simp)
    | setPtr i p l hc hi => exact go i _ _ hi (.inl (by simp)) ha
    | setLen i p l hc hi => exact go i _ _ hi (.inl (by simp)) ha
    | setElem i p l hc hi =>
      have same : ((σ.go i .looping).store p l i).phase = (σ.go i .looping).phase := by
        unfold State.store; split <;> first | rfl | (split <;> rfl)
      rw [same]
      by_cases e : k = i
      · rw [e, phase_go σ i _ _ hi, if_pos rfl]; exact ⟨_, rfl, .inl rfl⟩
      · have old : ∃ b ∈ σ.mem, some k ∈ b := by
          unfold State.store at ha
          split at ha
          · rename_i b hb
            split at ha
            · rcases List.mem_or_eq_of_mem_set ha with ha | rfl
              · exact ⟨a, ha, hk⟩
              · rcases List.mem_or_eq_of_mem_set hk with hk | hk
                · exact ⟨b, List.mem_of_getElem? hb, hk⟩
                · cases hk; exact absurd rfl e
            · exact ⟨a, ha, hk⟩
          · exact ⟨a, ha, hk⟩
        obtain ⟨b, hb, hkb⟩ := old
        obtain ⟨p', h1, h2⟩ := ih b hb hkb
        rw [phase_go σ i _ _ hi, if_neg e]
        exact ⟨p', h1, h2⟩
    | ends i hc hi => exact go i _ _ hi (.inr (by simp)) ha
    | finalize i hc hi hr =>
      rcases hi with hi | hi
      · exact go i _ _ hi (.inr (by simp)) ha
      · exact go i _ _ hi (.inr (by simp)) ha

theorem filter_set (ps : List Phase) (i : Nat) (q : Phase) (hi : ps[i]? = some q) (hq : q ≠ .closed) :
    ((ps.set i .closed).filter (· ≠ .closed)).length + 1 = (ps.filter (· ≠ .closed)).length := by
  induction ps generalizing i with
  | nil => simp at hi
  | cons x xs ih =>
    cases i with
    | zero =>
      simp only [List.getElem?_cons_zero, Option.some.injEq] at hi
      subst hi
      simp [hq]
    | succ i =>
      have := ih i (by simpa using hi)
      by_cases hx : x = .closed
      · simpa [hx] using this
      · simp [hx] at this ⊢; omega

/-- **C80** (partial: peers that did not complete the handshake).  In every schedule, the connection of a peer that sends a bad handshake is closed at once, and one whose
handshake failed otherwise can be closed at any later time, so that its descriptor is free again. -/
theorem C80_given_back_partial (limit : Nat) (grow : Nat → Nat) (σ : State) (h : Reach (Step limit grow) init σ) (hc : σ.crashed = false) (i : Nat)
    (hi : σ.phase[i]? = some .shaking ∨ σ.phase[i]? = some .failed) :
    ∃ σ', Step limit grow σ σ' ∧ σ'.phase = σ.phase.set i .closed ∧ σ'.openConns + 1 = σ.openConns := by
  rcases hi with hi | hi
  · exact ⟨_, .bad i hc hi, rfl, filter_set σ.phase i _ hi (by simp)⟩
  · refine ⟨_, .finalize i hc (.inl hi) ?_, rfl, filter_set σ.phase i _ hi (by simp)⟩
    intro hm
    unfold State.array at hm
    cases e : σ.mem[σ.ptr]? with
    | none => rw [e] at hm; simp at hm
    | some a =>
      rw [e] at hm
      obtain ⟨p, h1, h2⟩ := stored limit grow h a (List.mem_of_getElem? e) i hm
      rw [hi] at h1
      cases h1
      simp at h2

/-- a peer whose handshake failed, beside one that is served -/
example : ∃ σ, Reach (Step 100 double) init σ ∧ σ.crashed = false ∧ σ.phase = [.failed, .looping] := by
  have s1 := next .refl (.accept (limit := 100) (grow := double) (σ := init) rfl (by decide))
  have s2 := next s1 (.accept rfl (by decide))
  have s3 := next s2 (.fail 0 rfl rfl)
  have s4 := next s3 (.good 1 rfl rfl)
  have s5 := next s4 (.load 1 rfl rfl)
  have s6 := next s5 (.fits 1 0 0 4 rfl rfl (by decide))
  have s7 := next s6 (.setLen 1 0 0 rfl rfl)
  have s8 := next s7 (.setElem 1 0 0 rfl rfl)
  exact ⟨_, s8, rfl, rfl⟩

end Verif.Listener
