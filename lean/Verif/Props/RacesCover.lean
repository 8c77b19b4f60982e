import Verif.Props.Races
/-
C89: the graphs of the goroutines (Model/Races.lean) have no dead lines, so what is proved about all executions is about all lines of the code.
-/
set_option autoImplicit false

namespace Verif.Races
open Verif.Lts

/-- one goroutine takes the `n`-th edge of its code, or two meet at an unbuffered channel: the sender first -/
inductive Move where
  | one (i n : Nat)
  | meet (i n j m : Nat)

/-- the state after a move, if it is possible, and the edges that were taken -/
def move (σ : State) : Move → Option (State × List (Kind × Nat))
  | .one i n =>
    match σ.threads[i]?, fire σ i n with
    | some t, some σ' => some (σ', [(t.kind, n)])
    | _, _ => none
  | .meet i n j m =>
    match σ.threads[i]?, σ.threads[j]? with
    | some t, some u =>
      match (code t.kind)[n]?, (code u.kind)[m]? with
      | some (p, .send c, q), some (p', .recv c', q') =>
        if i ≠ j ∧ p = t.pc ∧ p' = u.pc ∧ c = c' ∧ t.conn = u.conn then some ((σ.go i t q).go j u q', [(t.kind, n), (u.kind, m)]) else none
      | _, _ => none
    | _, _ => none

/-- the edges taken in a schedule, as far as it goes -/
def taken (σ : State) : List Move → List (Kind × Nat)
  | [] => []
  | m :: ms =>
    match move σ m with
    | some (σ', es) => es ++ taken σ' ms
    | none => []

/-- the `n`-th edge of `k` is taken by some goroutine in the step from `σ` to `σ'` -/
def Takes (σ σ' : State) (k : Kind) (e : Edge) : Prop :=
  ∃ (i c : Nat), σ.threads[i]? = some ⟨k, c, e.1⟩ ∧ σ'.threads[i]? = some ⟨k, c, e.2.2⟩

theorem goAt_get {σ : State} {i : Nat} {t : Thread} {pc : Nat} (h : σ.threads[i]? = some t) : (σ.go i t pc).threads[i]? = some { t with pc := pc } := by
  simp only [State.go]
  rw [List.getElem?_set_self (List.getElem?_eq_some_iff.mp h).1]

theorem go_other {σ : State} {i j : Nat} {t : Thread} {pc : Nat} (h : i ≠ j) : (σ.go i t pc).threads[j]? = σ.threads[j]? := by
  simp only [State.go]
  rw [List.getElem?_set_ne h]

theorem fire_takes {σ σ' : State} {i n : Nat} {t : Thread} (ht : σ.threads[i]? = some t) (h : fire σ i n = some σ') :
    ∃ e, (code t.kind)[n]? = some e ∧ Takes σ σ' t.kind e := by
  unfold fire at h
  rw [ht] at h
  simp only at h
  split at h
  · cases h
  · rename_i p a q he
    split at h
    · cases h
    · rename_i hp
      have hp : p = t.pc := Classical.byContradiction hp
      subst hp
      refine ⟨_, he, i, t.conn, ht, ?_⟩
      have hg := goAt_get (pc := q) ht
      split at h
      · split at h
        · cases h; exact hg
        · cases h
      · split at h
        · cases h; exact hg
        · cases h
      · cases h
      · cases h
      · cases h
        rw [List.getElem?_append_left (List.getElem?_eq_some_iff.mp hg).1]; exact hg
      · cases h
        rw [List.getElem?_append_left (List.getElem?_eq_some_iff.mp hg).1]; exact hg
      all_goals (cases h; exact hg)

theorem move_takes {σ σ' : State} {m : Move} {es : List (Kind × Nat)} (h : move σ m = some (σ', es)) :
    Step σ σ' ∧ ∀ x ∈ es, ∃ e, (code x.1)[x.2]? = some e ∧ Takes σ σ' x.1 e := by
  cases m with
  | one i n =>
    simp only [move] at h
    split at h
    · rename_i t σ'' ht hf
      cases h
      refine ⟨fire_step hf, fun x hx => ?_⟩
      rw [List.mem_singleton] at hx; subst hx
      exact fire_takes ht hf
    · cases h
  | meet i n j m =>
    simp only [move] at h
    split at h
    · rename_i t u ht hu
      split at h
      · rename_i p c q p' c' q' he hf
        split at h
        · rename_i hc
          obtain ⟨hij, rfl, rfl, rfl, hcn⟩ := hc
          cases h
          refine ⟨.meet i j hij t u c q q' ⟨ht, List.mem_of_getElem? he⟩ ⟨hu, List.mem_of_getElem? hf⟩ hcn, fun x hx => ?_⟩
          simp only [List.mem_cons, List.not_mem_nil, or_false] at hx
          rcases hx with rfl | rfl
          · exact ⟨_, he, i, t.conn, ht, by rw [go_other (Ne.symm hij)]; exact goAt_get ht⟩
          · exact ⟨_, hf, j, u.conn, hu, goAt_get (by rw [go_other hij]; exact hu)⟩
        · cases h
      · cases h
    · cases h

theorem taken_reach (ms : List Move) : ∀ {σ0 σ : State}, Reach Step σ0 σ → ∀ x ∈ taken σ ms,
    ∃ σ1 σ2 e, Reach Step σ0 σ1 ∧ Step σ1 σ2 ∧ (code x.1)[x.2]? = some e ∧ Takes σ1 σ2 x.1 e := by
  induction ms with
  | nil => intro _ _ _ x hx; cases hx
  | cons m ms ih =>
    intro σ0 σ hr x hx
    simp only [taken] at hx
    split at hx
    · rename_i σ' es hm
      obtain ⟨hs, ht⟩ := move_takes hm
      rcases List.mem_append.mp hx with h | h
      · obtain ⟨e, he, hte⟩ := ht x h
        exact ⟨σ, σ', e, hr, hs, he, hte⟩
      · exact ih (Reach.tail _ _ hr hs) x h
    · cases hx

/-- a schedule in which every line of every goroutine is executed -/
def tour : List Move :=
  [.one 0 0, .one 1 0, .one 1 1, .one 1 2, .one 0 1, .one 2 0, .one 0 2, .one 3 0, .one 2 1, .one 3 1, .one 2 2, .one 0 3, .one 2 3, .one 2 4,
   .one 3 2, .one 2 5, .one 0 4, .one 2 6, .one 4 0, .one 2 7, .one 4 1, .one 2 8, .one 3 3, .one 3 4, .one 4 2, .one 2 9, .one 2 10, .one 4 3,
   .one 2 11, .one 4 4, .one 4 5, .one 2 12, .one 2 13, .one 2 14, .one 2 15, .one 4 6, .one 4 7, .one 8 0, .one 4 8, .one 2 16, .one 8 1,
   .one 8 2, .one 8 3, .one 8 4, .one 8 5, .one 6 0, .one 11 0, .meet 11 1 8 47, .meet 8 49 4 9, .one 6 1, .one 6 2, .one 6 3, .one 6 4, .one 1 2,
   .one 13 0, .one 13 1, .one 13 2, .one 13 3, .one 13 4, .one 13 5, .one 13 6, .one 13 7, .one 13 8, .one 13 9, .one 13 10, .one 13 11,
   .one 13 12, .one 13 13, .one 13 14, .one 14 0, .one 13 15, .one 15 0, .one 13 16, .one 14 1, .one 15 1, .one 14 2, .one 16 0, .one 16 1,
   .one 15 2, .one 14 3, .meet 14 5 13 17, .one 15 3, .one 13 18, .one 15 4, .one 15 5, .one 16 2, .meet 13 19 15 50, .one 16 3, .one 0 4,
   .one 18 0, .one 16 5, .one 16 6, .one 16 7, .one 18 1, .one 18 2, .one 18 3, .one 18 4, .one 17 0, .one 16 9, .one 18 5, .one 16 11, .one 16 12,
   .one 17 2, .one 16 13, .one 16 14, .one 16 15, .one 16 16, .one 17 4, .meet 15 51 17 6, .one 18 6, .one 18 7, .one 20 0, .one 15 52, .one 20 1,
   .one 20 2, .one 18 8, .one 20 3, .one 20 4, .one 22 0, .one 22 2, .one 20 5, .meet 22 3 20 47, .one 1 2, .one 23 0, .one 23 1, .one 23 2,
   .one 23 3, .one 23 4, .one 23 5, .one 23 6, .one 23 7, .one 23 8, .one 23 9, .one 23 10, .one 23 11, .one 23 12, .one 23 13, .one 0 4,
   .one 23 14, .one 23 15, .one 26 0, .one 24 0, .one 26 1, .one 26 2, .one 26 3, .one 26 4, .one 26 5, .one 23 16, .one 27 0, .meet 27 1 26 47,
   .one 26 48, .one 24 1, .one 24 2, .one 24 3, .one 24 4, .one 24 5, .one 24 6, .one 24 7, .one 30 0, .one 24 8, .one 30 1, .one 30 2, .one 30 3,
   .one 30 4, .one 30 5, .one 32 0, .one 32 2, .one 32 4, .one 30 6, .one 30 7, .one 30 8, .one 30 32, .one 30 33, .one 30 35, .one 30 36,
   .one 30 37, .one 30 38, .one 30 40, .one 30 42, .one 30 38, .one 30 43, .one 30 10, .one 30 11, .one 29 0, .one 30 12, .one 30 14, .one 30 15,
   .one 30 16, .one 30 17, .one 29 1, .one 29 2, .one 30 15, .one 30 16, .one 30 18, .one 30 45, .meet 30 46 24 9, .one 30 53, .one 24 10,
   .one 29 3, .one 29 4, .meet 24 11 29 6, .one 24 12, .one 24 13, .one 0 4, .one 33 0, .one 33 1, .one 33 2, .one 33 3, .one 33 4, .one 33 5,
   .one 33 6, .one 33 7, .one 33 8, .one 35 0, .one 35 1, .one 35 2, .one 35 3, .one 35 4, .one 37 0, .one 37 2, .one 37 4, .one 35 5, .one 35 6,
   .one 35 7, .one 1 2, .one 35 8, .one 35 10, .one 35 11, .one 35 12, .one 35 14, .one 35 15, .one 38 0, .one 35 16, .one 35 19, .one 35 20,
   .one 35 23, .one 35 24, .one 35 25, .one 35 26, .one 0 4, .one 35 24, .one 35 25, .one 35 27, .one 35 28, .one 39 0, .one 38 1, .one 35 29,
   .one 35 31, .one 38 2, .one 38 3, .one 39 1, .one 38 4, .one 39 2, .one 38 5, .one 38 6, .one 38 7, .one 38 8, .one 39 3, .one 38 9, .one 39 4,
   .one 38 10, .one 39 5, .one 39 6, .one 38 11, .one 39 7, .one 41 0, .one 41 1, .one 39 8, .one 41 2, .one 38 12, .one 38 13, .one 41 3,
   .one 38 14, .one 43 0, .one 43 1, .one 38 15, .one 38 16, .one 43 2, .one 41 4, .one 43 3, .one 44 0, .meet 43 5 38 17, .one 38 18, .one 44 1,
   .one 44 2, .one 44 3, .one 44 4, .one 44 5, .meet 38 19 44 50, .one 38 20, .one 1 2, .one 48 0, .one 48 1, .one 48 2, .one 38 21, .one 48 3,
   .one 48 4, .one 48 5, .one 48 6, .one 48 7, .one 48 8, .one 48 9, .one 48 10, .one 48 11, .one 48 12, .one 48 13, .one 48 14, .one 48 15,
   .one 50 0, .one 48 16, .one 50 1, .one 50 2, .one 50 3, .one 50 4, .one 52 0, .one 52 2, .one 52 4, .one 50 5, .one 50 6, .one 50 7, .one 50 8,
   .one 50 44, .one 0 4, .one 53 0, .one 53 1, .one 53 2, .one 53 3, .one 53 4, .one 53 5, .one 53 6, .one 53 7, .one 53 8, .one 55 0, .one 55 1,
   .one 55 2, .one 55 3, .one 55 4, .one 57 0, .one 57 2, .one 57 4, .one 55 5, .one 55 6, .one 55 7, .one 55 8, .one 55 32, .one 55 33,
   .one 55 34, .one 55 45, .one 57 5, .one 1 2, .one 1 2, .one 59 0, .one 58 0, .one 58 1, .one 59 1, .one 58 2, .one 58 3, .one 59 2, .one 58 4,
   .one 59 3, .one 59 4, .one 59 5, .one 58 5, .one 58 6, .one 59 6, .one 59 7, .one 58 7, .one 58 8, .one 58 9, .one 58 10, .one 59 8, .one 58 11,
   .one 58 12, .one 59 9, .one 58 13, .one 58 14, .one 59 10, .one 59 11, .one 59 12, .one 59 13, .one 58 15, .one 58 16, .one 59 14, .one 59 15,
   .one 62 0, .one 63 0, .one 62 1, .one 63 1, .one 62 2, .one 64 0, .one 59 16, .one 62 3, .one 64 1, .one 65 0, .one 64 2, .one 62 5, .one 64 3,
   .one 64 4, .one 63 2, .one 66 0, .one 66 2, .one 65 1, .one 66 4, .one 65 2, .one 64 5, .one 62 6, .one 63 3, .meet 63 5 59 17, .one 65 3,
   .one 63 7, .one 65 4, .one 64 6, .one 64 7, .one 65 25, .one 62 7, .one 62 9, .one 64 8, .one 64 10, .one 62 10, .one 64 11, .one 64 12,
   .one 64 14, .one 64 15, .one 64 16, .one 64 19, .one 64 20, .one 64 21, .one 64 22, .one 64 30, .one 64 10, .one 64 11, .one 64 12, .one 64 13,
   .one 64 32, .one 64 33, .one 64 35, .one 64 36, .one 62 7, .one 62 9, .one 62 11, .one 62 12, .one 62 13, .one 62 14, .one 62 17, .one 62 18,
   .one 62 19, .one 62 20, .one 62 18, .one 62 19, .one 62 21, .one 62 22, .one 62 23, .one 62 24, .one 62 2, .one 62 3, .one 62 5, .one 64 37,
   .one 64 38, .one 64 39, .one 64 38, .one 64 43, .one 64 9, .one 62 6, .one 64 32, .one 64 33, .one 64 35, .one 64 36, .one 62 7, .one 62 8,
   .one 64 37, .one 64 38, .one 64 40, .one 64 41]

/-- C89, what it is about: every line of every goroutine is executed in some execution, so that there is none of which the absence of races holds only because it is never
reached. -/
theorem C89_every_line (k : Kind) (e : Edge) (he : e ∈ code k) :
    ∃ σ σ', Reach Step init σ ∧ Step σ σ' ∧ ∃ (i c : Nat), σ.threads[i]? = some ⟨k, c, e.1⟩ ∧ σ'.threads[i]? = some ⟨k, c, e.2.2⟩ := by
  have hall : ∀ n, n < (code k).length → (k, n) ∈ taken init tour := by cases k <;> decide +kernel
  obtain ⟨n, hn, rfl⟩ := List.getElem_of_mem he
  obtain ⟨σ, σ', e', h1, h2, h3, h4⟩ := taken_reach tour .refl (k, n) (hall n hn)
  rw [List.getElem?_eq_getElem hn] at h3
  cases h3
  exact ⟨σ, σ', h1, h2, h4⟩

/-- among them the last line of the goroutine of a connection that came in: the listener has been told -/
example : ∃ σ σ', Reach Step init σ ∧ Step σ σ' ∧ ∃ (i c : Nat), σ.threads[i]? = some ⟨.incoming, c, 21⟩ ∧ σ'.threads[i]? = some ⟨.incoming, c, 22⟩ :=
  C89_every_line .incoming (21, .rd .handler, 22) (by decide)

end Verif.Races
