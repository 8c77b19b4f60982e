import Verif.Spec.Rest
import Verif.Lemmas.Lts
/-
C118: does a connection on which nothing happens come to rest?
-/
set_option autoImplicit false

namespace Verif.Rest
open Verif.PeerLoop Verif.Lts

/-- what is left to do at most -/
def left (s : State) : Nat :=
  (match s.main with | .wait => 4 | .kill => 3 | .waitProcs => 2 | .report => 1 | .returned => 0) +
  (match s.ping with | .notStarted => 2 | .run => 1 | _ => 0) +
  (match s.recv with | .notStarted => 2 | .run => 1 | .finish => 1 | _ => 0) +
  (match s.req with | .notStarted => 2 | .check => 1 | .fill => 1 | _ => 0) +
  (if s.complete then 0 else 1)

theorem left_round {s s' : State} (h : Round s s') : left s' = left s := by
  rcases h with ⟨h, rfl⟩ | ⟨h, rfl⟩ <;> simp [left, h]

theorem left_step {heard : Bool} {s s' : State} (h : Step heard s s') (hr : ¬ Round s s') : left s' + 1 ≤ left s := by
  obtain ⟨m, p, r, q, c⟩ := s
  cases h with
  | reqMore h hc => exact absurd (.inl ⟨h, rfl⟩) hr
  | reqNone h => exact absurd (.inr ⟨h, rfl⟩) hr
  | _ => (simp_all [left] <;> omega)

/-- C118 (partial): apart from going round in `requestLoop`, no connection ever does more than eleven things, whatever happens. -/
theorem C118_few_partial (heard : Bool) (c : Bool) (a b : Nat) (s : State) (h : Run heard (init c) a b s) : b ≤ 11 := by
  have : left s + b ≤ left (init c) := by
    induction h with
    | nil => omega
    | round a b t t' _ _ hr ih => rw [left_round hr]; exact ih
    | other a b t t' _ hs hn ih => have := left_step hs hn; omega
  have h11 : left (init c) ≤ 11 := by cases c <;> decide
  omega

/-- eleven, with everything that can happen, and the loop has gone round once -/
example : Run true (init false) 2 11 ⟨.returned, .ended, .ended, .ended, true⟩ := by
  have step {a b : Nat} {t : State} (t' : State) (h : Run true (init false) a b t) (hs : Step true t t') (hn : ¬ Round t t') : Run true (init false) a (b + 1) t' :=
    .other a b t t' h hs hn
  have no {t t' : State} (h : t'.req = t.req) : ¬ Round t t' := by
    rintro (⟨h1, rfl⟩ | ⟨h1, rfl⟩) <;> (rw [h1] at h; cases h)
  have r := step _ .nil (.pingStart _ rfl) (no rfl)
  have r := step _ r (.recvStart _ rfl) (no rfl)
  have r := step _ r (.reqStart _ rfl) (by rintro (⟨h, -⟩ | ⟨h, -⟩) <;> cases h)
  have r := Run.round _ _ _ _ r (.reqMore _ rfl rfl) (.inl ⟨rfl, rfl⟩)
  have r := Run.round _ _ _ _ r (.reqNone _ rfl) (.inr ⟨rfl, rfl⟩)
  have r := step _ r (.pingFail _ rfl) (no rfl)
  have r := step _ r (.pingReport _ rfl rfl) (no rfl)
  have r := step _ r (.killRecv _ rfl rfl) (no rfl)
  have r := step _ r (.finish _ rfl) (no rfl)
  have r := step _ r (.completed _ rfl) (no rfl)
  have r := step _ r (.reqEnd _ rfl rfl) (by rintro (⟨-, h⟩ | ⟨h, -⟩) <;> cases h)
  have r := step _ r (.waited _ rfl rfl) (no rfl)
  exact step _ r (.report _ rfl rfl) (no rfl)

/-- C118 (partial): once everything is there it comes to rest: `requestLoop` goes on for one more step and then ends. -/
theorem C118_complete_partial (heard : Bool) (s s' : State) (a b : Nat) (hc : s.complete = true) (h : Run heard s a b s') : a ≤ 1 ∧ s'.complete = true := by
  have key : s'.complete = true ∧ (a = 0 ∨ a = 1 ∧ s'.req ≠ .fill) := by
    induction h with
    | nil => exact ⟨hc, .inl rfl⟩
    | round a b t t' _ hs hr ih =>
      obtain ⟨h1, h2⟩ := ih
      rcases hr with ⟨h, rfl⟩ | ⟨h, rfl⟩
      · exfalso
        generalize ht : ({ t with req := .fill } : State) = t' at hs
        have hf : t'.req = .fill := by rw [← ht]
        have hne : t.req ≠ t'.req := by rw [h, hf]; decide
        cases hs with
        | reqMore _ hc' => rw [h1] at hc'; cases hc'
        | _ => simp_all
      · refine ⟨h1, .inr ⟨?_, by simp⟩⟩
        rcases h2 with rfl | ⟨-, h2⟩
        · rfl
        · exact absurd h h2
    | other a b t t' _ hs hn ih =>
      obtain ⟨h1, h2⟩ := ih
      have hc' : t'.complete = true := by cases hs <;> simp_all
      refine ⟨hc', ?_⟩
      rcases h2 with rfl | ⟨rfl, h2⟩
      · exact .inl rfl
      · refine .inr ⟨rfl, ?_⟩
        cases hs <;> simp_all
  exact ⟨by omega, key.1⟩

/-- the last piece comes while the loop looks for something to ask for -/
example : Run false ⟨.wait, .run, .run, .fill, true⟩ 1 1 ⟨.wait, .run, .run, .ended, true⟩ :=
  .other 1 0 _ _ (.round 0 0 _ _ .nil (.reqNone _ rfl) (.inr ⟨rfl, rfl⟩)) (.reqEnd _ rfl rfl) (by rintro (⟨-, h⟩ | ⟨h, -⟩) <;> cases h)

/-- C118, refuted: as long as a piece is missing, `requestLoop` goes round and round: from every state in which it is looking, for every number of steps, there is an
execution in which it does nothing else and everything else stays as it is.  This is also so when the connection has been given up. -/
theorem C118_refuted (heard : Bool) (s : State) (hc : s.complete = false) (hq : s.req = .check ∨ s.req = .fill) (n : Nat) :
    ∃ s', Run heard s n 0 s' ∧ s'.complete = false ∧ (s'.req = .check ∨ s'.req = .fill) ∧ s'.main = s.main ∧ s'.ping = s.ping ∧ s'.recv = s.recv := by
  induction n with
  | zero => exact ⟨s, .nil, hc, hq, rfl, rfl, rfl⟩
  | succ n ih =>
    obtain ⟨t, hr, h1, h2, h3, h4, h5⟩ := ih
    rcases h2 with h2 | h2
    · exact ⟨_, .round n 0 t _ hr (.reqMore t h2 h1) (.inl ⟨h2, rfl⟩), h1, .inr rfl, h3, h4, h5⟩
    · exact ⟨_, .round n 0 t _ hr (.reqNone t h2) (.inr ⟨h2, rfl⟩), h1, .inl rfl, h3, h4, h5⟩

/-- the connection has been lost, and `Loop` is about to report it; `requestLoop` goes on -/
example : ∃ s, Reach (Step false) (init false) s ∧ s.complete = false ∧ s.req = .check ∧ s.main = .waitProcs ∧ s.ping = .ended ∧ s.recv = .ended :=
  ⟨⟨.waitProcs, .ended, .ended, .check, false⟩,
    .head (.pingStart _ rfl) (.head (.recvStart _ rfl) (.head (.reqStart _ rfl) (.head (.recvFail _ rfl) (.head (.recvReport _ rfl rfl)
      (.head (.killPing _ rfl rfl) .refl))))), rfl, rfl, rfl, rfl, rfl⟩

/-- C118, refuted: the only way for it to stop is to be complete, or to be stuck in making requests, which does not end either (C52). -/
theorem C118_refuted_stop (heard : Bool) (s s' : State) (hq : s.req = .check ∨ s.req = .fill) (h : Step heard s s') :
    s'.req = .check ∨ s'.req = .fill ∨ s'.req = .creating ∨ s'.req = .ended ∧ s.complete = true := by
  rcases hq with hq | hq <;> cases h <;> simp_all

theorem run_left {heard : Bool} {s s' : State} {a b : Nat} (h : Run heard s a b s') : left s' + b ≤ left s := by
  induction h with
  | nil => omega
  | round a b t t' _ _ hr ih => rw [left_round hr]; exact ih
  | other a b t t' _ hs hn ih => have := left_step hs hn; omega

/-- if it goes round it can do so for ever -/
theorem run_rounds {heard : Bool} {s t : State} {a b : Nat} (h : Run heard s a b t) (hc : t.complete = false) (hq : t.req = .check ∨ t.req = .fill) (n : Nat) :
    ∃ t', Run heard s (a + n) b t' ∧ t'.complete = false ∧ (t'.req = .check ∨ t'.req = .fill) := by
  induction n with
  | zero => exact ⟨t, h, hc, hq⟩
  | succ n ih =>
    obtain ⟨u, hr, h1, h2⟩ := ih
    rcases h2 with h2 | h2
    · exact ⟨_, .round _ b u _ hr (.reqMore u h2 h1) (.inl ⟨h2, rfl⟩), h1, .inr rfl⟩
    · exact ⟨_, .round _ b u _ hr (.reqNone u h2) (.inr ⟨h2, rfl⟩), h1, .inl rfl⟩

/-- **C118**, exactly: from which states a connection comes to rest.  There is a bound for everything that can still be done, precisely if every piece is there, or `requestLoop` is
stuck in making requests, or it has ended. -/
theorem C118_iff_partial (heard : Bool) (s : State) :
    (∃ N, ∀ a b s', Run heard s a b s' → a + b ≤ N) ↔ s.complete = true ∨ s.req = .creating ∨ s.req = .ended := by
  constructor
  · rintro ⟨N, hN⟩
    cases hc : s.complete with
    | true => exact .inl rfl
    | false =>
      have go (t : State) (b : Nat) (h : Run heard s 0 b t) (h1 : t.complete = false) (h2 : t.req = .check ∨ t.req = .fill) : False := by
        obtain ⟨t', hr, -⟩ := run_rounds h h1 h2 (N + 1)
        have := hN _ _ _ hr
        omega
      cases hq : s.req with
      | creating => exact .inr (.inl rfl)
      | ended => exact .inr (.inr rfl)
      | check => exact (go s 0 .nil hc (.inl hq)).elim
      | fill => exact (go s 0 .nil hc (.inr hq)).elim
      | notStarted =>
        exact (go _ 1 (.other 0 0 s _ .nil (.reqStart s hq) (by rintro (⟨h, -⟩ | ⟨h, -⟩) <;> (rw [hq] at h; cases h))) hc (.inl rfl)).elim
  · intro h
    refine ⟨1 + left s, fun a b s' hr => ?_⟩
    have hb := run_left hr
    have ha : a ≤ 1 := by
      rcases h with h | h
      · exact (C118_complete_partial heard s s' a b h hr).1
      · have : a = 0 ∧ (s'.req = .creating ∨ s'.req = .ended) := by
          clear hb
          induction hr with
          | nil => exact ⟨rfl, h⟩
          | round a b t t' _ _ hx ih => rcases hx with ⟨hx, -⟩ | ⟨hx, -⟩ <;> rcases ih.2 with h2 | h2 <;> rw [hx] at h2 <;> cases h2
          | other a b t t' _ hs _ ih =>
            obtain ⟨h1, h2⟩ := ih
            refine ⟨h1, ?_⟩
            cases hs <;> simp_all
        omega
    omega

/-- both cases: a connection at its start, and one of a torrent that is complete -/
example : (¬ ∃ N, ∀ a b s', Run false (init false) a b s' → a + b ≤ N) ∧ ∃ N, ∀ a b s', Run false (init true) a b s' → a + b ≤ N :=
  ⟨fun h => (by rcases (C118_iff_partial false (init false)).mp h with h | h | h <;> cases h), (C118_iff_partial false (init true)).mpr (.inl rfl)⟩

end Verif.Rest
