import Verif.Props.PeerLoop
/-
C57: all the ways in which the goroutines of a peer come to rest.
-/
set_option autoImplicit false

namespace Verif.PeerLoop
open Verif.Lts

/-- where the goroutines stand in each phase of `Loop` -/
def Phases (s : State) : Prop :=
  match s.main with
  | .wait => s.ping ≠ .ended ∧ s.recv ≠ .finish ∧ s.recv ≠ .blocked
  | .kill => s.ping = .ended ∧ s.recv ≠ .finish ∧ s.recv ≠ .blocked ∨ s.ping ≠ .ended ∧ s.recv = .ended
  | .waitProcs => s.ping = .ended ∧ (s.recv = .finish ∨ s.recv = .blocked ∨ s.recv = .ended)
  | .report | .returned => s.ping = .ended ∧ s.recv = .ended

theorem phases_step {heard : Bool} {s s' : State} (h : Phases s) (hs : Step heard s s') : Phases s' := by
  obtain ⟨m, p, r, q, c⟩ := s
  cases hs <;> cases m <;> simp_all [Phases, State.idle, Ping.counted, Recv.counted] <;> (cases r <;> simp_all)

theorem phases {heard b : Bool} {s : State} (h : Reach (Step heard) (init b) s) : Phases s := by
  induction h with
  | refl => simp [Phases, init]
  | tail _ _ _ hs ih => exact phases_step ih hs

/-- if nothing is missing at the beginning, nothing is ever requested -/
theorem complete_stays {heard : Bool} {s : State} (h : Reach (Step heard) (init true) s) : s.complete = true ∧ s.req ≠ .fill ∧ s.req ≠ .creating := by
  induction h with
  | refl => simp [init]
  | tail _ _ _ hs ih => cases hs <;> simp_all

/-- `Loop` has sent its report, if there is somebody to hear it -/
def last (heard : Bool) : Main := if heard then .returned else .report

/-- the ways in which `Loop`, `pingLoop` and `recvLoop` end: both have met errors (or `recvLoop` has ended quietly) and `Loop` waits for somebody to stop; `Finish` blocks; or all is as it should be -/
inductive Ends (heard : Bool) : Main → Ping → Recv → Req → Prop
  | bothPing (q : Req) : Ends heard .kill .ended .fail q
  | bothRecv (q : Req) : Ends heard .kill .fail .ended q
  | quiet (q : Req) : Ends heard .kill .ended .ended q
  | finish (q : Req) : Ends heard .waitProcs .ended .blocked q
  | requesting : Ends heard .waitProcs .ended .ended .creating
  | stopped (q : Req) : Ends heard (last heard) .ended .ended q

theorem ends_of_stuck {heard b : Bool} {s : State} (h : Reach (Step heard) (init b) s) (hs : Stuck (Step heard) s) :
    s.complete = true ∧ (s.req = .ended ∨ s.req = .creating) ∧ Ends heard s.main s.ping s.recv s.req := by
  have hp := phases h
  obtain ⟨m, p, r, q, c⟩ := s
  have hc : c = true := by
    cases c with
    | true => rfl
    | false => exact absurd (Step.completed _ rfl) (hs _)
  subst hc
  have hq : q = .ended ∨ q = .creating := by
    cases q with
    | notStarted => exact absurd (Step.reqStart _ rfl) (hs _)
    | check => exact absurd (Step.reqEnd _ rfl rfl) (hs _)
    | fill => exact absurd (Step.reqNone _ rfl) (hs _)
    | creating => exact .inr rfl
    | ended => exact .inl rfl
  have hpp : p = .fail ∨ p = .ended := by
    cases p with
    | notStarted => exact absurd (Step.pingStart _ rfl) (hs _)
    | run => exact absurd (Step.pingFail _ rfl) (hs _)
    | fail => exact .inl rfl
    | ended => exact .inr rfl
  have hrr : r = .fail ∨ r = .blocked ∨ r = .ended := by
    cases r with
    | notStarted => exact absurd (Step.recvStart _ rfl) (hs _)
    | run => exact absurd (Step.recvQuiet _ rfl) (hs _)
    | finish => exact absurd (Step.finish _ rfl) (hs _)
    | fail => exact .inl rfl
    | blocked => exact .inr (.inl rfl)
    | ended => exact .inr (.inr rfl)
  refine ⟨rfl, hq, ?_⟩
  cases m with
  | wait =>
    obtain ⟨h1, -, -⟩ : p ≠ .ended ∧ r ≠ .finish ∧ r ≠ .blocked := hp
    rcases hpp with rfl | rfl
    · exact absurd (Step.pingReport _ rfl rfl) (hs _)
    · exact absurd rfl h1
  | kill =>
    have hp' : p = .ended ∧ r ≠ .finish ∧ r ≠ .blocked ∨ p ≠ .ended ∧ r = .ended := hp
    rcases hp' with ⟨rfl, -, h2⟩ | ⟨h1, rfl⟩
    · rcases hrr with rfl | rfl | rfl
      · exact .bothPing _
      · exact absurd rfl h2
      · exact .quiet _
    · rcases hpp with rfl | rfl
      · exact .bothRecv _
      · exact absurd rfl h1
  | waitProcs =>
    have hp' : p = .ended ∧ (r = .finish ∨ r = .blocked ∨ r = .ended) := hp
    obtain ⟨rfl, h3⟩ := hp'
    rcases hrr with rfl | rfl | rfl
    · rcases h3 with h3 | h3 | h3 <;> cases h3
    · exact .finish _
    · rcases hq with rfl | rfl
      · exact absurd (Step.waited _ rfl rfl) (hs _)
      · exact .requesting
  | report =>
    have hp' : p = .ended ∧ r = .ended := hp
    obtain ⟨rfl, rfl⟩ := hp'
    cases heard with
    | true => exact absurd (Step.report _ rfl rfl) (hs _)
    | false => exact Ends.stopped (heard := false) q
  | returned =>
    have hp' : p = .ended ∧ r = .ended := hp
    obtain ⟨rfl, rfl⟩ := hp'
    cases heard with
    | true => exact Ends.stopped (heard := true) q
    | false => exact absurd rfl (C57_refuted_never_returns (init b) _ (by simp [init]) h)

theorem stuck_of_ends {heard : Bool} {m : Main} {p : Ping} {r : Recv} {q : Req} (hq : q = .ended ∨ q = .creating) (h : Ends heard m p r q) : Stuck (Step heard) ⟨m, p, r, q, true⟩ := by
  intro s' hs
  rcases hq with rfl | rfl <;> cases heard <;> cases h <;> cases hs <;> simp_all [State.idle, Ping.counted, Recv.counted, Req.counted, last]

theorem reach_ends {heard : Bool} {m : Main} {p : Ping} {r : Recv} {q : Req} (hq : q = .ended ∨ q = .creating) (h : Ends heard m p r q) : Reach (Step heard) (init false) ⟨m, p, r, q, true⟩ := by
  cases heard with
  | false =>
    cases h with
    | bothPing =>
      rcases hq with rfl | rfl
      · exact (((((((Reach.refl.tail _ _ (.pingStart _ rfl)).tail _ _ (.recvStart _ rfl)).tail _ _ (.reqStart _ rfl)).tail _ _ (.pingFail _ rfl)).tail _ _ (.recvFail _ rfl)).tail _ _ (.pingReport _ rfl rfl)).tail _ _ (.completed _ rfl)).tail _ _ (.reqEnd _ rfl rfl)
      · exact ((((((((Reach.refl.tail _ _ (.pingStart _ rfl)).tail _ _ (.recvStart _ rfl)).tail _ _ (.reqStart _ rfl)).tail _ _ (.pingFail _ rfl)).tail _ _ (.recvFail _ rfl)).tail _ _ (.pingReport _ rfl rfl)).tail _ _ (.reqMore _ rfl rfl)).tail _ _ (.reqCreate _ rfl)).tail _ _ (.completed _ rfl)
    | bothRecv =>
      rcases hq with rfl | rfl
      · exact (((((((Reach.refl.tail _ _ (.pingStart _ rfl)).tail _ _ (.recvStart _ rfl)).tail _ _ (.reqStart _ rfl)).tail _ _ (.pingFail _ rfl)).tail _ _ (.recvFail _ rfl)).tail _ _ (.recvReport _ rfl rfl)).tail _ _ (.completed _ rfl)).tail _ _ (.reqEnd _ rfl rfl)
      · exact ((((((((Reach.refl.tail _ _ (.pingStart _ rfl)).tail _ _ (.recvStart _ rfl)).tail _ _ (.reqStart _ rfl)).tail _ _ (.pingFail _ rfl)).tail _ _ (.recvFail _ rfl)).tail _ _ (.recvReport _ rfl rfl)).tail _ _ (.reqMore _ rfl rfl)).tail _ _ (.reqCreate _ rfl)).tail _ _ (.completed _ rfl)
    | quiet =>
      rcases hq with rfl | rfl
      · exact (((((((Reach.refl.tail _ _ (.pingStart _ rfl)).tail _ _ (.recvStart _ rfl)).tail _ _ (.reqStart _ rfl)).tail _ _ (.pingFail _ rfl)).tail _ _ (.recvQuiet _ rfl)).tail _ _ (.pingReport _ rfl rfl)).tail _ _ (.completed _ rfl)).tail _ _ (.reqEnd _ rfl rfl)
      · exact ((((((((Reach.refl.tail _ _ (.pingStart _ rfl)).tail _ _ (.recvStart _ rfl)).tail _ _ (.reqStart _ rfl)).tail _ _ (.pingFail _ rfl)).tail _ _ (.recvQuiet _ rfl)).tail _ _ (.pingReport _ rfl rfl)).tail _ _ (.reqMore _ rfl rfl)).tail _ _ (.reqCreate _ rfl)).tail _ _ (.completed _ rfl)
    | finish =>
      rcases hq with rfl | rfl
      · exact ((((((((Reach.refl.tail _ _ (.pingStart _ rfl)).tail _ _ (.recvStart _ rfl)).tail _ _ (.reqStart _ rfl)).tail _ _ (.pingFail _ rfl)).tail _ _ (.pingReport _ rfl rfl)).tail _ _ (.killRecv _ rfl rfl)).tail _ _ (.finishBlocks _ rfl)).tail _ _ (.completed _ rfl)).tail _ _ (.reqEnd _ rfl rfl)
      · exact (((((((((Reach.refl.tail _ _ (.pingStart _ rfl)).tail _ _ (.recvStart _ rfl)).tail _ _ (.reqStart _ rfl)).tail _ _ (.pingFail _ rfl)).tail _ _ (.pingReport _ rfl rfl)).tail _ _ (.killRecv _ rfl rfl)).tail _ _ (.finishBlocks _ rfl)).tail _ _ (.reqMore _ rfl rfl)).tail _ _ (.reqCreate _ rfl)).tail _ _ (.completed _ rfl)
    | requesting => exact ((((((((Reach.refl.tail _ _ (.pingStart _ rfl)).tail _ _ (.recvStart _ rfl)).tail _ _ (.reqStart _ rfl)).tail _ _ (.recvFail _ rfl)).tail _ _ (.recvReport _ rfl rfl)).tail _ _ (.killPing _ rfl rfl)).tail _ _ (.reqMore _ rfl rfl)).tail _ _ (.reqCreate _ rfl)).tail _ _ (.completed _ rfl)
    | stopped =>
      rcases hq with rfl | rfl
      · exact ((((((((Reach.refl.tail _ _ (.pingStart _ rfl)).tail _ _ (.recvStart _ rfl)).tail _ _ (.reqStart _ rfl)).tail _ _ (.recvFail _ rfl)).tail _ _ (.recvReport _ rfl rfl)).tail _ _ (.killPing _ rfl rfl)).tail _ _ (.completed _ rfl)).tail _ _ (.reqEnd _ rfl rfl)).tail _ _ (.waited _ rfl rfl)
      · exact (((((((((Reach.refl.tail _ _ (.pingStart _ rfl)).tail _ _ (.recvStart _ rfl)).tail _ _ (.recvFail _ rfl)).tail _ _ (.recvReport _ rfl rfl)).tail _ _ (.killPing _ rfl rfl)).tail _ _ (.waited _ rfl rfl)).tail _ _ (.reqStart _ rfl)).tail _ _ (.reqMore _ rfl rfl)).tail _ _ (.reqCreate _ rfl)).tail _ _ (.completed _ rfl)
  | true =>
    cases h with
    | bothPing =>
      rcases hq with rfl | rfl
      · exact (((((((Reach.refl.tail _ _ (.pingStart _ rfl)).tail _ _ (.recvStart _ rfl)).tail _ _ (.reqStart _ rfl)).tail _ _ (.pingFail _ rfl)).tail _ _ (.recvFail _ rfl)).tail _ _ (.pingReport _ rfl rfl)).tail _ _ (.completed _ rfl)).tail _ _ (.reqEnd _ rfl rfl)
      · exact ((((((((Reach.refl.tail _ _ (.pingStart _ rfl)).tail _ _ (.recvStart _ rfl)).tail _ _ (.reqStart _ rfl)).tail _ _ (.pingFail _ rfl)).tail _ _ (.recvFail _ rfl)).tail _ _ (.pingReport _ rfl rfl)).tail _ _ (.reqMore _ rfl rfl)).tail _ _ (.reqCreate _ rfl)).tail _ _ (.completed _ rfl)
    | bothRecv =>
      rcases hq with rfl | rfl
      · exact (((((((Reach.refl.tail _ _ (.pingStart _ rfl)).tail _ _ (.recvStart _ rfl)).tail _ _ (.reqStart _ rfl)).tail _ _ (.pingFail _ rfl)).tail _ _ (.recvFail _ rfl)).tail _ _ (.recvReport _ rfl rfl)).tail _ _ (.completed _ rfl)).tail _ _ (.reqEnd _ rfl rfl)
      · exact ((((((((Reach.refl.tail _ _ (.pingStart _ rfl)).tail _ _ (.recvStart _ rfl)).tail _ _ (.reqStart _ rfl)).tail _ _ (.pingFail _ rfl)).tail _ _ (.recvFail _ rfl)).tail _ _ (.recvReport _ rfl rfl)).tail _ _ (.reqMore _ rfl rfl)).tail _ _ (.reqCreate _ rfl)).tail _ _ (.completed _ rfl)
    | quiet =>
      rcases hq with rfl | rfl
      · exact (((((((Reach.refl.tail _ _ (.pingStart _ rfl)).tail _ _ (.recvStart _ rfl)).tail _ _ (.reqStart _ rfl)).tail _ _ (.pingFail _ rfl)).tail _ _ (.recvQuiet _ rfl)).tail _ _ (.pingReport _ rfl rfl)).tail _ _ (.completed _ rfl)).tail _ _ (.reqEnd _ rfl rfl)
      · exact ((((((((Reach.refl.tail _ _ (.pingStart _ rfl)).tail _ _ (.recvStart _ rfl)).tail _ _ (.reqStart _ rfl)).tail _ _ (.pingFail _ rfl)).tail _ _ (.recvQuiet _ rfl)).tail _ _ (.pingReport _ rfl rfl)).tail _ _ (.reqMore _ rfl rfl)).tail _ _ (.reqCreate _ rfl)).tail _ _ (.completed _ rfl)
    | finish =>
      rcases hq with rfl | rfl
      · exact ((((((((Reach.refl.tail _ _ (.pingStart _ rfl)).tail _ _ (.recvStart _ rfl)).tail _ _ (.reqStart _ rfl)).tail _ _ (.pingFail _ rfl)).tail _ _ (.pingReport _ rfl rfl)).tail _ _ (.killRecv _ rfl rfl)).tail _ _ (.finishBlocks _ rfl)).tail _ _ (.completed _ rfl)).tail _ _ (.reqEnd _ rfl rfl)
      · exact (((((((((Reach.refl.tail _ _ (.pingStart _ rfl)).tail _ _ (.recvStart _ rfl)).tail _ _ (.reqStart _ rfl)).tail _ _ (.pingFail _ rfl)).tail _ _ (.pingReport _ rfl rfl)).tail _ _ (.killRecv _ rfl rfl)).tail _ _ (.finishBlocks _ rfl)).tail _ _ (.reqMore _ rfl rfl)).tail _ _ (.reqCreate _ rfl)).tail _ _ (.completed _ rfl)
    | requesting => exact ((((((((Reach.refl.tail _ _ (.pingStart _ rfl)).tail _ _ (.recvStart _ rfl)).tail _ _ (.reqStart _ rfl)).tail _ _ (.recvFail _ rfl)).tail _ _ (.recvReport _ rfl rfl)).tail _ _ (.killPing _ rfl rfl)).tail _ _ (.reqMore _ rfl rfl)).tail _ _ (.reqCreate _ rfl)).tail _ _ (.completed _ rfl)
    | stopped =>
      rcases hq with rfl | rfl
      · exact (((((((((Reach.refl.tail _ _ (.pingStart _ rfl)).tail _ _ (.recvStart _ rfl)).tail _ _ (.reqStart _ rfl)).tail _ _ (.recvFail _ rfl)).tail _ _ (.recvReport _ rfl rfl)).tail _ _ (.killPing _ rfl rfl)).tail _ _ (.completed _ rfl)).tail _ _ (.reqEnd _ rfl rfl)).tail _ _ (.waited _ rfl rfl)).tail _ _ (.report _ rfl rfl)
      · exact ((((((((((Reach.refl.tail _ _ (.pingStart _ rfl)).tail _ _ (.recvStart _ rfl)).tail _ _ (.recvFail _ rfl)).tail _ _ (.recvReport _ rfl rfl)).tail _ _ (.killPing _ rfl rfl)).tail _ _ (.waited _ rfl rfl)).tail _ _ (.reqStart _ rfl)).tail _ _ (.reqMore _ rfl rfl)).tail _ _ (.reqCreate _ rfl)).tail _ _ (.report _ rfl rfl)).tail _ _ (.completed _ rfl)

theorem reach_ends_complete {heard : Bool} {m : Main} {p : Ping} {r : Recv} {q : Req} (hq : q = .ended) (h : Ends heard m p r q) : Reach (Step heard) (init true) ⟨m, p, r, q, true⟩ := by
  cases heard with
  | false =>
    cases h with
    | bothPing => subst hq; exact ((((((Reach.refl.tail _ _ (.pingStart _ rfl)).tail _ _ (.recvStart _ rfl)).tail _ _ (.reqStart _ rfl)).tail _ _ (.pingFail _ rfl)).tail _ _ (.recvFail _ rfl)).tail _ _ (.pingReport _ rfl rfl)).tail _ _ (.reqEnd _ rfl rfl)
    | bothRecv => subst hq; exact ((((((Reach.refl.tail _ _ (.pingStart _ rfl)).tail _ _ (.recvStart _ rfl)).tail _ _ (.reqStart _ rfl)).tail _ _ (.pingFail _ rfl)).tail _ _ (.recvFail _ rfl)).tail _ _ (.recvReport _ rfl rfl)).tail _ _ (.reqEnd _ rfl rfl)
    | quiet => subst hq; exact ((((((Reach.refl.tail _ _ (.pingStart _ rfl)).tail _ _ (.recvStart _ rfl)).tail _ _ (.reqStart _ rfl)).tail _ _ (.pingFail _ rfl)).tail _ _ (.recvQuiet _ rfl)).tail _ _ (.pingReport _ rfl rfl)).tail _ _ (.reqEnd _ rfl rfl)
    | finish => subst hq; exact (((((((Reach.refl.tail _ _ (.pingStart _ rfl)).tail _ _ (.recvStart _ rfl)).tail _ _ (.reqStart _ rfl)).tail _ _ (.pingFail _ rfl)).tail _ _ (.pingReport _ rfl rfl)).tail _ _ (.killRecv _ rfl rfl)).tail _ _ (.finishBlocks _ rfl)).tail _ _ (.reqEnd _ rfl rfl)
    | requesting => exact absurd hq (by decide)
    | stopped => subst hq; exact (((((((Reach.refl.tail _ _ (.pingStart _ rfl)).tail _ _ (.recvStart _ rfl)).tail _ _ (.reqStart _ rfl)).tail _ _ (.recvFail _ rfl)).tail _ _ (.recvReport _ rfl rfl)).tail _ _ (.killPing _ rfl rfl)).tail _ _ (.reqEnd _ rfl rfl)).tail _ _ (.waited _ rfl rfl)
  | true =>
    cases h with
    | bothPing => subst hq; exact ((((((Reach.refl.tail _ _ (.pingStart _ rfl)).tail _ _ (.recvStart _ rfl)).tail _ _ (.reqStart _ rfl)).tail _ _ (.pingFail _ rfl)).tail _ _ (.recvFail _ rfl)).tail _ _ (.pingReport _ rfl rfl)).tail _ _ (.reqEnd _ rfl rfl)
    | bothRecv => subst hq; exact ((((((Reach.refl.tail _ _ (.pingStart _ rfl)).tail _ _ (.recvStart _ rfl)).tail _ _ (.reqStart _ rfl)).tail _ _ (.pingFail _ rfl)).tail _ _ (.recvFail _ rfl)).tail _ _ (.recvReport _ rfl rfl)).tail _ _ (.reqEnd _ rfl rfl)
    | quiet => subst hq; exact ((((((Reach.refl.tail _ _ (.pingStart _ rfl)).tail _ _ (.recvStart _ rfl)).tail _ _ (.reqStart _ rfl)).tail _ _ (.pingFail _ rfl)).tail _ _ (.recvQuiet _ rfl)).tail _ _ (.pingReport _ rfl rfl)).tail _ _ (.reqEnd _ rfl rfl)
    | finish => subst hq; exact (((((((Reach.refl.tail _ _ (.pingStart _ rfl)).tail _ _ (.recvStart _ rfl)).tail _ _ (.reqStart _ rfl)).tail _ _ (.pingFail _ rfl)).tail _ _ (.pingReport _ rfl rfl)).tail _ _ (.killRecv _ rfl rfl)).tail _ _ (.finishBlocks _ rfl)).tail _ _ (.reqEnd _ rfl rfl)
    | requesting => exact absurd hq (by decide)
    | stopped => subst hq; exact ((((((((Reach.refl.tail _ _ (.pingStart _ rfl)).tail _ _ (.recvStart _ rfl)).tail _ _ (.reqStart _ rfl)).tail _ _ (.recvFail _ rfl)).tail _ _ (.recvReport _ rfl rfl)).tail _ _ (.killPing _ rfl rfl)).tail _ _ (.reqEnd _ rfl rfl)).tail _ _ (.waited _ rfl rfl)).tail _ _ (.report _ rfl rfl)

/-- **C57**, exactly how a peer's goroutines come to rest (partial: only the last of the ways is the one claimed).  A state can be reached in which nothing can happen any more if and only if
everything is there, `requestLoop` has ended or makes a request for ever, and the others stand in one of six ways: one of them has reported an error and the other has met one too (twice) or has
ended quietly, and `Loop` waits for somebody to take its order to stop; `Finish` blocks; `Loop` waits for a request that is made for ever; or both have stopped and `Loop` has come to its
report (or has returned, if somebody hears it). -/
theorem C57_ends_iff_partial (heard : Bool) (s : State) : (Reach (Step heard) (init false) s ∧ Stuck (Step heard) s) ↔
    s.complete = true ∧ (s.req = .ended ∨ s.req = .creating) ∧ Ends heard s.main s.ping s.recv s.req := by
  constructor
  · rintro ⟨h, hs⟩; exact ends_of_stuck h hs
  · obtain ⟨m, p, r, q, c⟩ := s
    rintro ⟨rfl, hq, he⟩
    exact ⟨reach_ends hq he, stuck_of_ends hq he⟩

/-- **C57**, the same for a client that has everything from the beginning (partial, as before): `requestLoop` has ended. -/
theorem C57_ends_seed_iff_partial (heard : Bool) (s : State) : (Reach (Step heard) (init true) s ∧ Stuck (Step heard) s) ↔
    s.complete = true ∧ s.req = .ended ∧ Ends heard s.main s.ping s.recv s.req := by
  constructor
  · rintro ⟨h, hs⟩
    obtain ⟨h1, h2, h3⟩ := ends_of_stuck h hs
    exact ⟨h1, h2.resolve_right (complete_stays h).2.2, h3⟩
  · obtain ⟨m, p, r, q, c⟩ := s
    rintro ⟨rfl, hq, he⟩
    exact ⟨reach_ends_complete hq he, stuck_of_ends (.inl hq) he⟩

/-- all six ways are different, and the last is the only one in which everybody has stopped and `Loop` is at its end -/
example : ∀ m p r q, Ends true m p r q → (m = .returned ↔ ¬ (m = .kill ∨ m = .waitProcs)) := by
  intro m p r q h
  cases h <;> simp [last]

end Verif.PeerLoop
