import Verif.Model.PeerLoop
import Verif.Lemmas.Lts
/-
C57: what happens to the goroutines of a peer after an error.
-/
set_option autoImplicit false

namespace Verif.PeerLoop
open Verif.Lts

/-- the three goroutines have returned -/
def Stopped (s : State) : Prop := s.ping = .ended ∧ s.recv = .ended ∧ s.req = .ended

/-- what C57 asks for -/
def TornDown (s : State) : Prop := Stopped s ∧ s.main = .returned

/-- C57 refuted, always: nobody made the channel on which `Loop` reports, so `Loop` never returns, whatever the schedule. -/
theorem C57_refuted_never_returns (s0 s : State) (h0 : s0.main ≠ .returned) (h : Reach (Step false) s0 s) : s.main ≠ .returned := by
  refine h.keep (Q := fun s => s.main ≠ .returned) ?_ h0
  intro a b h1 hs
  cases hs <;> simp_all

/-- C57 refuted even if the report is heard: once `requestLoop` makes a request it never ends, and `Loop`, if it has not passed its `Wait`,
never passes it. -/
theorem C57_refuted_request (heard : Bool) (s s' : State) (hr : s.req = .creating) (hm : s.main ≠ .report ∧ s.main ≠ .returned)
    (h : Reach (Step heard) s s') : s'.req = .creating ∧ s'.main ≠ .report ∧ s'.main ≠ .returned := by
  refine h.keep (Q := fun s => s.req = .creating ∧ s.main ≠ .report ∧ s.main ≠ .returned) ?_ ⟨hr, hm⟩
  rintro a b ⟨h1, h2, h3⟩ hs
  cases hs <;> simp_all [State.idle, Req.counted]

/-- an error is being reported while a request is being made -/
example : ∃ s, Reach (Step true) (init false) s ∧ s.req = .creating ∧ s.recv = .fail ∧ s.main = .wait :=
  ⟨_, .head (.reqStart _ rfl) <| .head (.reqMore _ rfl rfl) <| .head (.reqCreate _ rfl) <| .head (.recvStart _ rfl) <| .head (.recvFail _ rfl) <| .refl, rfl, rfl, rfl⟩

/-- C57 refuted even if the report is heard and there is nothing to request: if both other goroutines meet an error, one waits for `Loop` to
take it and `Loop` waits for somebody to take its order to stop. -/
theorem C57_refuted_two_errors (heard : Bool) : ∃ s, Reach (Step heard) (init true) s ∧ s.main = .kill ∧ s.ping = .fail ∧ s.recv = .ended ∧ s.req = .ended ∧
    Stuck (Step heard) s := by
  refine ⟨_, .head (.reqStart _ rfl) <| .head (.reqEnd _ rfl rfl) <| .head (.pingStart _ rfl) <| .head (.recvStart _ rfl) <| .head (.pingFail _ rfl) <|
    .head (.recvFail _ rfl) <| .head (.recvReport _ rfl rfl) <| .refl, rfl, rfl, rfl, rfl, ?_⟩
  intro s' hs
  cases hs <;> simp_all [init]

/-- C57 refuted even if only one goroutine meets an error: a keep-alive fails, `recvLoop` is told to stop, and its `Finish` blocks (C56). -/
theorem C57_refuted_finish (heard : Bool) : ∃ s, Reach (Step heard) (init true) s ∧ s.main = .waitProcs ∧ s.ping = .ended ∧ s.recv = .blocked ∧ s.req = .ended ∧
    Stuck (Step heard) s := by
  refine ⟨_, .head (.reqStart _ rfl) <| .head (.reqEnd _ rfl rfl) <| .head (.pingStart _ rfl) <| .head (.recvStart _ rfl) <| .head (.pingFail _ rfl) <|
    .head (.pingReport _ rfl rfl) <| .head (.killRecv _ rfl rfl) <| .head (.finishBlocks _ rfl) <| .refl, rfl, rfl, rfl, rfl, ?_⟩
  intro s' hs
  cases hs <;> simp_all [State.idle, Recv.counted, init]

/-- C57 refuted when `recvLoop` ends without an error to report: `Loop` and `pingLoop` go on as if nothing had happened until a
keep-alive fails. -/
theorem C57_refuted_quiet (heard : Bool) (s s' : State) (hr : s.recv = .ended) (hm : s.main = .wait) (h : Reach (Step heard) s s')
    (hp : s'.ping ≠ .ended) : s'.main = .wait := by
  have key : s'.recv = .ended ∧ (s'.main = .wait ∨ s'.ping = .ended) := by
    refine h.keep (Q := fun s => s.recv = .ended ∧ (s.main = .wait ∨ s.ping = .ended)) ?_ ⟨hr, .inl hm⟩
    rintro a b ⟨h1, h2⟩ hs
    cases hs <;> simp_all
  rcases key.2 with h | h
  · exact h
  · exact absurd h hp

/-- The wait group does not count goroutines that have not begun: `Loop` can pass its `Wait` and `requestLoop` begin afterwards. -/
theorem C57_refuted_wait (heard : Bool) : ∃ s, Reach (Step heard) (init false) s ∧ s.main = .report ∧ s.req = .notStarted ∧
    ∃ s', Reach (Step heard) s s' ∧ s'.req = .creating := by
  refine ⟨_, .head (.pingStart _ rfl) <| .head (.recvStart _ rfl) <| .head (.recvFail _ rfl) <|
    .head (.recvReport _ rfl rfl) <| .head (.killPing _ rfl rfl) <| .head (.waited _ rfl rfl) <| .refl, rfl, rfl,
    _, .head (.reqStart _ rfl) <| .head (.reqMore _ rfl rfl) <| .head (.reqCreate _ rfl) <| .refl, rfl⟩

/-- **C57** (partial: goroutines that have not begun are not waited for, see `C57_refuted_wait`): `Loop` passes its `Wait` only when every goroutine that
has begun has ended, and can pass it then. -/
theorem C57_wait_partial (heard : Bool) (s : State) (hm : s.main = .waitProcs) :
    (∃ s', Step heard s s' ∧ s'.main = .report) ↔
      (s.ping = .notStarted ∨ s.ping = .ended) ∧ (s.recv = .notStarted ∨ s.recv = .ended) ∧ (s.req = .notStarted ∨ s.req = .ended) := by
  constructor
  · rintro ⟨s', hs, h'⟩
    cases hs <;> simp_all
    rename_i hi
    obtain ⟨main, ping, recv, req, c⟩ := s
    revert hi
    cases ping <;> cases recv <;> cases req <;> simp [State.idle, Ping.counted, Recv.counted, Req.counted]
  · rintro ⟨h1, h2, h3⟩
    refine ⟨_, .waited s hm ?_, rfl⟩
    rcases h1 with h1 | h1 <;> rcases h2 with h2 | h2 <;> rcases h3 with h3 | h3 <;> rw [State.idle, h1, h2, h3] <;> rfl

/-- an instance: a keep-alive has failed while `recvLoop` was told to stop -/
example : ¬ ∃ s', Step true ⟨.waitProcs, .fail, .ended, .ended, true⟩ s' ∧ s'.main = .report := by
  rw [C57_wait_partial _ _ rfl]; simp

/-- **C57** (partial: one error only, nothing left to request, and `Loop` stops at its report).  If `recvLoop` has reported an error while
`pingLoop` runs and `requestLoop` has ended, then in every schedule all goroutines stop and `Loop` comes to its report, unless a keep-alive
fails first. -/
theorem C57_recv_error_partial (heard : Bool) (s : State) (hm : s.main = .kill) (hr : s.recv = .ended) (hp : s.ping = .run) (hq : s.req = .ended)
    (hc : s.complete = true) : Inevitable (Step heard) (fun s => Stopped s ∧ s.main = .report ∨ s.ping = .fail) s := by
  refine .next s ⟨_, .killPing s hp hm⟩ ?_
  intro s' hs
  cases hs <;> simp_all
  · exact .now _ (.inr rfl)
  · refine .next _ ⟨_, .waited _ rfl (by simp [State.idle, Ping.counted, Recv.counted, Req.counted])⟩ ?_
    intro s' hs
    cases hs <;> simp_all
    exact .now _ (.inl ⟨⟨rfl, rfl, rfl⟩, rfl⟩)

/-- **C57** (partial, as before): if `pingLoop` has reported an error while `recvLoop` runs and `requestLoop` has ended, then in every
schedule all goroutines stop and `Loop` comes to its report, unless `recvLoop` fails or ends by itself, or its `Finish` blocks. -/
theorem C57_ping_error_partial (heard : Bool) (s : State) (hm : s.main = .kill) (hr : s.recv = .run) (hp : s.ping = .ended) (hq : s.req = .ended)
    (hc : s.complete = true) :
    Inevitable (Step heard) (fun s' => Stopped s' ∧ s'.main = .report ∨ s'.recv = .fail ∨ s'.recv = .blocked ∨ s'.recv = .ended ∧ s'.main = .kill) s := by
  refine .next s ⟨_, .killRecv s hr hm⟩ ?_
  intro s' hs
  cases hs <;> simp_all
  · exact .now _ (.inr (.inl rfl))
  · exact .now _ (.inr (.inr (.inr ⟨rfl, rfl⟩)))
  · refine .next _ ⟨_, .finish _ rfl⟩ ?_
    intro s' hs
    cases hs <;> simp_all
    · refine .next _ ⟨_, .waited _ rfl (by simp [State.idle, Ping.counted, Recv.counted, Req.counted])⟩ ?_
      intro s' hs
      cases hs <;> simp_all
      exact .now _ (.inl ⟨⟨rfl, rfl, rfl⟩, rfl⟩)
    · exact .now _ (.inr (.inr (.inl rfl)))
    · rename_i h; simp [State.idle, Recv.counted] at h

/-- a single error, reported -/
example : ∃ s, Reach (Step false) (init true) s ∧ s.main = .kill ∧ s.recv = .ended ∧ s.ping = .run ∧ s.req = .ended ∧ s.complete = true :=
  ⟨_, .head (.reqStart _ rfl) <| .head (.reqEnd _ rfl rfl) <| .head (.pingStart _ rfl) <| .head (.recvStart _ rfl) <| .head (.recvFail _ rfl) <|
    .head (.recvReport _ rfl rfl) <| .refl, rfl, rfl, rfl, rfl, rfl⟩

end Verif.PeerLoop
