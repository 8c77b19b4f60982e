import Verif.Props.Peers
/-
C76: a connection whose receiving loop is over.
-/
set_option autoImplicit false

namespace Verif.Peers
open Verif.P2P Verif.Peer Verif.MsgHandler Verif.Lts

/-- what stays as it is, once the receiving loop has ended or hangs -/
def Over (c c' : Conn) : Prop :=
  c'.recv = c.recv ∧ c'.got = c.got ∧ c'.handled = c.handled ∧ c'.todo = c.todo ∧ c'.peerBf = c.peerBf ∧ c'.peer = c.peer

theorem over_step {E : Env} {σ σ' : Client} (h : Step E σ σ') (i : Nat) (c : Conn) (hi : σ.conns[i]? = some c) (hr : c.recv ≠ .running) :
    ∃ c', σ'.conns[i]? = some c' ∧ Over c c' := by
  have app : ∀ l : List Conn, (σ.conns ++ l)[i]? = some c := fun l => by
    rw [List.getElem?_append_left (List.getElem?_eq_some_iff.mp hi).1]; exact hi
  have upd : ∀ (k : Nat) (d e : Conn), σ.conns[k]? = some d → (k = i → Over d e) → ∃ c', (σ.conns.set k e)[i]? = some c' ∧ Over c c' := by
    intro k d e hk ho
    by_cases he : k = i
    · subst he
      obtain rfl := Option.some.inj (hk.symm.trans hi)
      exact ⟨e, by rw [List.getElem?_set_self (List.getElem?_eq_some_iff.mp hi).1], ho rfl⟩
    · exact ⟨c, by rw [List.getElem?_set_ne he]; exact hi, rfl, rfl, rfl, rfl, rfl, rfl⟩
  have run : ∀ (k : Nat) (d e : Conn), σ.conns[k]? = some d → d.recv = .running → ∃ c', (σ.conns.set k e)[i]? = some c' ∧ Over c c' := by
    intro k d e hk hd
    refine upd k d e hk fun he => ?_
    subst he
    obtain rfl := Option.some.inj (hk.symm.trans hi)
    exact absurd hd hr
  have same : ∃ c', σ.conns[i]? = some c' ∧ Over c c' := ⟨c, hi, rfl, rfl, rfl, rfl, rfl, rfl⟩
  cases h with
  | incoming => exact ⟨c, app _, rfl, rfl, rfl, rfl, rfl, rfl⟩
  | incomingPanic => exact same
  | outgoing => exact ⟨c, app _, rfl, rfl, rfl, rfl, rfl, rfl⟩
  | outgoingPanic => exact same
  | receive k d buf fuel dar _ hk hd => exact run k d _ hk hd
  | receivePanic k d buf fuel _ hk hd => exact run k d _ hk hd
  | receiveHangs k d buf _ hk hd => exact run k d _ hk hd
  | handle k d m ms ok st _ hk hd => exact run k d _ hk hd
  | handleError k d m ms ok st e _ hk hd => exact run k d _ hk hd
  | handlePanic => exact same
  | handleHangs k d m ms ok st _ hk hd => exact run k d _ hk hd
  | request k d t n fuel ms ws out _ hk => exact upd k d _ hk fun _ => ⟨rfl, rfl, rfl, rfl, rfl, rfl⟩
  | requestHangs k d t n _ hk => exact upd k d _ hk fun _ => ⟨rfl, rfl, rfl, rfl, rfl, rfl⟩
  | requestNone => exact same
  | requestPanic => exact same
  | ping k d m _ hk => exact upd k d _ hk fun _ => ⟨rfl, rfl, rfl, rfl, rfl, rfl⟩

/-- **C76**: once the receiving loop of a connection has ended with an error or hangs, nothing that its peer sends is received or handled any more, and its bitfield and the messages
that were still to be handled stay as they are, whatever happens. -/
theorem C76_over {E : Env} {σ σ' : Client} (h : Reach (Step E) σ σ') (i : Nat) (c : Conn) (hi : σ.conns[i]? = some c) (hr : c.recv ≠ .running) :
    ∃ c', σ'.conns[i]? = some c' ∧ Over c c' := by
  induction h with
  | refl => exact ⟨c, hi, rfl, rfl, rfl, rfl, rfl, rfl⟩
  | tail s' s'' _ hs ih =>
    obtain ⟨c1, h1, a1, a2, a3, a4, a5, a6⟩ := ih
    obtain ⟨c2, h2, b1, b2, b3, b4, b5, b6⟩ := over_step hs i c1 h1 (by rw [a1]; exact hr)
    exact ⟨c2, h2, b1.trans a1, b2.trans a2, b3.trans a3, b4.trans a4, b5.trans a5, b6.trans a6⟩

/-- a connection hangs, and then a keep-alive message is written to it -/
example (E : Env) (p : Info) (me : PieceTracker.PH) (bf : Bf.Bitfield) (t : PieceTracker.Tracker) :
    let c : Conn := ⟨p, me, bf, [], .hangs, [], 0, true, [[0]], [], []⟩
    ∃ σ', Reach (Step E) ⟨t, [c], false⟩ σ' ∧ σ'.conns[0]? = some { c with out := [[0, 0, 0, 0]] } ∧ c.recv ≠ .running :=
  ⟨_, .tail _ _ .refl (.ping 0 _ [0, 0, 0, 0] rfl rfl rfl), rfl, nofun⟩

end Verif.Peers
