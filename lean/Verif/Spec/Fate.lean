import Verif.Spec.Wire
import Verif.Spec.Bits
import Verif.Spec.Avail
/-
Specification for C95: what becomes of a connection and of the client when a sequence of messages arrives.  No files, buffers or
decoding here: a client is the number of its pieces, their length and which of them it has.
-/
set_option autoImplicit false

namespace Verif.Fate
open Verif.Wire Verif.Bits Verif.Avail

/-- a client: number of pieces, piece length, and the bits of its own bitfield (the last byte may have bits beyond the pieces) -/
structure Client where
  pieces : Nat
  pieceLen : Nat
  bits : Nat → Bool

/-- all pieces are there -/
def Client.complete (c : Client) : Bool := (List.range c.pieces).all c.bits

/-- what changes: who is registered for which piece, and how many messages have been written to the connection -/
structure Now where
  registered : State
  written : Nat

/-- what becomes of it: the connection goes on, or only the connection ends, or the whole process ends -/
inductive Fate where
  | goesOn
  | ends
  | crashes
  deriving DecidableEq, Repr

/-- a piece that this peer announces already has 63 other peers -/
def crowded (c : Client) (key p : Bytes) (a : State) : Bool :=
  (List.range c.pieces).any fun i => bit p i && !decide (key ∈ a i) && decide (63 ≤ (a i).length)

/-- the peer is registered for all pieces it announces -/
def announce (c : Client) (key p : Bytes) (a : State) : State :=
  fun i => if i < c.pieces ∧ bit p i = true ∧ key ∉ a i then a i ++ [key] else a i

/-- one message; `writeOk n` tells whether the `n`-th write to the connection succeeds -/
def hear (c : Client) (key : Bytes) (writeOk : Nat → Bool) (σ : Now) : Msg → Now × Fate
  | .request i b l =>
    if i.toNat < c.pieces then
      if c.bits i.toNat then
        if b.toNat + l.toNat ≤ c.pieceLen then
          if writeOk σ.written then ({ σ with written := σ.written + 1 }, .goesOn) else (σ, .ends)
        else (σ, .crashes)
      else (σ, .goesOn)
    else if c.complete then (σ, .ends)
    else if i.toNat < (c.pieces + 7) / 8 * 8 then (σ, if c.bits i.toNat then .ends else .goesOn)
    else (σ, .crashes)
  | .bitfield p =>
    if p.length ≠ (c.pieces + 7) / 8 then (σ, .ends)
    else if crowded c key p σ.registered then (σ, .crashes)
    else ({ σ with registered := announce c key p σ.registered }, .goesOn)
  | _ => (σ, .goesOn)

/-- a sequence of messages, up to the first that does not let the connection go on -/
def hearAll (c : Client) (key : Bytes) (writeOk : Nat → Bool) : Now → List Msg → Now × Fate
  | σ, [] => (σ, .goesOn)
  | σ, w :: ws =>
    match hear c key writeOk σ w with
    | (σ', .goesOn) => hearAll c key writeOk σ' ws
    | r => r

end Verif.Fate
