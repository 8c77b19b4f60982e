import Verif.Model.Log
import Verif.Spec.Show
import Verif.Spec.Lts
/-
How a log is read: dates, lines, and which of its entries are about what.
-/
set_option autoImplicit false

namespace Verif.LogSpec
open Verif.Log Verif.ShowSpec

/-- a date and a time with a blank behind them, like `2009/11/10 23:00:00 ` -/
def Dated (t : Bytes) : Prop :=
  t.length = 20 ∧ ∀ (i : Nat) (c : UInt8), t[i]? = some c →
    if i = 4 ∨ i = 7 then c = 47 else if i = 10 ∨ i = 19 then c = 32 else if i = 13 ∨ i = 16 then c = 58 else 48 ≤ c ∧ c ≤ 57

/-- a text without the line feed at its end, if there is one -/
def chomp (s : Bytes) : Bytes := if s.getLast? = some 10 then s.dropLast else s

/-- the texts of errors and numbers that an entry was made of -/
def reports : Entry → List Bytes
  | .has _ _ pc | .decoded _ _ pc _ => [pc]
  | .noBootstrap _ e | .refused e | .unchokeError e | .killing _ e => [e]
  | _ => []

/-- the entries about one connection -/
def own (σ : State) (i : Nat) : List Entry := (σ.log.filter fun l => l.conn == some i).map Line.entry

/-- the goroutine that makes an entry -/
inductive Part where
  | before | main | ping | recv | req | reader
  deriving DecidableEq

/-- the goroutine that makes an entry; `before` is everything up to `Loop` -/
def part : Entry → Part
  | .unchokeError _ | .killing _ _ | .done _ => .main
  | .pingStart _ | .pingSent _ | .pingError _ | .pingEnd _ => .ping
  | .recvStart _ | .decoded _ _ _ _ | .registered | .recvEnd _ => .recv
  | .reqStart _ | .reqEnd _ => .req
  | .readStart _ | .readEnd _ => .reader
  | _ => .before

/-- what one goroutine of a connection says -/
def said (σ : State) (i : Nat) (p : Part) : List Entry := (own σ i).filter fun e => part e == p

/-- the whole story of a `pingLoop` that wrote `n` keep-alive messages; `lost` tells whether one could not be written -/
def pingStory (addr str : Bytes) (n : Nat) (lost : Bool) : List Entry :=
  .pingStart addr :: (List.replicate n (.pingSent addr) ++ (if lost then [.pingError addr, .pingSent addr] else []) ++ [.pingEnd str])

/-- the story of a connection that was accepted, up to `Loop` -/
def greeting (remote : Bytes) : List Entry := [.newClient remote, .goodHandshake remote, .sentHandshake remote, .sentBitfield remote]

/-- the number of bytes used and the number of bytes there, in an entry about a buffer -/
def buffers (es : List Entry) : List (Nat × Nat) := es.filterMap fun
  | .decoded read len _ _ => some (read, len)
  | _ => none

/-- messages that are bitfields -/
def bitfields (ms : List P2P.Msg) : Nat := ms.countP fun
  | .bitfield _ _ => true
  | _ => false

end Verif.LogSpec
