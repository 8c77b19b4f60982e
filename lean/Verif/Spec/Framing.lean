import Verif.Spec.Wire
/-
Specification for C94: how arbitrary bytes are taken apart into messages.
-/
set_option autoImplicit false

namespace Verif.Framing
open Verif.Wire

/-- a complete frame: length prefix, type byte and payload -/
def frame (t : UInt8) (p : Bytes) : Bytes := be32 (p.length + 1) ++ t :: p

/-- messages that are understood: all but piece messages and empty bitfields -/
def Understood : Msg → Prop
  | .piece _ _ _ => False
  | .bitfield bs => bs ≠ []
  | _ => True

/-- bytes that are given up together with everything behind them -/
def GivenUp (data : Bytes) : Prop :=
  (0 < data.length ∧ data.length < 4) ∨
  (data.length = 4 ∧ prefixLen data ≠ 0) ∨
  ∃ t, data[4]? = some t ∧ prefixLen data ≠ 0 ∧
    ((t.toNat ≤ 3 ∧ prefixLen data ≠ 1) ∨
     (prefixLen data < 2 ^ 32 - 4 ∧ data.length < 4 + prefixLen data) ∨
     (8 ≤ t.toNat ∧ 4 + prefixLen data ≤ data.length))

/-- how the taking apart ends -/
inductive End where
  | normal
  | crash
  | stuck
  deriving DecidableEq

/-- `Reads data ws e`: taking `data` apart gives the messages `ws` and ends with `e` -/
inductive Reads : Bytes → List Msg → End → Prop where
  | nil : Reads [] [] .normal
  | message (w : Msg) (rest : Bytes) (ws : List Msg) (e : End) (hw : Understood w) (h : Reads rest ws e) :
      Reads (wire w ++ rest) (w :: ws) e
  /-- a have message with a payload of another length than 4: nine bytes are skipped -/
  | oddHave (p rest : Bytes) (ws : List Msg) (e : End) (hp : p.length ≠ 4) (h : Reads ((frame 4 p ++ rest).drop 9) ws e) :
      Reads (frame 4 p ++ rest) ws e
  /-- a request with a payload of another length than 12: seventeen bytes are skipped -/
  | oddRequest (p rest : Bytes) (ws : List Msg) (e : End) (hp : p.length ≠ 12) (h : Reads ((frame 6 p ++ rest).drop 17) ws e) :
      Reads (frame 6 p ++ rest) ws e
  | givenUp (data : Bytes) (h : GivenUp data) : Reads data [] .normal
  | piece (p rest : Bytes) : Reads (frame 7 p ++ rest) [] .crash
  | overflow (data : Bytes) (t : UInt8) (ht : data[4]? = some t) (h3 : 3 < t.toNat) (hp : 2 ^ 32 - 4 ≤ prefixLen data) :
      Reads data [] .crash
  | emptyBitfield (rest : Bytes) : Reads (frame 5 [] ++ rest) [] .stuck

end Verif.Framing
