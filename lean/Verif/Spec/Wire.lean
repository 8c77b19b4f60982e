import Verif.Model.Go
/-
Specification of the peer wire format (BEP 3): abstract messages and their wire form.
-/
set_option autoImplicit false

namespace Verif.Wire

/-- the four bytes of a number, most significant first -/
def be32 (n : Nat) : Bytes :=
  [UInt8.ofNat (n / 2 ^ 24), UInt8.ofNat (n / 2 ^ 16), UInt8.ofNat (n / 2 ^ 8), UInt8.ofNat n]

/-- abstract peer messages -/
inductive Msg where
  | keepAlive
  | choke
  | unchoke
  | interested
  | notInterested
  | have (index : UInt32)
  | bitfield (bits : Bytes)
  | request (index begin length : UInt32)
  | piece (index begin : UInt32) (block : Bytes)
  deriving DecidableEq

/-- everything behind the length prefix: type byte and payload -/
def body : Msg → Bytes
  | .keepAlive => []
  | .choke => [0]
  | .unchoke => [1]
  | .interested => [2]
  | .notInterested => [3]
  | .have i => 4 :: be32 i.toNat
  | .bitfield bs => 5 :: bs
  | .request i b l => 6 :: (be32 i.toNat ++ be32 b.toNat ++ be32 l.toNat)
  | .piece i b blk => 7 :: (be32 i.toNat ++ be32 b.toNat ++ blk)

/-- the wire form: length of the body, then the body -/
def wire (m : Msg) : Bytes := be32 (body m).length ++ body m

/-- the wire form of a sequence of messages -/
def stream (ms : List Msg) : Bytes := (ms.map wire).flatten

/-- number announced by the first four bytes -/
def prefixLen (data : Bytes) : Nat := (data.take 4).foldl (fun a b => 256 * a + b.toNat) 0

/-- messages whose length prefix does not overflow -/
def Fits (m : Msg) : Prop := (body m).length < 2 ^ 32

end Verif.Wire
