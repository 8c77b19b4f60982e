import Verif.Model.Bencode
/-
Model of /repo/src/peer/info.go, list.go and state.go.
-/
set_option autoImplicit false

namespace Verif.Peer
open Verif.Bencode

/-- Go's `net.IP`: nil (empty), 4 or 16 bytes -/
abbrev IP := Bytes

/-- `net.IPv4` -/
def IPv4 (a b c d : UInt8) : IP := [0, 0, 0, 0, 0, 0, 0, 0, 0, 0, 255, 255, a, b, c, d]

/-- `net.IP.To4` -/
def To4 (ip : IP) : Option (UInt8 × UInt8 × UInt8 × UInt8) :=
  match ip with
  | [a, b, c, d] => some (a, b, c, d)
  | [0, 0, 0, 0, 0, 0, 0, 0, 0, 0, 255, 255, a, b, c, d] => some (a, b, c, d)
  | _ => none

/-- `net.IP.String`; the text of addresses that are not IPv4 is the parameter `v6` -/
def ipString (v6 : IP → Bytes) (ip : IP) : Bytes :=
  if ip = [] then ascii "<nil>"
  else match To4 ip with
    | some (a, b, c, d) => natDec a.toNat ++ [46] ++ natDec b.toNat ++ [46] ++ natDec c.toNat ++ [46] ++ natDec d.toNat
    | none => v6 ip

/-- info.go:9-15 -/
structure Info where
  id : Bytes
  ip : IP
  port : UInt16
  addr : Bytes
  str : Bytes
  deriving DecidableEq, Repr

/-- info.go:17-30 `MakePeer` -/
def MakePeer (v6 : IP → Bytes) (id : Bytes) (ip : IP) (port : UInt16) : Info :=
  { id := id, ip := ip, port := port,
    addr := ipString v6 ip ++ [58] ++ natDec port.toNat,
    str := id ++ ascii " @ " ++ ipString v6 ip ++ [58] ++ natDec port.toNat }

end Verif.Peer
