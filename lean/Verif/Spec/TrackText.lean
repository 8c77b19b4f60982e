import Verif.Spec.LoadText
import Verif.Spec.Bencode
import Verif.Model.Peer
/-
What is wrong with an answer of the tracker, and what the error for it should say (C106).
-/
set_option autoImplicit false

namespace Verif.TrackText
open Verif.Bencode Verif.Bencode.Spec Verif.Peer Verif.LoadText

/-- the dictionary has a value of this type for the key -/
def Fine (d : Dict) (p : Bytes × Kind) : Prop := ∃ v, Has d p.1 v ∧ Is p.2 v

/-- it has not, and the text says so: the key is missing, or which type was found instead -/
inductive Unfit (addr : Bytes) (d : Dict) (p : Bytes × Kind) : Bytes → Prop where
  | missing : Lacks d p.1 → Unfit addr d p (missingText addr p.1)
  | wrong (v k) : Has d p.1 v → Is k v → k ≠ p.2 → Unfit addr d p (typeText addr p.1 p.2 k)

/-- the first of these keys for which that is so -/
inductive First (addr : Bytes) (d : Dict) (ps : List (Bytes × Kind)) (t : Bytes) : Prop where
  | mk (before p after) : ps = before ++ p :: after → (∀ q ∈ before, Fine d q) → Unfit addr d p t → First addr d ps t

/-- the numbers of an answer -/
def numbers : List (Bytes × Kind) := [(ascii "interval", .int), (ascii "complete", .int), (ascii "incomplete", .int)]

/-- what is known about a peer -/
def entryKeys : List (Bytes × Kind) := [(ascii "ip", .str), (ascii "port", .int), (ascii "peer id", .str)]

/-- an entry of the list of peers, and where it says that the peer is; a port is a number modulo 2^16 -/
inductive Entry (parseIP : Bytes → IP) : Value → IP × Nat → Prop where
  | mk (d ip port id) : Has d (ascii "ip") (.str ip) → Has d (ascii "port") (.int64 port) → Has d (ascii "peer id") (.str id) →
      Entry parseIP (.dict d) (parseIP ip, (port % 65536).toNat)

/-- an element is in a list in front of which all others are entries, which say that the peers are there -/
inductive FirstBad (parseIP : Bytes → IP) (vs : List Value) (v : Value) (ps : List (IP × Nat)) : Prop where
  | mk (before after) : vs = before ++ v :: after → before.length = ps.length →
      (∀ (i : Nat) u p, before[i]? = some u → ps[i]? = some p → Entry parseIP u p) → FirstBad parseIP vs v ps

/-- the list of peers in a message: five in each line, with the text `ip` of an address -/
def listed (ip : IP → Bytes) : Nat → List (IP × Nat) → Bytes
  | _, [] => []
  | i, p :: ps => (if i % 5 = 0 then ascii "\n\t" else []) ++ ascii "(" ++ ip p.1 ++ ascii ":" ++ decNat p.2 ++ ascii ") " ++ listed ip (i + 1) ps

/-- there is no failure reason that is a text -/
def NoReason (d : Dict) : Prop := ∀ s, ¬ Has d (ascii "failure reason") (.str s)

/-- what is wrong with the answer `d`, the first thing of it, and the text for it -/
inductive Fault (ip : IP → Bytes) (parseIP : Bytes → IP) (addr : Bytes) (d : Dict) : Bytes → Prop where
  /-- the tracker says that the request has failed -/
  | reason (s) : Has d (ascii "failure reason") (.str s) → Fault ip parseIP addr d (ascii "tracker error: " ++ s)
  | number (t) : NoReason d → First addr d numbers t → Fault ip parseIP addr d t
  /-- the peers are neither a text nor a list -/
  | peers (t) : NoReason d → (∀ q ∈ numbers, Fine d q) → (∀ s, ¬ Has d (ascii "peers") (.str s)) → Unfit addr d (ascii "peers", .list) t → Fault ip parseIP addr d t
  | compact (s) : NoReason d → (∀ q ∈ numbers, Fine d q) → Has d (ascii "peers") (.str s) → ¬ 6 ∣ s.length →
      Fault ip parseIP addr d (ascii "tracker error: compact peer list must be divisible by 6, length = [" ++ decNat s.length ++ ascii "]")
  /-- an element of the list of peers is not a dictionary -/
  | entry (vs v ps) : NoReason d → (∀ q ∈ numbers, Fine d q) → Has d (ascii "peers") (.list vs) → FirstBad parseIP vs v ps → ¬ Is .dict v →
      Fault ip parseIP addr d (ascii "tracker error: invalid peer list\n[Peer List (" ++ decNat ps.length ++ ascii "):" ++ listed ip 0 ps ++ ascii "]")
  /-- it lacks something -/
  | entryKey (vs e ps t) : NoReason d → (∀ q ∈ numbers, Fine d q) → Has d (ascii "peers") (.list vs) → FirstBad parseIP vs (.dict e) ps →
      First addr e entryKeys t → Fault ip parseIP addr d t

/-- bytes in a message: their numbers, with blanks between them -/
def shown (b : Bytes) : Bytes := ascii "[" ++ List.intercalate (ascii " ") (b.map fun c => decNat c.toNat) ++ ascii "]"

end Verif.TrackText
