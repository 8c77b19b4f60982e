import Verif.Spec.LoadText
import Verif.Spec.Info
import Verif.Spec.Bencode
/-
The first thing that is wrong with a torrent file, and what is said about it (C105).
-/
set_option autoImplicit false

namespace Verif.LoadText
open Verif.Bencode Verif.Info

/-- a key is missing or has a value of another type, and the message about this -/
inductive Unmet (addr : Bytes) (d : Dict) (key : Bytes) (k : Kind) : Bytes → Prop
  | missing : Lacks d key → Unmet addr d key k (missingText addr key)
  | wrong (v : Value) (k' : Kind) : Has d key v → Is k' v → k' ≠ k → Unmet addr d key k (typeText (if k = .dict then ascii "0x0" else addr) key k k')

/-- what is wrong with an element of the list `files`; `shown` is the message about an element of a path -/
inductive BadFile (shown : Value → Bytes) (addr : Bytes) : Value → Bytes → Prop
  | notDict (v : Value) : ¬ Is .dict v → BadFile shown addr v (ascii "failed to convert file entry to dictionary")
  | length (f : Dict) (t : Bytes) : Unmet addr f (ascii "length") .int t → BadFile shown addr (.dict f) t
  | path (f : Dict) (n : Int) (t : Bytes) : Has f (ascii "length") (.int64 n) → Unmet addr f (ascii "path") .list t → BadFile shown addr (.dict f) t
  | element (f : Dict) (n : Int) (ps : List Bytes) (u : Value) (qs : List Value) : Has f (ascii "length") (.int64 n) →
      Has f (ascii "path") (.list (ps.map Value.str ++ u :: qs)) → ¬ Is .str u → BadFile shown addr (.dict f) (shown u)

/-- the first thing that is wrong with the dictionary `info` -/
inductive BadInfo (shown : Value → Bytes) (addr : Bytes) (info : Dict) : Bytes → Prop
  | name (t : Bytes) : Unmet addr info (ascii "name") .str t → BadInfo shown addr info t
  | pieceLen (name t : Bytes) : Has info (ascii "name") (.str name) → Unmet addr info (ascii "piece length") .int t → BadInfo shown addr info t
  | pieces (name : Bytes) (pl : Int) (t : Bytes) : Has info (ascii "name") (.str name) → Has info (ascii "piece length") (.int64 pl) →
      Unmet addr info (ascii "pieces") .str t → BadInfo shown addr info t
  | noFiles (name : Bytes) (pl : Int) (hashes : Bytes) : Has info (ascii "name") (.str name) → Has info (ascii "piece length") (.int64 pl) →
      Has info (ascii "pieces") (.str hashes) → (∀ n, ¬ Has info (ascii "length") (.int64 n)) → (∀ vs, ¬ Has info (ascii "files") (.list vs)) →
      BadInfo shown addr info (ascii "tracker error: missing keys 'length' and 'files', must have exactly 1")
  | file (name : Bytes) (pl : Int) (hashes : Bytes) (pre : List Value) (v : Value) (post : List Value) (ns : List Int) (t : Bytes) :
      Has info (ascii "name") (.str name) → Has info (ascii "piece length") (.int64 pl) → Has info (ascii "pieces") (.str hashes) →
      (∀ n, ¬ Has info (ascii "length") (.int64 n)) → Has info (ascii "files") (.list (pre ++ v :: post)) → FilesOf pre ns → BadFile shown addr v t →
      BadInfo shown addr info t
  | hashes (name : Bytes) (pl : Int) (hashes : Bytes) (ns : List Int) : Has info (ascii "name") (.str name) → Has info (ascii "piece length") (.int64 pl) →
      Has info (ascii "pieces") (.str hashes) → LengthsOf info ns → ¬ 20 ∣ hashes.length → BadInfo shown addr info (ascii "hashes must be multiple of 20")
  /-- the hashes end at the end of a file, and there are more bytes -/
  | counted (name : Bytes) (pl : Int) (hashes : Bytes) (np : Nat) (ms rest : List Int) : Has info (ascii "name") (.str name) → Has info (ascii "piece length") (.int64 pl) →
      Has info (ascii "pieces") (.str hashes) → LengthsOf info (ms ++ rest) → hashes.length = 20 * np → ms.sum = np * pl → rest.sum ≠ 0 →
      BadInfo shown addr info (ascii "only accounted for " ++ Bencode.Spec.decInt ms.sum ++ ascii "/" ++ Bencode.Spec.decInt (ms ++ rest).sum ++ ascii " bytes")

/-- the first thing that is wrong with the dictionary of a torrent file -/
inductive BadTorrent (shown : Value → Bytes) (addr : Bytes) (top : Dict) : Bytes → Prop
  | announce (t : Bytes) : Unmet addr top (ascii "announce") .str t → BadTorrent shown addr top t
  | info (a t : Bytes) : Has top (ascii "announce") (.str a) → Unmet addr top (ascii "info") .dict t → BadTorrent shown addr top t
  | inside (a : Bytes) (info : Dict) (t : Bytes) : Has top (ascii "announce") (.str a) → Has top (ascii "info") (.dict info) → BadInfo shown addr info t →
      BadTorrent shown addr top t

/-- the numbers of a torrent file are sensible: the piece length is positive and no length is negative -/
def Sensible (top : Dict) : Prop :=
  ∀ info pl ns, Has top (ascii "info") (.dict info) → Has info (ascii "piece length") (.int64 pl) → LengthsOf info ns → 0 < pl ∧ ∀ n ∈ ns, 0 ≤ n

end Verif.LoadText
