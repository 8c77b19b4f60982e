import Verif.Model.Bencode
/-
Specification side of the bencode properties: the grammar of canonical bencode (BEP 3), equality of
values with dictionaries read as finite maps, and the predicates used as hypotheses.
Only the *type* `Value` is taken from the model; nothing below uses the encoder or decoder.
-/
set_option autoImplicit false

namespace Verif.Bencode.Spec
open Verif.Bencode

/-- decimal notation of a natural number, as bytes -/
def decNat (n : Nat) : Bytes := ascii (toString n)
/-- decimal notation of an integer ("-" only for negative ones), as bytes -/
def decInt (i : Int) : Bytes := ascii (toString i)

mutual
/-- `Canon v b`: the byte string `b` is the canonical bencoding of `v` (BEP 3: dictionary keys sorted
as raw byte strings and without repetition, minimal decimal numbers).  This package additionally
has no encoding for the empty string. -/
inductive Canon : Value → Bytes → Prop
  | str (s : Bytes) : s ≠ [] → Canon (.str s) (decNat s.length ++ ascii ":" ++ s)
  | int (i : Int) : Canon (.int64 i) (ascii "i" ++ decInt i ++ ascii "e")
  | list (vs : List Value) (b : Bytes) : CanonSeq vs b → Canon (.list vs) (ascii "l" ++ b ++ ascii "e")
  | dict (es : List (Bytes × Value)) (b : Bytes) :
      CanonEntries es b → (es.map Prod.fst).Pairwise (· < ·) →
      Canon (.dict es) (ascii "d" ++ b ++ ascii "e")
/-- concatenated encodings of list elements -/
inductive CanonSeq : List Value → Bytes → Prop
  | nil : CanonSeq [] []
  | cons (v : Value) (vs : List Value) (b bs : Bytes) :
      Canon v b → CanonSeq vs bs → CanonSeq (v :: vs) (b ++ bs)
/-- concatenated encodings of dictionary entries -/
inductive CanonEntries : List (Bytes × Value) → Bytes → Prop
  | nil : CanonEntries [] []
  | cons (k : Bytes) (v : Value) (es : List (Bytes × Value)) (b bs : Bytes) :
      k ≠ [] → Canon v b → CanonEntries es bs →
      CanonEntries ((k, v) :: es) (decNat k.length ++ ascii ":" ++ k ++ b ++ bs)
end

/-- `RawEntries es b`: `b` is the concatenation of the encodings of the entries `es`, in that order;
keys may be unsorted, repeated or empty -/
inductive RawEntries : List (Bytes × Value) → Bytes → Prop
  | nil : RawEntries [] []
  | cons (k : Bytes) (v : Value) (es : List (Bytes × Value)) (b bs : Bytes) :
      Canon v b → RawEntries es bs →
      RawEntries ((k, v) :: es) (decNat k.length ++ ascii ":" ++ k ++ b ++ bs)

/-- Equality of values where a dictionary is the finite map given by its entries (iteration order is
irrelevant) and the Go integer types are compared by value. -/
inductive Same : Value → Value → Prop
  | str (s : Bytes) : Same (.str s) (.str s)
  | int64 (i : Int) : Same (.int64 i) (.int64 i)
  | intN (i : Int) : Same (.intN i) (.intN i)
  | intL (i : Int) : Same (.intN i) (.int64 i)
  | intR (i : Int) : Same (.int64 i) (.intN i)
  | other : Same .other .other
  | list (vs ws : List Value) : vs.length = ws.length →
      (∀ (n : Nat) (v w : Value), vs[n]? = some v → ws[n]? = some w → Same v w) →
      Same (.list vs) (.list ws)
  | dict (es fs : List (Bytes × Value)) :
      (∀ k, k ∈ es.map Prod.fst ↔ k ∈ fs.map Prod.fst) →
      (∀ (k : Bytes) (v w : Value), (k, v) ∈ es → (k, w) ∈ fs → Same v w) →
      Same (.dict es) (.dict fs)

/-- every dictionary inside the value has distinct keys, i.e. really is a Go map -/
inductive IsMap : Value → Prop
  | str (s : Bytes) : IsMap (.str s)
  | int64 (i : Int) : IsMap (.int64 i)
  | intN (i : Int) : IsMap (.intN i)
  | other : IsMap .other
  | list (vs : List Value) : (∀ v ∈ vs, IsMap v) → IsMap (.list vs)
  | dict (es : List (Bytes × Value)) : (es.map Prod.fst).Nodup → (∀ e ∈ es, IsMap e.2) → IsMap (.dict es)

/-- Values the package documents as encodable: non-empty strings and keys, integers, lists, maps.
`P` is a condition on the integers. -/
inductive Encodable (P : Int → Prop) : Value → Prop
  | str (s : Bytes) : s ≠ [] → Encodable P (.str s)
  | int64 (i : Int) : P i → Encodable P (.int64 i)
  | intN (i : Int) : P i → Encodable P (.intN i)
  | list (vs : List Value) : (∀ v ∈ vs, Encodable P v) → Encodable P (.list vs)
  | dict (es : List (Bytes × Value)) : (es.map Prod.fst).Nodup →
      (∀ e ∈ es, e.1 ≠ []) → (∀ e ∈ es, Encodable P e.2) → Encodable P (.dict es)

/-- all strings (and keys) inside have a length that fits a Go `int`; true of every value that
exists in memory -/
inductive LenOk : Value → Prop
  | str (s : Bytes) : s.length < 2 ^ 63 → LenOk (.str s)
  | int64 (i : Int) : LenOk (.int64 i)
  | intN (i : Int) : LenOk (.intN i)
  | other : LenOk .other
  | list (vs : List Value) : (∀ v ∈ vs, LenOk v) → LenOk (.list vs)
  | dict (es : List (Bytes × Value)) : (∀ e ∈ es, e.1.length < 2 ^ 63) →
      (∀ e ∈ es, LenOk e.2) → LenOk (.dict es)

/-- all integers inside satisfy `P` -/
inductive AllInts (P : Int → Prop) : Value → Prop
  | str (s : Bytes) : AllInts P (.str s)
  | int64 (i : Int) : P i → AllInts P (.int64 i)
  | intN (i : Int) : P i → AllInts P (.intN i)
  | other : AllInts P .other
  | list (vs : List Value) : (∀ v ∈ vs, AllInts P v) → AllInts P (.list vs)
  | dict (es : List (Bytes × Value)) : (∀ e ∈ es, AllInts P e.2) → AllInts P (.dict es)

/-- `Within s v`: the string `s` occurs in `v` as a string value or dictionary key, at any depth -/
inductive Within (s : Bytes) : Value → Prop
  | str : Within s (.str s)
  | list (vs : List Value) (v : Value) : v ∈ vs → Within s v → Within s (.list vs)
  | key (es : List (Bytes × Value)) (v : Value) : (s, v) ∈ es → Within s (.dict es)
  | val (es : List (Bytes × Value)) (k : Bytes) (v : Value) : (k, v) ∈ es → Within s v → Within s (.dict es)

end Verif.Bencode.Spec
