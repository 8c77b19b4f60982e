import Verif.Spec.Bencode
import Verif.Spec.Size
/-
The documents the decoder is meant to accept: BEP 3, except that leading zeros of string lengths, "-0", unsorted
and repeated keys (the last value counts) and empty strings are tolerated.  Only the type `Value` is taken from the model.
-/
set_option autoImplicit false

namespace Verif.Bencode.Spec
open Verif.Bencode Verif.Size

/-- one or more decimal digits, value below 2^63 -/
def Digits (ds : Bytes) : Prop := ds ≠ [] ∧ (∀ d ∈ ds, 48 ≤ d ∧ d ≤ 57) ∧ decVal ds < 2 ^ 63

/-- `b` is a document for the string `s`: length, colon, the bytes -/
def StrDoc (s b : Bytes) : Prop := ∃ ds, Digits ds ∧ decVal ds = s.length ∧ b = ds ++ ascii ":" ++ s

/-- `b` is a document for the integer `i`: no leading zero, but "-0" is allowed -/
def IntDoc (i : Int) (b : Bytes) : Prop :=
  ∃ ds, Digits ds ∧ (ds.head? = some 48 → ds = [48]) ∧
    ((b = ascii "i" ++ ds ++ ascii "e" ∧ i = decVal ds) ∨ (b = ascii "i-" ++ ds ++ ascii "e" ∧ i = -(decVal ds : Int)))

/-- an entry of a dictionary document: key and value, each with its document -/
structure Item where
  key : Bytes
  keyDoc : Bytes
  value : Value
  valDoc : Bytes

/-- `(k, v)` is the last entry with key `k` -/
def IsLast (es : List (Bytes × Value)) (k : Bytes) (v : Value) : Prop :=
  ∃ pre post, es = pre ++ (k, v) :: post ∧ k ∉ post.map Prod.fst

/-- the map `d` holds exactly the last value of every key in `es` -/
def LastWins (es d : List (Bytes × Value)) : Prop :=
  (d.map Prod.fst).Nodup ∧ ∀ k v, (k, v) ∈ d ↔ IsLast es k v

/-- `b` is a document for the value `v` -/
inductive Parses : Value → Bytes → Prop
  | str (s b : Bytes) : StrDoc s b → Parses (.str s) b
  | int (i : Int) (b : Bytes) : IntDoc i b → Parses (.int64 i) b
  | list (vs : List (Value × Bytes)) : (∀ p ∈ vs, Parses p.1 p.2) →
      Parses (.list (vs.map Prod.fst)) (ascii "l" ++ (vs.map Prod.snd).flatten ++ ascii "e")
  | dict (es : List Item) (d : List (Bytes × Value)) : (∀ e ∈ es, StrDoc e.key e.keyDoc) →
      (∀ e ∈ es, Parses e.value e.valDoc) → LastWins (es.map fun e => (e.key, e.value)) d →
      Parses (.dict d) (ascii "d" ++ (es.map fun e => e.keyDoc ++ e.valDoc).flatten ++ ascii "e")

/-- the file contents `data` begin with a dictionary document in which `b` is the document of the value of `key`
(the last entry counts) -/
def ValueBytes (key data b : Bytes) : Prop :=
  ∃ (pre post : List Item) (e : Item) (rest : Bytes),
    data = ascii "d" ++ ((pre ++ e :: post).map fun e => e.keyDoc ++ e.valDoc).flatten ++ ascii "e" ++ rest ∧
    (∀ x ∈ pre ++ e :: post, StrDoc x.key x.keyDoc ∧ Parses x.value x.valDoc) ∧
    e.key = key ∧ e.valDoc = b ∧ ∀ x ∈ post, x.key ≠ key

end Verif.Bencode.Spec
