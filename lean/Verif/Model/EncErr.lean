import Verif.Model.Bencode
/-
Model of the texts of the errors of the encoder: /repo/src/bencode/encode.go.  The functions are those of Model/Bencode.lean, with the errors that they return.
-/
set_option autoImplicit false

namespace Verif.EncErr
open Verif.Bencode

/-- the values of Model/Bencode.lean; a value of a type that the encoder does not know has the name of its type, as the verb `%T` of `fmt` writes it (`<nil>` for nil) -/
inductive TValue where
  | str (s : Bytes)
  | int64 (i : Int)
  | intN (i : Int)
  | list (vs : List TValue)
  | dict (es : List (Bytes × TValue))
  | other (ty : Bytes)

/-- the errors -/
inductive EncErr where
  /-- encode.go:66 -/
  | empty
  /-- encode.go:59 -/
  | unsupported (ty : Bytes)
  deriving DecidableEq, Repr

/-- encode.go:14-16 `EncoderError.Error`, 59, 66.  (The text of encode.go:26 is about a panic in `encode`; nothing there can panic as long as the buffer has less than 2^63 bytes.) -/
def EncErr.text : EncErr → Bytes
  | .empty => ascii "encoder error: " ++ ascii "cannot encode an empty string"
  | .unsupported ty => ascii "encoder error: " ++ (ascii "unsupported bencoding type [" ++ ty ++ ascii "]")

/-- what is appended to the buffer, and the error -/
abbrev EncT := Bytes × Option EncErr

/-- encode.go:89-98, 107-112: the first error ends it -/
def seqT : List EncT → EncT
  | [] => ([], none)
  | (b, some e) :: _ => (b, some e)
  | (b, none) :: rest => (b ++ (seqT rest).1, (seqT rest).2)

/-- encode.go:64-71 `encodeString` -/
def encodeStringT (s : Bytes) : EncT :=
  if s.length = 0 then ([], some .empty)
  else (natDec s.length ++ [58] ++ s, none)

/-- encode.go:81-98: the keys in order, each with its value -/
def encodeSortedT (es : List (Bytes × EncT)) : EncT :=
  seqT ((es.mergeSort fun x y => bytesLe x.1 y.1).map fun p => seqT [encodeStringT p.1, p.2])

/-- encode.go:79-101, 105-115 -/
def wrapT (c : UInt8) (body : EncT) : EncT :=
  match body with
  | (b, none) => ([c] ++ b ++ [101], none)
  | (b, some e) => ([c] ++ b, some e)

mutual
/-- encode.go:38-62 `encode` -/
def encodeT : TValue → EncT
  | .str s => encodeStringT s
  | .int64 i => ([105] ++ intDec i ++ [101], none)
  | .intN i => ([105] ++ intDec i ++ [101], none)
  | .list vs => wrapT 108 (seqT (encodeListT vs))
  | .dict es => wrapT 100 (encodeSortedT (encodeEntriesT es))
  | .other ty => ([], some (.unsupported ty))
/-- encode.go:107-112 -/
def encodeListT : List TValue → List EncT
  | [] => []
  | v :: vs => encodeT v :: encodeListT vs
/-- the values of a map, in the order of the map -/
def encodeEntriesT : List (Bytes × TValue) → List (Bytes × EncT)
  | [] => []
  | (k, v) :: es => (k, encodeT v) :: encodeEntriesT es
end

/-- encode.go:21-33 `Encode` -/
def EncodeT (v : TValue) : EncT := encodeT v

end Verif.EncErr
