import Verif.Model.Go
/-
Model of /repo/src/bencode (encode.go, decode.go, dict.go).
-/
set_option autoImplicit false

namespace Verif.Bencode

/-- The dynamic Go values handled by the package (`interface{}` in dict.go:5-6, encode.go:41-60).
`intN` stands for `int`, `int8`, `int16`, `int32` (accepted by the encoder, never produced by the
decoder, not matched by the `int64` type assertions of dict.go).  `other` stands for any dynamic type
the encoder does not support (bool, nil, float, ...).
A `Dict` (a Go map) is the list of its entries in *some* order: Go leaves the iteration order of a
map unspecified, so no function of the model may depend on it (this is property C03). -/
inductive Value where
  | str (s : Bytes)
  | int64 (i : Int)
  | intN (i : Int)
  | list (vs : List Value)
  | dict (es : List (Bytes × Value))
  | other

abbrev Dict := List (Bytes × Value)

/-! ### Decimal numbers (fmt `%v` of integers, encode.go:68,74) -/

/-- decimal digits of a natural number, `fmt.Sprintf("%v", n)` -/
def natDec (n : Nat) : Bytes :=
  if n < 10 then [UInt8.ofNat (48 + n)] else natDec (n / 10) ++ [UInt8.ofNat (48 + n % 10)]
decreasing_by omega

/-- `fmt.Sprintf("%v", i)` for a signed integer -/
def intDec (i : Int) : Bytes :=
  if i < 0 then 45 :: natDec i.natAbs else natDec i.natAbs

/-! ### Encoder -/

/-- result of writing into the shared `bytes.Buffer`: the bytes appended and the error, if any -/
abbrev Enc := Bytes × Option Err

/-- run writers one after the other, stopping at the first error
(`if err != nil { return err }`, encode.go:89-98, 107-112) -/
def seqEnc : List Enc → Enc
  | [] => ([], none)
  | (b, some e) :: _ => (b, some e)
  | (b, none) :: rest => let (b', e') := seqEnc rest; (b ++ b', e')

/-- encode.go:64-71 `encodeString` -/
def encodeString (s : Bytes) : Enc :=
  if s.length = 0 then ([], some .encoder)
  else (natDec s.length ++ [58] ++ s, none)

/-- encode.go:73-76 `encodeInt` -/
def encodeInt (i : Int) : Enc := ([105] ++ intDec i ++ [101], none)

/-- Go's `<=` on strings: bytewise lexicographic (used by `sort.Strings`, encode.go:87) -/
def bytesLe : Bytes → Bytes → Bool
  | [], _ => true
  | _ :: _, [] => false
  | a :: as, b :: bs => if a < b then true else if b < a then false else bytesLe as bs

/-- encode.go:81-98: collect the keys, sort them, write each key and its value.
The entries are given with the (already computed) result of encoding their value. -/
def encodeSorted (es : List (Bytes × Enc)) : Enc :=
  seqEnc ((es.mergeSort fun x y => bytesLe x.1 y.1).map fun p => seqEnc [encodeString p.1, p.2])

/-- encode.go:79-101, 105-115: opening byte, body, and the closing 'e' only if the body succeeded -/
def wrapEnc (c : UInt8) (body : Enc) : Enc :=
  match body with
  | (b, none) => ([c] ++ b ++ [101], none)
  | (b, some e) => ([c] ++ b, some e)

mutual
/-- encode.go:38-62 `encode` (with encodeDict, encode.go:78-102, and encodeList, encode.go:104-116).
Returns what is appended to the buffer and the error. -/
def encode : Value → Enc
  | .str s => encodeString s
  | .int64 i => encodeInt i
  | .intN i => encodeInt i
  | .list vs => wrapEnc 108 (seqEnc (encodeList vs))
  | .dict es => wrapEnc 100 (encodeSorted (encodeEntries es))
  | .other => ([], some .encoder)
/-- encode.go:107-112: the elements of a list, in order -/
def encodeList : List Value → List Enc
  | [] => []
  | v :: vs => encode v :: encodeList vs
/-- the values of a map, in its (arbitrary) iteration order -/
def encodeEntries : List (Bytes × Value) → List (Bytes × Enc)
  | [] => []
  | (k, v) :: es => (k, encode v) :: encodeEntries es
end

/-- encode.go:21-33 `Encode`.  Returns *both* the bytes written so far and the error, like the Go
function.  (The `recover` is dead code: nothing in `encode` can panic.) -/
def Encode (v : Value) : Enc := encode v

/-! ### Decoder

The decoder's cursor is modelled by the list of bytes not yet consumed.  `spare` are the bytes
between `len(data)` and `cap(data)`: a Go slice expression `data[a:b]` is checked against the
*capacity*, so decodeString can read them. Once the cursor is at or behind `len(data)` every
`curByte()` panics; both situations are the empty remaining input. -/

/-- decode.go:137,188: `'0' <= c <= '9'` -/
def isDigit (c : UInt8) : Bool := 48 ≤ c && c ≤ 57

/-- value of a string of decimal digits -/
def digitsVal (ds : Bytes) : Nat := ds.foldl (fun a d => 10 * a + (d.toNat - 48)) 0

/-- `strconv.Atoi` (64-bit `int`) / `strconv.ParseInt(_, 10, 64)` on a string that consists of digits
only: empty string and values above 2^63-1 are errors.  decode.go:148, 199 -/
def parseDigits (ds : Bytes) : Option Nat :=
  if ds.length = 0 then none
  else if digitsVal ds < 2 ^ 63 then some (digitsVal ds) else none

/-- decode.go:133-157 `decodeString` -/
def decodeString (spare inp : Bytes) : Res (Bytes × Bytes) :=
  match inp.dropWhile isDigit with
  | [] => .panic                                        -- curByte() past the end
  | c :: r =>
    if c = 58 then
      match parseDigits (inp.takeWhile isDigit) with
      | none => .err .strconv
      | some n =>
        -- dc.data[dc.curs : dc.curs+n], bounded by the capacity
        if n ≤ r.length + spare.length then .ok ((r ++ spare).take n, r.drop n) else .panic
    else .err .decoder

/-- decode.go:186-204: the digits after sign and leading-zero check, then 'e' -/
def decodeIntTail (neg : Bool) (pre inp : Bytes) : Res (Int × Bytes) :=
  match inp.dropWhile isDigit with
  | [] => .panic
  | c :: r =>
    if c = 101 then
      match parseDigits (pre ++ inp.takeWhile isDigit) with
      | none => .err .strconv
      | some n => .ok (if neg then -(n : Int) else (n : Int), r)
    else .err .decoder

/-- decode.go:177-186: a leading '0' must be followed by 'e' -/
def decodeIntBody (neg : Bool) (inp : Bytes) : Res (Int × Bytes) :=
  match inp with
  | [] => .panic
  | c :: r =>
    if c = 48 then
      match r with
      | [] => .panic
      | c' :: _ => if c' = 101 then decodeIntTail neg [48] r else .err .decoder
    else decodeIntTail neg [] inp

/-- decode.go:159-205 `decodeInt` -/
def decodeInt (inp : Bytes) : Res (Int × Bytes) :=
  match inp with
  | [] => .panic
  | c :: r =>
    if c = 105 then
      match r with
      | [] => .panic
      | s :: r' => if s = 45 then decodeIntBody true r' else decodeIntBody false r
    else .err .decoder

/-- assignment to a Go map (decode.go:90): replace the value of an existing key, else add an entry -/
def mapSet (es : Dict) (k : Bytes) (v : Value) : Dict :=
  match es with
  | [] => [(k, v)]
  | (k', v') :: es' => if k' = k then (k, v) :: es' else (k', v') :: mapSet es' k v

mutual
/-- the `switch` on the current byte: decode.go:37-46, 76-85, 113-122.  (`decodeDict`/`decodeList`
re-check the byte they were dispatched on, decode.go:56-58, 97-99; that check cannot fail.) -/
def decodeValue (fuel : Nat) (spare inp : Bytes) : Res (Value × Bytes) :=
  match fuel with
  | 0 => .timeout
  | fuel + 1 =>
    match inp with
    | [] => .panic
    | c :: r =>
      if c = 100 then do
        let (es, r') ← dictLoop fuel spare r []
        .ok (.dict es, r')
      else if c = 108 then do
        let (vs, r') ← listLoop fuel spare r []
        .ok (.list vs, r')
      else if c = 105 then do
        let (i, r') ← decodeInt inp
        .ok (.int64 i, r')
      else do
        let (s, r') ← decodeString spare inp
        .ok (.str s, r')
/-- decode.go:63-91, the loop of `decodeDict` -/
def dictLoop (fuel : Nat) (spare inp : Bytes) (acc : Dict) : Res (Dict × Bytes) :=
  match fuel with
  | 0 => .timeout
  | fuel + 1 =>
    match inp with
    | [] => .panic
    | c :: r =>
      if c = 101 then .ok (acc, r)
      else do
        let (k, r1) ← decodeString spare inp
        let (v, r2) ← decodeValue fuel spare r1
        dictLoop fuel spare r2 (mapSet acc k v)
/-- decode.go:104-128, the loop of `decodeList` -/
def listLoop (fuel : Nat) (spare inp : Bytes) (acc : List Value) : Res (List Value × Bytes) :=
  match fuel with
  | 0 => .timeout
  | fuel + 1 =>
    match inp with
    | [] => .panic
    | c :: r =>
      if c = 101 then .ok (acc, r)
      else do
        let (v, r1) ← decodeValue fuel spare inp
        listLoop fuel spare r1 (acc ++ [v])
end

/-- decode.go:19-49 `Decode` with an explicit bound on the number of loop iterations / recursion depth.
The deferred `recover` turns a panic into a `DecoderError`. -/
def DecodeFuel (fuel : Nat) (data spare : Bytes) : Res Value :=
  match decodeValue fuel spare data with
  | .ok (v, _) => .ok v
  | .err e => .err e
  | .panic => .err .decoder
  | .timeout => .timeout

/-- decode.go:19-49 `Decode`; the bound `2*len(data)+1` is sufficient (theorem
`C05_decode_total`). -/
def Decode (data spare : Bytes) : Res Value := DecodeFuel (2 * data.length + 1) data spare

/-! ### Dictionary access (dict.go) -/

/-- dict.go:28-37 `get` -/
def Dict.get (d : Dict) (key : Bytes) : Res Value :=
  match d.lookup key with
  | some v => .ok v
  | none => .err .missingKey

/-- dict.go:39-54 `GetString` -/
def Dict.getString (d : Dict) (key : Bytes) : Res Bytes :=
  match Dict.get d key with
  | .ok (.str s) => .ok s
  | .ok _ => .err .badType
  | .err e => .err e
  | .panic => .panic
  | .timeout => .timeout

/-- dict.go:56-71 `GetInt` -/
def Dict.getInt (d : Dict) (key : Bytes) : Res Int :=
  match Dict.get d key with
  | .ok (.int64 i) => .ok i
  | .ok _ => .err .badType
  | .err e => .err e
  | .panic => .panic
  | .timeout => .timeout

/-- dict.go:73-79 `GetUint`: conversion `uint64(v)` wraps modulo 2^64 -/
def Dict.getUint (d : Dict) (key : Bytes) : Res Nat := do
  let v ← Dict.getInt d key
  .ok (v % 2 ^ 64).toNat

/-- dict.go:81-96 `GetDict` -/
def Dict.getDict (d : Dict) (key : Bytes) : Res Dict :=
  match Dict.get d key with
  | .ok (.dict es) => .ok es
  | .ok _ => .err .badType
  | .err e => .err e
  | .panic => .panic
  | .timeout => .timeout

/-- dict.go:98-113 `GetList` -/
def Dict.getList (d : Dict) (key : Bytes) : Res (List Value) :=
  match Dict.get d key with
  | .ok (.list vs) => .ok vs
  | .ok _ => .err .badType
  | .err e => .err e
  | .panic => .panic
  | .timeout => .timeout

end Verif.Bencode
