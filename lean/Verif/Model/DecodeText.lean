import Verif.Model.Bencode
/-
Model of the decoder of /repo/src/bencode/decode.go with its cursor and the texts of its errors (`Model/Bencode.lean` is the same code without them; `Props/DecodeText.lean`
proves that they agree).

`curs` is `dc.curs`, `inp` the bytes from there to the end of the data (none if the cursor is behind it), `spare` as in Model/Bencode.lean.  The cursor is a natural
number: it does not exceed the length of the data by more than 2^63, so `uint64` does not overflow.
-/
set_option autoImplicit false

namespace Verif.DecodeText
open Verif.Bencode

/-- decode.go:10-14 `DecoderError.Error` -/
def decoderError (msg : Bytes) : Bytes := ascii "decoder error: " ++ msg

/-- the error values that the functions of the decoder return -/
inductive Why where
  /-- decode.go:144 -/
  | badString (k : Nat)
  /-- decode.go:182 -/
  | zeros (k : Nat)
  /-- decode.go:195 -/
  | badInt (k : Nat)
  /-- decode.go:148-151 -/
  | atoi (ds : Bytes)
  /-- decode.go:199-202 -/
  | parseInt (ds : Bytes)
  deriving DecidableEq

/-- the text of a `strconv.NumError` for a string of digits that `parseDigits` rejects; quoting leaves digits as they are -/
def numError (fn ds : Bytes) : Bytes :=
  ascii "strconv." ++ fn ++ ascii ": parsing \"" ++ ds ++ ascii "\": " ++ (if ds.length = 0 then ascii "invalid syntax" else ascii "value out of range")

/-- the method `Error` of these -/
def Why.text : Why → Bytes
  | .badString k => decoderError (ascii "bad string at byte " ++ natDec k)
  | .zeros k => decoderError (ascii "bad int (leading 0s) at byte " ++ natDec k)
  | .badInt k => decoderError (ascii "bad int at byte " ++ natDec k)
  | .atoi ds => numError (ascii "Atoi") ds
  | .parseInt ds => numError (ascii "ParseInt") ds

/-- how a function of the decoder ends, and where the cursor is then if it does not return a value -/
inductive Out (α : Type) where
  | ok (a : α)
  | err (e : Why) (curs : Nat)
  | panic (curs : Nat)
  | timeout

/-- `if err != nil { return nil, err }` (decode.go:70-72, 87-89, 124-126) -/
def Out.bind {α β : Type} : Out α → (α → Out β) → Out β
  | .ok a, f => f a
  | .err e k, _ => .err e k
  | .panic k, _ => .panic k
  | .timeout, _ => .timeout

/-- decode.go:133-157 `decodeString` -/
def stringT (spare : Bytes) (curs : Nat) (inp : Bytes) : Out (Bytes × Nat × Bytes) :=
  match inp.dropWhile isDigit with
  | [] => .panic (curs + (inp.takeWhile isDigit).length)
  | c :: r =>
    if c = 58 then
      match parseDigits (inp.takeWhile isDigit) with
      | none => .err (.atoi (inp.takeWhile isDigit)) (curs + (inp.takeWhile isDigit).length + 1)
      | some n =>
        if n ≤ r.length + spare.length then .ok ((r ++ spare).take n, curs + (inp.takeWhile isDigit).length + 1 + n, r.drop n)
        else .panic (curs + (inp.takeWhile isDigit).length + 1)
    else .err (.badString (curs + (inp.takeWhile isDigit).length)) (curs + (inp.takeWhile isDigit).length)

/-- decode.go:186-204 -/
def intTailT (neg : Bool) (pre : Bytes) (curs : Nat) (inp : Bytes) : Out (Int × Nat × Bytes) :=
  match inp.dropWhile isDigit with
  | [] => .panic (curs + (inp.takeWhile isDigit).length)
  | c :: r =>
    if c = 101 then
      match parseDigits (pre ++ inp.takeWhile isDigit) with
      | none => .err (.parseInt (pre ++ inp.takeWhile isDigit)) (curs + (inp.takeWhile isDigit).length + 1)
      | some n => .ok (if neg then -(n : Int) else (n : Int), curs + (inp.takeWhile isDigit).length + 1, r)
    else .err (.badInt (curs + (inp.takeWhile isDigit).length)) (curs + (inp.takeWhile isDigit).length)

/-- decode.go:177-186 -/
def intBodyT (neg : Bool) (curs : Nat) (inp : Bytes) : Out (Int × Nat × Bytes) :=
  match inp with
  | [] => .panic curs
  | c :: r =>
    if c = 48 then
      match r with
      | [] => .panic (curs + 1)
      | c' :: _ => if c' = 101 then intTailT neg [48] (curs + 1) r else .err (.zeros (curs + 1)) (curs + 1)
    else intTailT neg [] curs inp

/-- decode.go:159-205 `decodeInt`, called with the cursor at an 'i' -/
def intT (curs : Nat) (inp : Bytes) : Out (Int × Nat × Bytes) :=
  match inp with
  | [] => .panic curs
  | _ :: r =>
    match r with
    | [] => .panic (curs + 1)
    | s :: r' => if s = 45 then intBodyT true (curs + 2) r' else intBodyT false (curs + 1) r

mutual
/-- the `switch` on the current byte: decode.go:37-46, 76-85, 113-122 -/
def valueT (fuel : Nat) (spare : Bytes) (curs : Nat) (inp : Bytes) : Out (Value × Nat × Bytes) :=
  match fuel with
  | 0 => .timeout
  | fuel + 1 =>
    match inp with
    | [] => .panic curs
    | c :: r =>
      if c = 100 then (dictT fuel spare (curs + 1) r []).bind fun x => .ok (.dict x.1, x.2)
      else if c = 108 then (listT fuel spare (curs + 1) r []).bind fun x => .ok (.list x.1, x.2)
      else if c = 105 then (intT curs inp).bind fun x => .ok (.int64 x.1, x.2)
      else (stringT spare curs inp).bind fun x => .ok (.str x.1, x.2)
/-- decode.go:63-91, the loop of `decodeDict` -/
def dictT (fuel : Nat) (spare : Bytes) (curs : Nat) (inp : Bytes) (acc : Dict) : Out (Dict × Nat × Bytes) :=
  match fuel with
  | 0 => .timeout
  | fuel + 1 =>
    match inp with
    | [] => .panic curs
    | c :: r =>
      if c = 101 then .ok (acc, curs + 1, r)
      else (stringT spare curs inp).bind fun k =>
        (valueT fuel spare k.2.1 k.2.2).bind fun v => dictT fuel spare v.2.1 v.2.2 (mapSet acc k.1 v.1)
/-- decode.go:104-128, the loop of `decodeList` -/
def listT (fuel : Nat) (spare : Bytes) (curs : Nat) (inp : Bytes) (acc : List Value) : Out (List Value × Nat × Bytes) :=
  match fuel with
  | 0 => .timeout
  | fuel + 1 =>
    match inp with
    | [] => .panic curs
    | c :: r =>
      if c = 101 then .ok (acc, curs + 1, r)
      else (valueT fuel spare curs inp).bind fun v => listT fuel spare v.2.1 v.2.2 (acc ++ [v.1])
end

/-- what `Decode` returns: a value, or an error with this text -/
inductive Report where
  | value (v : Value)
  | error (text : Bytes)
  | timeout

/-- decode.go:19-49 `Decode`; the deferred function (decode.go:23-33) looks at the cursor -/
def DecodeT (data spare : Bytes) : Report :=
  match valueT (2 * data.length + 1) spare 0 data with
  | .ok x => .value x.1
  | .err e _ => .error e.text
  | .panic curs => .error (decoderError (if data.length ≤ curs then ascii "read end of data before completion" else ascii "caught panic"))
  | .timeout => .timeout

end Verif.DecodeText
