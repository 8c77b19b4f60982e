import Verif.Model.Bencode
/-
The work of the decoder /repo/src/bencode/decode.go: one for every byte that is looked at, and one for every byte that is copied or hashed.  The strings of
digits are built as in the code, by appending one byte at a time, and every `+=` on a Go string copies the whole string.

Not counted: what `make`, `append` and the growing of maps cost (amortised constant for every element), and `strconv` (linear in the number of digits).
-/
set_option autoImplicit false

namespace Verif.Work
open Verif.Bencode

/-- a result and the work for it -/
abbrev W (α : Type) := Res α × Nat

/-- go on with the result, if it is one, and add up the work -/
def W.bind {α β : Type} (x : W α) (f : α → W β) : W β :=
  match x with
  | (.ok a, n) => match f a with
    | (r, k) => (r, n + k)
  | (.err e, n) => (.err e, n)
  | (.panic, n) => (.panic, n)
  | (.timeout, n) => (.timeout, n)

/-- decode.go:136-146 and 188-197, the loops of `decodeString` and `decodeInt`: digits are appended to `acc` (a copy of everything so far, with the new byte)
until `stop` -/
def numLoop (stop : UInt8) (acc : Bytes) : Bytes → W (Bytes × Bytes)
  | [] => (.panic, 0)
  | c :: r =>
    if isDigit c then
      match numLoop stop (acc ++ [c]) r with
      | (x, k) => (x, 1 + (acc ++ [c]).length + k)
    else if c = stop then (.ok (acc, r), 1)
    else (.err .decoder, 1)

/-- decode.go:133-157 `decodeString`; the string is copied from the data -/
def stringW (spare inp : Bytes) : W (Bytes × Bytes) :=
  W.bind (numLoop 58 [] inp) fun (ds, r) =>
    match parseDigits ds with
    | none => (.err .strconv, 0)
    | some n => if n ≤ r.length + spare.length then (.ok ((r ++ spare).take n, r.drop n), n) else (.panic, 0)

/-- decode.go:188-204: the rest of a number, behind sign and leading zero -/
def intTailW (neg : Bool) (pre inp : Bytes) : W (Int × Bytes) :=
  W.bind (numLoop 101 pre inp) fun (ds, r) =>
    match parseDigits ds with
    | none => (.err .strconv, 0)
    | some n => (.ok (if neg then -(n : Int) else (n : Int), r), 0)

/-- decode.go:177-186: a leading zero -/
def intBodyW (neg : Bool) (inp : Bytes) : W (Int × Bytes) :=
  match inp with
  | [] => (.panic, 0)
  | c :: r =>
    if c = 48 then
      match r with
      | [] => (.panic, 2)
      | c' :: _ => if c' = 101 then ((intTailW neg [48] r).1, 3 + (intTailW neg [48] r).2) else (.err .decoder, 3)
    else ((intTailW neg [] inp).1, 1 + (intTailW neg [] inp).2)

/-- decode.go:159-205 `decodeInt` -/
def intW (inp : Bytes) : W (Int × Bytes) :=
  match inp with
  | [] => (.panic, 0)
  | c :: r =>
    if c = 105 then
      match r with
      | [] => (.panic, 1)
      | s :: r' => if s = 45 then ((intBodyW true r').1, 2 + (intBodyW true r').2) else ((intBodyW false r).1, 2 + (intBodyW false r).2)
    else (.err .decoder, 1)

mutual
/-- the `switch` on the current byte: decode.go:37-46, 76-85, 113-122 -/
def valueW (fuel : Nat) (spare inp : Bytes) : W (Value × Bytes) :=
  match fuel with
  | 0 => (.timeout, 0)
  | fuel + 1 =>
    match inp with
    | [] => (.panic, 0)
    | c :: r =>
      W.bind (.ok (), 1) fun _ =>
      if c = 100 then W.bind (dictW fuel spare r []) fun (es, r') => (.ok (.dict es, r'), 0)
      else if c = 108 then W.bind (listW fuel spare r []) fun (vs, r') => (.ok (.list vs, r'), 0)
      else if c = 105 then W.bind (intW inp) fun (i, r') => (.ok (.int64 i, r'), 0)
      else W.bind (stringW spare inp) fun (s, r') => (.ok (.str s, r'), 0)
/-- decode.go:63-91, the loop of `decodeDict`; the assignment to the map hashes the key -/
def dictW (fuel : Nat) (spare inp : Bytes) (acc : Dict) : W (Dict × Bytes) :=
  match fuel with
  | 0 => (.timeout, 0)
  | fuel + 1 =>
    match inp with
    | [] => (.panic, 0)
    | c :: r =>
      W.bind (.ok (), 1) fun _ =>
      if c = 101 then (.ok (acc, r), 0)
      else
        W.bind (stringW spare inp) fun (k, r1) =>
        W.bind (valueW fuel spare r1) fun (v, r2) =>
        W.bind (.ok (), k.length) fun _ =>
        dictW fuel spare r2 (mapSet acc k v)
/-- decode.go:104-128, the loop of `decodeList` -/
def listW (fuel : Nat) (spare inp : Bytes) (acc : List Value) : W (List Value × Bytes) :=
  match fuel with
  | 0 => (.timeout, 0)
  | fuel + 1 =>
    match inp with
    | [] => (.panic, 0)
    | c :: r =>
      W.bind (.ok (), 1) fun _ =>
      if c = 101 then (.ok (acc, r), 0)
      else
        W.bind (valueW fuel spare inp) fun (v, r1) =>
        listW fuel spare r1 (acc ++ [v])
end

/-- decode.go:19-49 `Decode` and the work for it -/
def DecodeW (data spare : Bytes) : W Value :=
  match valueW (2 * data.length + 1) spare data with
  | (.ok (v, _), n) => (.ok v, n)
  | (.err e, n) => (.err e, n)
  | (.panic, n) => (.err .decoder, n)
  | (.timeout, n) => (.timeout, n)

end Verif.Work
