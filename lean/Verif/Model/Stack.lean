import Verif.Model.Bencode
/-
Model of the decoder of /repo/src/bencode/decode.go:19-128 with a call stack of limited size.  In Go the stack of a goroutine grows up to a maximum
(runtime/proc.go, `maxstacksize`, 1 GB on 64-bit machines); a call that does not fit any more is a fatal error of the runtime, which `recover`
(decode.go:23-33) does not catch: the process ends.

`limit` is the number of calls of `decodeDict` and `decodeList` that fit on the stack inside each other.  Simplification: both have frames of the same size, and
the calls of `decodeString`, `decodeInt` and of the library inside them always fit.  `Model/Bencode.lean` is the same code without a limit.
-/
set_option autoImplicit false

namespace Verif.Stack
open Verif.Bencode

mutual
/-- the `switch` on the current byte: decode.go:37-46, 76-85, 113-122.  `none`: the stack is exhausted. -/
def valueS (fuel limit : Nat) (spare inp : Bytes) : Option (Res (Value × Bytes)) :=
  match fuel with
  | 0 => some .timeout
  | fuel + 1 =>
    match inp with
    | [] => some .panic
    | c :: r =>
      if c = 100 then
        match limit with
        | 0 => none
        | limit + 1 =>
          match dictS fuel limit spare r [] with
          | none => none
          | some x => some (do
              let (es, r') ← x
              .ok (.dict es, r'))
      else if c = 108 then
        match limit with
        | 0 => none
        | limit + 1 =>
          match listS fuel limit spare r [] with
          | none => none
          | some x => some (do
              let (vs, r') ← x
              .ok (.list vs, r'))
      else if c = 105 then some (do
        let (i, r') ← decodeInt inp
        .ok (.int64 i, r'))
      else some (do
        let (s, r') ← decodeString spare inp
        .ok (.str s, r'))
/-- decode.go:63-91, the loop of `decodeDict`; `limit` more calls fit on the stack -/
def dictS (fuel limit : Nat) (spare inp : Bytes) (acc : Dict) : Option (Res (Dict × Bytes)) :=
  match fuel with
  | 0 => some .timeout
  | fuel + 1 =>
    match inp with
    | [] => some .panic
    | c :: r =>
      if c = 101 then some (.ok (acc, r))
      else match decodeString spare inp with
        | .err e => some (.err e)
        | .panic => some .panic
        | .timeout => some .timeout
        | .ok (k, r1) =>
          match valueS fuel limit spare r1 with
          | none => none
          | some (.err e) => some (.err e)
          | some .panic => some .panic
          | some .timeout => some .timeout
          | some (.ok (v, r2)) => dictS fuel limit spare r2 (mapSet acc k v)
/-- decode.go:104-128, the loop of `decodeList`; `limit` more calls fit on the stack -/
def listS (fuel limit : Nat) (spare inp : Bytes) (acc : List Value) : Option (Res (List Value × Bytes)) :=
  match fuel with
  | 0 => some .timeout
  | fuel + 1 =>
    match inp with
    | [] => some .panic
    | c :: r =>
      if c = 101 then some (.ok (acc, r))
      else match valueS fuel limit spare inp with
        | none => none
        | some (.err e) => some (.err e)
        | some .panic => some .panic
        | some .timeout => some .timeout
        | some (.ok (v, r1)) => listS fuel limit spare r1 (acc ++ [v])
end

/-- decode.go:19-49 `Decode` on a stack with room for `limit` nested calls; `none`: the process is gone.  The deferred `recover` turns a panic
into a `DecoderError`. -/
def DecodeS (limit : Nat) (data spare : Bytes) : Option (Res Value) :=
  match valueS (2 * data.length + 1) limit spare data with
  | none => none
  | some (.ok (v, _)) => some (.ok v)
  | some (.err e) => some (.err e)
  | some .panic => some (.err .decoder)
  | some .timeout => some .timeout

end Verif.Stack
