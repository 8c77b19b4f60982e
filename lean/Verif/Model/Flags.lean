import Verif.Model.Utils
/-
Model of the command line: /repo/src/utils/opts.go:29-57 (`GetOpts`, `initOpts`), the part of Go's `flag` package (Go 1.18, flag.go
`Parse`/`parseOne`) and of `strconv.ParseUint` (atoi.go) that it uses, and /repo/src/main.go:12-29 (`main`).
-/
set_option autoImplicit false

namespace Verif.Flags
open Verif.Utils Verif.Bencode

/-! ### strconv.ParseUint(s, 0, 64), used by `flag.Uint` -/

/-- strconv: `lower` -/
def lower (c : UInt8) : UInt8 := c ||| 32

/-- strconv.ParseUint: the digit a character stands for -/
def digitOf (c : UInt8) : Option Nat :=
  if 48 ≤ c ∧ c ≤ 57 then some (c.toNat - 48)
  else if 97 ≤ lower c ∧ lower c ≤ 122 then some ((lower c).toNat - 97 + 10)
  else none

/-- strconv.ParseUint: the loop over the digits, base 0 was given, so underscores are skipped.  The result has no wrap-around since
`ParseUint` returns an error as soon as the value exceeds 2^64-1. -/
def uintLoop (base : Nat) : Nat → Bytes → Option Nat
  | n, [] => some n
  | n, c :: cs =>
    if c = 95 then uintLoop base n cs
    else match digitOf c with
      | none => none
      | some d => if d ≥ base then none else if n * base + d ≥ 2 ^ 64 then none else uintLoop base (n * base + d) cs

/-- strconv: the last character `underscoreOK` has seen -/
inductive Saw where
  | start | digit | underscore | other
  deriving DecidableEq

/-- strconv: the loop of `underscoreOK` -/
def usLoop (hex : Bool) : Saw → Bytes → Bool
  | saw, [] => saw ≠ .underscore
  | saw, c :: cs =>
    if 48 ≤ c ∧ c ≤ 57 ∨ hex = true ∧ 97 ≤ lower c ∧ lower c ≤ 102 then usLoop hex .digit cs
    else if c = 95 then (if saw ≠ .digit then false else usLoop hex .underscore cs)
    else if saw = .underscore then false else usLoop hex .other cs

/-- the base prefix `0b`, `0o`, `0x` (any case); the base and the rest -/
def prefixOf (s : Bytes) : Option (Nat × Bytes) :=
  match s with
  | z :: c :: rest =>
    if z = 48 then
      if lower c = 98 then some (2, rest) else if lower c = 111 then some (8, rest) else if lower c = 120 then some (16, rest) else none
    else none
  | _ => none

/-- strconv: `underscoreOK`.  (`flag.Uint` values can have a sign here; `ParseUint` has rejected them before.) -/
def underscoreOK (s : Bytes) : Bool :=
  match prefixOf s with
  | some (b, rest) => usLoop (b = 16) .digit rest
  | none => usLoop false .start s

/-- strconv.ParseUint: base and digits of `s`, `s` not empty -/
def baseOf (s : Bytes) : Nat × Bytes :=
  match s with
  | c :: rest =>
    if c = 48 then
      match prefixOf s with
      | some (b, ds) => if ds = [] then (8, rest) else (b, ds)
      | none => (8, rest)
    else (10, s)
  | [] => (10, [])

/-- strconv.ParseUint(s, 0, 64); `none` is an error -/
def parseUint (s : Bytes) : Option Nat :=
  if s = [] then none
  else match uintLoop (baseOf s).1 0 (baseOf s).2 with
    | none => none
    | some n => if (95 : UInt8) ∈ (baseOf s).2 ∧ underscoreOK s = false then none else some n

/-! ### package flag -/

/-- opts.go:40-47: the options before parsing -/
def defaults : Opts :=
  { input := [], wd := [], port := 60666, cmd := ascii "swarm", uplimStr := ascii "-1B", dnlimStr := ascii "-1B", uplim := 0, dnlim := 0 }

/-- opts.go:41-47: the options; `none` if there is no such option -/
inductive Flag where
  | i | w | p | cmd | u | d
  deriving DecidableEq

/-- opts.go:41-47: names -/
def lookup (name : Bytes) : Option Flag :=
  if name = ascii "i" then some .i
  else if name = ascii "w" then some .w
  else if name = ascii "p" then some .p
  else if name = ascii "cmd" then some .cmd
  else if name = ascii "u" then some .u
  else if name = ascii "d" then some .d
  else none

/-- `flag.Value.Set`; `none` is an error -/
def setFlag (o : Opts) (f : Flag) (v : Bytes) : Option Opts :=
  match f with
  | .i => some { o with input := v }
  | .w => some { o with wd := v }
  | .p => (parseUint v).map fun n => { o with port := n }
  | .cmd => some { o with cmd := v }
  | .u => some { o with uplimStr := v }
  | .d => some { o with dnlimStr := v }

/-- flag.go `parseOne`: name and value of `name[=value]`; the first byte is never taken for the equals sign -/
def splitEq (s : Bytes) : Bytes × Option Bytes :=
  match s with
  | [] => ([], none)
  | c :: cs =>
    if (61 : UInt8) ∈ cs then (c :: cs.takeWhile (· ≠ 61), some ((cs.dropWhile (· ≠ 61)).drop 1)) else (s, none)

/-- what `parseOne` finds at the front of the arguments -/
inductive One where
  /-- not an option: parsing ends -/
  | stop
  /-- an error is printed, exit status 2 -/
  | fail
  /-- exit status 0 -/
  | help
  /-- an option and its value if it is in the same argument -/
  | flag (f : Flag) (v : Option Bytes)
  deriving DecidableEq

/-- flag.go `parseOne`: the argument without its dashes -/
def parseName (name : Bytes) : One :=
  match name with
  | [] => .fail
  | c :: _ =>
    if c = 45 ∨ c = 61 then .fail
    else match lookup (splitEq name).1 with
      | some f => .flag f (splitEq name).2
      | none => if (splitEq name).1 = ascii "help" ∨ (splitEq name).1 = ascii "h" then .help else .fail

/-- flag.go `parseOne`: the kind of an argument -/
def parseArg (s : Bytes) : One :=
  match s with
  | a :: b :: rest =>
    if a ≠ 45 then .stop
    else if b = 45 then (if rest = [] then .stop else parseName rest)
    else parseName (b :: rest)
  | _ => .stop

/-- flag.go `Parse` with `ExitOnError`: `.error` has the exit status -/
def parseArgs (o : Opts) : List Bytes → Except Nat Opts
  | [] => .ok o
  | s :: rest =>
    match parseArg s with
    | .stop => .ok o
    | .fail => .error 2
    | .help => .error 0
    | .flag f (some v) =>
      match setFlag o f v with
      | some o' => parseArgs o' rest
      | none => .error 2
    | .flag f none =>
      match rest with
      | [] => .error 2
      | v :: rest' =>
        match setFlag o f v with
        | some o' => parseArgs o' rest'
        | none => .error 2

/-! ### the program -/

/-- how the program starts -/
inductive Start where
  /-- main.go:20: `CmdSwarm` -/
  | swarm (o : Opts)
  /-- main.go:22: `CmdTorInfo` -/
  | info (o : Opts)
  /-- main.go:24 -/
  | invalid (o : Opts)
  /-- exit in `flag.Parse` -/
  | exit (code : Nat)
  /-- opts.go:53 -/
  | panic
  deriving DecidableEq

/-- opts.go:39-57 `initOpts` (and `GetOpts`, which calls it once) -/
def initOpts (args : List Bytes) : Except Nat (Res Opts) :=
  match parseArgs defaults args with
  | .error c => .error c
  | .ok o => .ok o.Validate

/-- main.go:12-29 `main` up to the command -/
def main (args : List Bytes) : Start :=
  match initOpts args with
  | .error c => .exit c
  | .ok (.ok o) => if o.cmd = ascii "swarm" then .swarm o else if o.cmd = ascii "info" then .info o else .invalid o
  | .ok _ => .panic

end Verif.Flags
