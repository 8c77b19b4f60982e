import Verif.Model.Flags
import Verif.Model.DecodeText
/-
Model of the command line (/repo/src/utils/opts.go:29-149, Go's package `flag`) with what is printed when it is refused.  Model/Flags.lean is the same code without
the texts; Props/OptsText.lean proves that they agree.  Texts of package `flag` are those of Go 1.18 (flag.go `failf`, `parseOne`, `PrintDefaults`, `numError`).
-/
set_option autoImplicit false

namespace Verif.OptsText
open Verif.Utils Verif.Bencode Verif.Flags

/-! ### strconv.ParseUint with its errors -/

/-- `strconv.ErrSyntax`, `strconv.ErrRange` -/
inductive NumWhy where
  | garbled | range
  deriving DecidableEq

/-- strconv.ParseUint: the loop over the digits (see `Flags.uintLoop`) -/
def uintLoopT (base : Nat) : Nat → Bytes → Except NumWhy Nat
  | n, [] => .ok n
  | n, c :: cs =>
    if c = 95 then uintLoopT base n cs
    else match digitOf c with
      | none => .error .garbled
      | some d => if d ≥ base then .error .garbled else if n * base + d ≥ 2 ^ 64 then .error .range else uintLoopT base (n * base + d) cs

/-- strconv.ParseUint(s, 0, 64) -/
def parseUintT (s : Bytes) : Except NumWhy Nat :=
  if s = [] then .error .garbled
  else match uintLoopT (baseOf s).1 0 (baseOf s).2 with
    | .error e => .error e
    | .ok n => if (95 : UInt8) ∈ (baseOf s).2 ∧ underscoreOK s = false then .error .garbled else .ok n

/-- flag.go `numError`: `errParse` and `errRange` -/
def NumWhy.text : NumWhy → Bytes
  | .garbled => ascii "parse error"
  | .range => ascii "value out of range"

/-! ### strconv.Quote -/

/-- a hexadecimal digit, lower case -/
def hexDigit (n : Nat) : UInt8 := UInt8.ofNat (if n < 10 then 48 + n else 87 + n)

/-- strconv.Quote: one ASCII character (quote.go `appendEscapedRune`) -/
def quoteChar (c : UInt8) : Bytes :=
  if c = 34 ∨ c = 92 then [92, c]
  else if 32 ≤ c ∧ c ≤ 126 then [c]
  else if c = 7 then ascii "\\a"
  else if c = 8 then ascii "\\b"
  else if c = 12 then ascii "\\f"
  else if c = 10 then ascii "\\n"
  else if c = 13 then ascii "\\r"
  else if c = 9 then ascii "\\t"
  else if c = 11 then ascii "\\v"
  else ascii "\\x" ++ [hexDigit (c.toNat / 16), hexDigit (c.toNat % 16)]

/-- `%q`: strconv.Quote.  What becomes of texts that are not ASCII is the parameter `other` (it depends on Unicode tables). -/
def quote (other : Bytes → Bytes) (s : Bytes) : Bytes :=
  if ∀ c ∈ s, c < 128 then [34] ++ s.flatMap quoteChar ++ [34] else other s

/-! ### package flag -/

/-- what `failf` prints -/
inductive Line where
  | badSyntax (arg : Bytes)
  | undefined (name : Bytes)
  | needs (name : Bytes)
  | value (v name : Bytes) (why : NumWhy)
  deriving DecidableEq

/-- flag.go `parseOne`: the formats -/
def Line.text (other : Bytes → Bytes) : Line → Bytes
  | .badSyntax arg => ascii "bad flag syntax: " ++ arg
  | .undefined name => ascii "flag provided but not defined: -" ++ name
  | .needs name => ascii "flag needs an argument: -" ++ name
  | .value v name why => ascii "invalid value " ++ quote other v ++ ascii " for flag -" ++ name ++ ascii ": " ++ why.text

/-- see `Flags.One` -/
inductive OneT where
  | stop
  | fail (l : Line)
  | help
  | flag (f : Flag) (name : Bytes) (v : Option Bytes)
  deriving DecidableEq

/-- flag.go `parseOne`: the argument `s` without its dashes is `name` -/
def parseNameT (s name : Bytes) : OneT :=
  match name with
  | [] => .fail (.badSyntax s)
  | c :: _ =>
    if c = 45 ∨ c = 61 then .fail (.badSyntax s)
    else match lookup (splitEq name).1 with
      | some f => .flag f (splitEq name).1 (splitEq name).2
      | none => if (splitEq name).1 = ascii "help" ∨ (splitEq name).1 = ascii "h" then .help else .fail (.undefined (splitEq name).1)

/-- flag.go `parseOne`: the kind of an argument -/
def parseArgT (s : Bytes) : OneT :=
  match s with
  | a :: b :: rest =>
    if a ≠ 45 then .stop
    else if b = 45 then (if rest = [] then .stop else parseNameT s rest)
    else parseNameT s (b :: rest)
  | _ => .stop

/-- `flag.Value.Set` -/
def setFlagT (o : Opts) (f : Flag) (v : Bytes) : Except NumWhy Opts :=
  match f with
  | .i => .ok { o with input := v }
  | .w => .ok { o with wd := v }
  | .p => match parseUintT v with
    | .ok n => .ok { o with port := n }
    | .error e => .error e
  | .cmd => .ok { o with cmd := v }
  | .u => .ok { o with uplimStr := v }
  | .d => .ok { o with dnlimStr := v }

/-- how `Parse` ends -/
inductive Parsed where
  | ok (o : Opts)
  /-- `ErrHelp` -/
  | help
  | fail (l : Line)
  deriving DecidableEq

/-- flag.go `Parse` -/
def parseArgsT (o : Opts) : List Bytes → Parsed
  | [] => .ok o
  | s :: rest =>
    match parseArgT s with
    | .stop => .ok o
    | .fail l => .fail l
    | .help => .help
    | .flag f name (some v) =>
      match setFlagT o f v with
      | .ok o' => parseArgsT o' rest
      | .error e => .fail (.value v name e)
    | .flag f name none =>
      match rest with
      | [] => .fail (.needs name)
      | v :: rest' =>
        match setFlagT o f v with
        | .ok o' => parseArgsT o' rest'
        | .error e => .fail (.value v name e)

/-- flag.go `PrintDefaults` for opts.go:41-47: sorted by name, defaults that are zero values are not shown -/
def defaultsText : Bytes :=
  ascii "  -cmd string\n    \tCommand (default \"swarm\")\n" ++
  ascii "  -d string\n    \tDownload limit in form X[B|K|M|G] (default \"-1B\")\n" ++
  ascii "  -i string\n    \tPath to .torrent file\n" ++
  ascii "  -p uint\n    \tPort to listen on (default 60666)\n" ++
  ascii "  -u string\n    \tUpload limit in form X[B|K|M|G] (default \"-1B\")\n" ++
  ascii "  -w string\n    \tWorking directory\n"

/-- flag.go `Usage`; `prog` is `os.Args[0]` -/
def usage (prog : Bytes) : Bytes := ascii "Usage of " ++ prog ++ ascii ":\n" ++ defaultsText

/-! ### opts.go -/

/-- errors of `parseSizeUnits` -/
inductive SizeWhy where
  /-- opts.go:98 -/
  | empty
  /-- opts.go:119-122 -/
  | atoi (ds : Bytes)
  /-- opts.go:133 -/
  | format
  /-- opts.go:147 -/
  | units
  deriving DecidableEq

/-- the texts of these -/
def SizeWhy.text : SizeWhy → Bytes
  | .empty => ascii "empty string"
  | .atoi ds => DecodeText.numError (ascii "Atoi") ds
  | .format => ascii "invalid format"
  | .units => ascii "invalid units"

/-- `strings.ToUpper` (opts.go:95).  Two characters that are not ASCII have ASCII letters as upper case: U+0131 and U+017F.  Simplification: of the others it only
matters that their upper case is not ASCII and has at least two bytes (bytes that are no character become U+FFFD); each of their bytes is doubled here. -/
def toUpper : Bytes → Bytes
  | [] => []
  | c :: rest =>
    if c < 128 then upper c :: toUpper rest
    else match rest with
      | [] => [c, c]
      | d :: rest' =>
        if c = 196 ∧ d = 177 then 73 :: toUpper rest'
        else if c = 197 ∧ d = 191 then 83 :: toUpper rest'
        else c :: c :: toUpper (d :: rest')

/-- opts.go:125-148 -/
def unitPartT (val : Int) (rest : Bytes) : Except SizeWhy Int :=
  match rest with
  | [] => .ok val
  | [c] =>
    if c = 66 then .ok val
    else if c = 75 then .ok (wrap64 (val * 1024))
    else if c = 77 then .ok (wrap64 (wrap64 (val * 1024) * 1024))
    else if c = 71 then .ok (wrap64 (wrap64 (wrap64 (val * 1024) * 1024) * 1024))
    else .error .units
  | _ => .error .format

/-- opts.go:108-149 -/
def sizeBodyT (mult : Int) (s : Bytes) : Except SizeWhy Int :=
  match parseDigits (s.takeWhile isDigit) with
  | none => .error (.atoi (s.takeWhile isDigit))
  | some v => unitPartT (wrap64 (v * mult)) (s.dropWhile isDigit)

/-- opts.go:94-149 `parseSizeUnits` -/
def parseSizeUnitsT (str : Bytes) : Except SizeWhy Int :=
  match toUpper str with
  | [] => .error .empty
  | c :: rest => if c = 45 then sizeBodyT (-1) rest else sizeBodyT 1 (c :: rest)

/-- errors of `Validate` -/
inductive Invalid where
  /-- opts.go:61 -/
  | noInput
  /-- opts.go:65 -/
  | noWd
  /-- opts.go:72 -/
  | command (c : Bytes)
  /-- opts.go:76-78, 84-86 -/
  | size (e : SizeWhy)
  deriving DecidableEq

/-- the texts of these -/
def Invalid.text : Invalid → Bytes
  | .noInput => ascii "missing argument 'input'"
  | .noWd => ascii "missing argument 'working directory'"
  | .command c => ascii "invalid command given, [" ++ c ++ ascii "]"
  | .size e => e.text

/-- opts.go:59-92 `Validate` -/
def validateT (o : Opts) : Except Invalid Opts :=
  if o.input = [] then .error .noInput
  else if o.input = [] then .error .noWd
  else if ¬ (o.cmd = ascii "swarm" ∨ o.cmd = ascii "info") then .error (.command o.cmd)
  else match parseSizeUnitsT o.uplimStr with
    | .error e => .error (.size e)
    | .ok u => match parseSizeUnitsT o.dnlimStr with
      | .error e => .error (.size e)
      | .ok d => .ok { o with uplim := u, dnlim := d }

/-! ### the program -/

/-- how the program starts -/
inductive StartT where
  /-- main.go:19-24: the options are accepted -/
  | run (o : Opts)
  /-- `ErrHelp`, exit status 0 -/
  | help
  /-- the line, then the usage; exit status 2 -/
  | refused (l : Line)
  /-- opts.go:53: `panic(e)` -/
  | panic (e : Invalid)
  deriving DecidableEq

/-- opts.go:39-57 `initOpts`, main.go:13 -/
def startT (args : List Bytes) : StartT :=
  match parseArgsT defaults args with
  | .help => .help
  | .fail l => .refused l
  | .ok o => match validateT o with
    | .ok o' => .run o'
    | .error e => .panic e

/-- what is written to the standard error stream; after a panic a trace of the goroutines follows, which is not modelled -/
def StartT.stderr (other : Bytes → Bytes) (prog : Bytes) : StartT → Bytes
  | .run _ => []
  | .help => usage prog
  | .refused l => l.text other ++ ascii "\n" ++ usage prog
  | .panic e => ascii "panic: " ++ e.text ++ ascii "\n"

end Verif.OptsText
