/-
Go runtime notions shared by all parts of the model.
No file of /repo is modelled here; these are the conventions stated in DESIGN.md §2.
-/

set_option autoImplicit false

namespace Verif

/-- `[]byte` / `string` contents (Go strings are byte strings). -/
abbrev Bytes := List UInt8

/-- What kind of `error` value a Go function returned.  Error texts are not modelled, only which
error it is. -/
inductive Err where
  /-- `bencode.DecoderError` -/
  | decoder
  /-- error from `strconv` (syntax or range) -/
  | strconv
  /-- `bencode.EncoderError` -/
  | encoder
  /-- `bencode.DictMissingKeyError` -/
  | missingKey
  /-- `bencode.DictBadTypeError` -/
  | badType
  /-- `tracker.Error` -/
  | tracker
  /-- `fileio.PathError` -/
  | path
  /-- error of the operating system (`os`, `io`, `net`) -/
  | os
  /-- `io.EOF` -/
  | eof
  /-- `info.FileMetaError` / `torrent.TorError` -/
  | metadata
  /-- any error made by `errors.New` / `fmt.Errorf` in the repository -/
  | other
  deriving DecidableEq, Repr

/-- Outcome of a Go function: normal return, error return, run-time panic, or (only for loops that
are modelled with fuel) "has not finished within the given number of iterations". -/
inductive Res (α : Type) where
  | ok (a : α)
  | err (e : Err)
  | panic
  | timeout
  deriving DecidableEq, Repr

namespace Res

/-- sequencing: an error return, a panic and a non-terminating callee all stop the caller
(`if err != nil { return err }`). -/
def bind {α β : Type} : Res α → (α → Res β) → Res β
  | .ok a, f => f a
  | .err e, _ => .err e
  | .panic, _ => .panic
  | .timeout, _ => .timeout

instance : Monad Res where
  pure := Res.ok
  bind := Res.bind

@[simp] theorem ok_bind {α β : Type} (a : α) (f : α → Res β) : (Res.ok a >>= f) = f a := rfl
@[simp] theorem err_bind {α β : Type} (e : Err) (f : α → Res β) : (Res.err e >>= f) = Res.err e := rfl
@[simp] theorem panic_bind {α β : Type} (f : α → Res β) : ((Res.panic : Res α) >>= f) = Res.panic := rfl
@[simp] theorem timeout_bind {α β : Type} (f : α → Res β) :
    ((Res.timeout : Res α) >>= f) = Res.timeout := rfl
@[simp] theorem pure_eq {α : Type} (a : α) : (pure a : Res α) = Res.ok a := rfl

theorem bind_eq_ok {α β : Type} {x : Res α} {f : α → Res β} {b : β} :
    (x >>= f) = .ok b ↔ ∃ a, x = .ok a ∧ f a = .ok b := by
  cases x <;> simp

end Res

/-- two's complement wrap-around to `int64` -/
def wrap64 (x : Int) : Int := (x + 2 ^ 63) % 2 ^ 64 - 2 ^ 63

/-- the values a Go `int64` (and, on the 64-bit platforms considered, `int`) can take -/
def InInt64 (x : Int) : Prop := -2 ^ 63 ≤ x ∧ x < 2 ^ 63

theorem wrap64_of_in {x : Int} (h : InInt64 x) : wrap64 x = x := by
  unfold wrap64; unfold InInt64 at h; omega

theorem wrap64_in (x : Int) : InInt64 (wrap64 x) := by
  unfold wrap64 InInt64; omega

/-- ASCII text as bytes (only used on literals) -/
def ascii (s : String) : Bytes := s.toList.map fun c => UInt8.ofNat c.toNat

end Verif
