import Verif.Model.Go
/-
Model of the write half of /repo/src/io/ratelimit.go as a transition system: any number of goroutines call `Write` and
`SetWriteRate`, the goroutine in `Run` resets the budget at each tick.  The read half and `Stop` are in RateRead.lean.

Simplifications: every access to a field is one atomic step and all goroutines see the same memory (in Go the accesses to `wRate` and the
read of `wUsed` in the waiting loop are not synchronised); `Run` is always running; a failing test in the waiting loop changes nothing and
is no step.  What the writer does is not modelled, only when it is called.
-/
set_option autoImplicit false

namespace Verif.RateLimit

/-- ratelimit.go:11 -/
def NoLimit : Int := -1

/-- where a goroutine is; the line numbers are those of ratelimit.go -/
inductive Pc where
  /-- in no call -/
  | idle
  /-- `Write` of `n` bytes, before 91 -/
  | start (n : Nat)
  /-- before 92 -/
  | direct (n : Nat)
  /-- before 93 -/
  | directUsed (n : Nat)
  /-- before 94 -/
  | directTotal (n : Nat)
  /-- before 100 -/
  | wantLock (n : Nat)
  /-- in the loop 103-107, with the lock -/
  | spin (n : Nat)
  /-- before 109, with the lock -/
  | admit (n : Nat)
  /-- before 110, with the lock -/
  | unlock (n : Nat)
  /-- before 111 -/
  | addTotal (n : Nat)
  /-- before 113 -/
  | out (n : Nat)
  /-- `SetWriteRate`, before 52 -/
  | setWant (l : Int)
  /-- before 54, with the lock -/
  | setHold (l : Int)
  /-- before the deferred unlocking of 53 -/
  | setUnlock
  deriving DecidableEq, Repr

/-- the fields `wRate`, `wUsed`, `wTotal` and `wlock` (with its owner) of ratelimit.go:14-26, and the goroutines -/
structure State where
  rate : Int
  used : Int
  total : Int
  lock : Option Nat
  pcs : Nat → Pc

/-- goroutine `t` goes to `pc` -/
def State.go (s : State) (t : Nat) (pc : Pc) : State := { s with pcs := fun u => if u = t then pc else s.pcs u }

/-- what can be seen of a step -/
inductive Label where
  /-- goroutine `t` counts a write of `n` bytes in `wUsed` (93 or 109) -/
  | admit (t n : Nat)
  /-- goroutine `t` calls the writer with `n` bytes (92 or 113) -/
  | written (t n : Nat)
  /-- goroutine `t` counts a write of `n` bytes in `wTotal` (94 or 111) -/
  | counted (t n : Nat)
  /-- the limit is stored (54) -/
  | setRate (t : Nat) (l : Int)
  /-- the budget is reset (70) -/
  | tick
  | tau
  deriving DecidableEq, Repr

/-- ratelimit.go:49-51: the limit is clamped -/
def clamp (l : Int) : Int := if l < NoLimit then NoLimit else l

/-- the steps -/
inductive Step : State → Label → State → Prop
  /-- ratelimit.go:85: a goroutine calls `Write` -/
  | call (s : State) (t n : Nat) : s.pcs t = .idle → Step s .tau (s.go t (.start n))
  /-- 91 -/
  | unlimited (s : State) (t n : Nat) : s.pcs t = .start n → s.rate = NoLimit → Step s .tau (s.go t (.direct n))
  /-- 91 -/
  | limited (s : State) (t n : Nat) : s.pcs t = .start n → s.rate ≠ NoLimit → Step s .tau (s.go t (.wantLock n))
  /-- 92 -/
  | direct (s : State) (t n : Nat) : s.pcs t = .direct n → Step s (.written t n) (s.go t (.directUsed n))
  /-- 93 -/
  | directUsed (s : State) (t n : Nat) : s.pcs t = .directUsed n →
      Step s (.admit t n) ({ s with used := wrap64 (s.used + n) }.go t (.directTotal n))
  /-- 94 -/
  | directTotal (s : State) (t n : Nat) : s.pcs t = .directTotal n → Step s (.counted t n) ({ s with total := wrap64 (s.total + n) }.go t .idle)
  /-- 100 -/
  | lock (s : State) (t n : Nat) : s.pcs t = .wantLock n → s.lock = none → Step s .tau ({ s with lock := some t }.go t (.spin n))
  /-- 104 -/
  | check (s : State) (t n : Nat) : s.pcs t = .spin n → s.used < s.rate → Step s .tau (s.go t (.admit n))
  /-- 109 -/
  | add (s : State) (t n : Nat) : s.pcs t = .admit n → Step s (.admit t n) ({ s with used := wrap64 (s.used + n) }.go t (.unlock n))
  /-- 110 -/
  | unlock (s : State) (t n : Nat) : s.pcs t = .unlock n → Step s .tau ({ s with lock := none }.go t (.addTotal n))
  /-- 111 -/
  | addTotal (s : State) (t n : Nat) : s.pcs t = .addTotal n → Step s (.counted t n) ({ s with total := wrap64 (s.total + n) }.go t (.out n))
  /-- 113 -/
  | out (s : State) (t n : Nat) : s.pcs t = .out n → Step s (.written t n) (s.go t .idle)
  /-- 48: a goroutine calls `SetWriteRate` -/
  | setCall (s : State) (t : Nat) (l : Int) : s.pcs t = .idle → Step s .tau (s.go t (.setWant (clamp l)))
  /-- 52 -/
  | setLock (s : State) (t : Nat) (l : Int) : s.pcs t = .setWant l → s.lock = none → Step s .tau ({ s with lock := some t }.go t (.setHold l))
  /-- 54 -/
  | setStore (s : State) (t : Nat) (l : Int) : s.pcs t = .setHold l → Step s (.setRate t l) ({ s with rate := l }.go t .setUnlock)
  /-- 53 -/
  | setUnlock (s : State) (t : Nat) : s.pcs t = .setUnlock → Step s .tau ({ s with lock := none }.go t .idle)
  /-- 70, also 61 -/
  | tick (s : State) : Step s .tick { s with used := 0 }

/-- schedules, with what can be seen of them, oldest first -/
inductive Run : State → List Label → State → Prop
  | nil (s : State) : Run s [] s
  | snoc (s s' s'' : State) (ls : List Label) (l : Label) : Run s ls s' → Step s' l s'' → Run s (ls ++ [l]) s''

/-- the state in which the limit is `r` and no call has been made yet (ratelimit.go:28-37, 48-55) -/
def init (r : Int) : State := { rate := r, used := 0, total := 0, lock := none, pcs := fun _ => .idle }

end Verif.RateLimit
