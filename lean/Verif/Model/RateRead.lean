import Verif.Model.RateLimit
/-
Model of the read half of /repo/src/io/ratelimit.go as a transition system, with `Run` and `Stop`: any number of goroutines call `Read`,
`SetReadRate`, `Run` and `Stop`.

Simplifications: every access to a field is one atomic step and all goroutines see the same memory; a failing test in the waiting loop
changes nothing and is no step.  Of the reader only the number of bytes that it returns is modelled: any number up to the length of the buffer.
Nobody calls `Read` in the program itself.
-/
set_option autoImplicit false

namespace Verif.RateRead
open Verif.RateLimit (NoLimit clamp)

/-- where a goroutine is; the line numbers are those of ratelimit.go -/
inductive Pc where
  /-- in no call -/
  | idle
  /-- `Read` into `n` bytes, before 128 -/
  | start (n : Nat)
  /-- in the call of the reader in 129 -/
  | direct (n : Nat)
  /-- before 130 -/
  | directUsed (n : Nat)
  /-- before 131 -/
  | directTotal (n : Nat)
  /-- before 137 -/
  | wantLock (n : Nat)
  /-- in the loop 140-144, with the lock -/
  | spin (n : Nat)
  /-- before 146, with the lock -/
  | admit (n : Nat)
  /-- before 147, with the lock -/
  | unlock (n : Nat)
  /-- before 148 -/
  | addTotal (n : Nat)
  /-- in the call of the reader in 150 -/
  | out (n : Nat)
  /-- `SetReadRate`, before 43 -/
  | setWant (l : Int)
  /-- before 45, with the lock -/
  | setHold (l : Int)
  /-- before the deferred unlocking of 44 -/
  | setUnlock
  /-- `Run`, before 60 -/
  | runStart
  /-- in the loop 64-73 of `Run` -/
  | running
  /-- `Stop`, in 77 -/
  | stopping
  deriving DecidableEq, Repr

/-- the fields `rRate`, `rUsed`, `rTotal` and `rlock` (with its owner) of ratelimit.go:14-26, and the goroutines -/
structure State where
  rate : Int
  used : Int
  total : Int
  lock : Option Nat
  pcs : Nat → Pc

/-- goroutine `t` goes to `pc` -/
def State.go (s : State) (t : Nat) (pc : Pc) : State := { s with pcs := fun u => if u = t then pc else s.pcs u }

/-- what can be seen of a step -/
inductive Label where
  /-- goroutine `t` counts a buffer of `n` bytes in `rUsed` (130 or 146) -/
  | admit (t n : Nat)
  /-- the reader gives goroutine `t` `m` bytes in a buffer of `n` bytes (129 or 150) -/
  | got (t n m : Nat)
  /-- goroutine `t` counts a buffer of `n` bytes in `rTotal` (131 or 148) -/
  | counted (t n : Nat)
  /-- the limit is stored (45) -/
  | setRate (t : Nat) (l : Int)
  /-- the budget is reset by `Run` of goroutine `u`, at a tick (71) -/
  | tick (u : Nat)
  /-- goroutine `u` begins with `Run`, which resets the budget (60) -/
  | started (u : Nat)
  /-- `Stop` of goroutine `t` ends the loop of `Run` of goroutine `u` -/
  | stopped (t u : Nat)
  /-- goroutine `t` calls `Run` or `Stop` -/
  | control (t : Nat)
  | tau
  deriving DecidableEq, Repr

/-- the steps -/
inductive Step : State → Label → State → Prop
  /-- ratelimit.go:122: a goroutine calls `Read` -/
  | call (s : State) (t n : Nat) : s.pcs t = .idle → Step s .tau (s.go t (.start n))
  /-- 128 -/
  | unlimited (s : State) (t n : Nat) : s.pcs t = .start n → s.rate = NoLimit → Step s .tau (s.go t (.direct n))
  /-- 128 -/
  | limited (s : State) (t n : Nat) : s.pcs t = .start n → s.rate ≠ NoLimit → Step s .tau (s.go t (.wantLock n))
  /-- 129 -/
  | direct (s : State) (t n m : Nat) : s.pcs t = .direct n → m ≤ n → Step s (.got t n m) (s.go t (.directUsed n))
  /-- 130 -/
  | directUsed (s : State) (t n : Nat) : s.pcs t = .directUsed n →
      Step s (.admit t n) ({ s with used := wrap64 (s.used + n) }.go t (.directTotal n))
  /-- 131 -/
  | directTotal (s : State) (t n : Nat) : s.pcs t = .directTotal n → Step s (.counted t n) ({ s with total := wrap64 (s.total + n) }.go t .idle)
  /-- 137 -/
  | lock (s : State) (t n : Nat) : s.pcs t = .wantLock n → s.lock = none → Step s .tau ({ s with lock := some t }.go t (.spin n))
  /-- 141 -/
  | check (s : State) (t n : Nat) : s.pcs t = .spin n → s.used < s.rate → Step s .tau (s.go t (.admit n))
  /-- 146 -/
  | add (s : State) (t n : Nat) : s.pcs t = .admit n → Step s (.admit t n) ({ s with used := wrap64 (s.used + n) }.go t (.unlock n))
  /-- 147 -/
  | unlock (s : State) (t n : Nat) : s.pcs t = .unlock n → Step s .tau ({ s with lock := none }.go t (.addTotal n))
  /-- 148 -/
  | addTotal (s : State) (t n : Nat) : s.pcs t = .addTotal n → Step s (.counted t n) ({ s with total := wrap64 (s.total + n) }.go t (.out n))
  /-- 150 -/
  | out (s : State) (t n m : Nat) : s.pcs t = .out n → m ≤ n → Step s (.got t n m) (s.go t .idle)
  /-- 39: a goroutine calls `SetReadRate` -/
  | setCall (s : State) (t : Nat) (l : Int) : s.pcs t = .idle → Step s .tau (s.go t (.setWant (clamp l)))
  /-- 43 -/
  | setLock (s : State) (t : Nat) (l : Int) : s.pcs t = .setWant l → s.lock = none → Step s .tau ({ s with lock := some t }.go t (.setHold l))
  /-- 45 -/
  | setStore (s : State) (t : Nat) (l : Int) : s.pcs t = .setHold l → Step s (.setRate t l) ({ s with rate := l }.go t .setUnlock)
  /-- 44 -/
  | setUnlock (s : State) (t : Nat) : s.pcs t = .setUnlock → Step s .tau ({ s with lock := none }.go t .idle)
  /-- 59: a goroutine calls `Run` -/
  | runCall (s : State) (u : Nat) : s.pcs u = .idle → Step s (.control u) (s.go u .runStart)
  /-- 60 -/
  | runStart (s : State) (u : Nat) : s.pcs u = .runStart → Step s (.started u) ({ s with used := 0 }.go u .running)
  /-- 71 -/
  | tick (s : State) (u : Nat) : s.pcs u = .running → Step s (.tick u) { s with used := 0 }
  /-- 76: a goroutine calls `Stop` -/
  | stopCall (s : State) (t : Nat) : s.pcs t = .idle → Step s (.control t) (s.go t .stopping)
  /-- 77 and 66: the channel has no buffer, the two goroutines meet -/
  | stop (s : State) (t u : Nat) : s.pcs t = .stopping → s.pcs u = .running → Step s (.stopped t u) ((s.go t .idle).go u .idle)

/-- schedules, with what can be seen of them, oldest first -/
inductive Run : State → List Label → State → Prop
  | nil (s : State) : Run s [] s
  | snoc (s s' s'' : State) (ls : List Label) (l : Label) : Run s ls s' → Step s' l s'' → Run s (ls ++ [l]) s''

/-- the state in which the limit is `r` and no call has been made yet (ratelimit.go:28-37, 39-46) -/
def init (r : Int) : State := { rate := r, used := 0, total := 0, lock := none, pcs := fun _ => .idle }

end Verif.RateRead
