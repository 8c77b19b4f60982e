import Verif.Spec.Lts
/-
Model of the listener of /repo/src/swarm/swarm.go:138-166 (runListener) with the goroutines of the accepted connections, as far as the list `phs` of
peer handlers and the file descriptors of the connections are concerned.

Modelled: `Accept` and its error; the outcomes of FromIncoming (peerhandler.go:68-115), of which only a bad handshake closes the connection;
`phs = append(phs, ph)` by the goroutine of each connection, without a lock, as the memory accesses that the compiler emits for it (cmd/compile,
ssagen/ssa.go, `append` in place: the three words of the slice are loaded; if there is no room, a larger array is made and the capacity and the
pointer are stored; then the length and the element are stored); the end of Loop, which does not close the connection; and the finalizer of a connection
(net/fd_unix.go), which closes it once the garbage collector finds it unreachable.
Loading the three words is one step here, and memory is sequentially consistent.  Both only leave out executions.
Not modelled: what is said on the connections (Model/Session.lean), and the descriptors used for other purposes: `limit` is the number of descriptors that the
process may use for incoming connections.
-/
set_option autoImplicit false

namespace Verif.Listener

/-- where the goroutine of an accepted connection is (swarm.go:156-164) -/
inductive Phase where
  /-- in FromIncoming -/
  | shaking
  /-- FromIncoming returned an error, the connection is still open (peerhandler.go:73, 80, 86, 100, 108) -/
  | failed
  /-- the connection is closed -/
  | closed
  /-- before the append -/
  | ready
  /-- the words of `phs` are loaded: pointer, length, capacity -/
  | loaded (p l c : Nat)
  /-- there was no room: a new array is made, the capacity is stored, the pointer is not -/
  | wroteCap (p l : Nat)
  /-- there is room in the array `p` -/
  | room (p l : Nat)
  /-- the length is stored, the element is not -/
  | wroteLen (p l : Nat)
  /-- in Loop -/
  | looping
  /-- Loop has returned -/
  | ended
  deriving DecidableEq, Repr

/-- the listener and its goroutines.  Connection `i` is the `i`-th accepted one, and `i` also stands for its handler.  `mem` are the arrays made so far; the
position in it is the pointer.  `order` is a record for the statements only: the connections whose append is over, in this order. -/
structure State where
  phase : List Phase
  ptr : Nat
  len : Nat
  cap : Nat
  mem : List (List (Option Nat))
  crashed : Bool
  corrupted : Bool
  order : List Nat
  deriving DecidableEq, Repr

/-- swarm.go:147: `make([]*PeerHandler, 0, 4)` -/
def init : State := ⟨[], 0, 0, 4, [List.replicate 4 none], false, false, []⟩

/-- the descriptors in use -/
def State.openConns (σ : State) : Nat := (σ.phase.filter (· ≠ .closed)).length

/-- connection `i` goes on -/
def State.go (σ : State) (i : Nat) (p : Phase) : State := { σ with phase := σ.phase.set i p }

/-- the array `phs` points to -/
def State.array (σ : State) : List (Option Nat) := σ.mem[σ.ptr]?.getD []

/-- storing the element: `*(ptr+len) = ph`; there is no check of the bounds in `append` -/
def State.store (σ : State) (p l i : Nat) : State :=
  match σ.mem[p]? with
  | some a => if l < a.length then { σ with mem := σ.mem.set p (a.set l (some i)), order := σ.order ++ [i] } else { σ with corrupted := true }
  | none => { σ with corrupted := true }

/-- one step; `grow` is the capacity that `growslice` chooses.  A process that has crashed makes none. -/
inductive Step (limit : Nat) (grow : Nat → Nat) (σ : State) : State → Prop
  /-- swarm.go:150, 156: a connection is accepted -/
  | accept (hc : σ.crashed = false) (h : σ.openConns < limit) : Step limit grow σ { σ with phase := σ.phase ++ [.shaking] }
  /-- swarm.go:151-153: there are no descriptors left: `Accept` returns an error -/
  | acceptFails (hc : σ.crashed = false) (h : limit ≤ σ.openConns) : Step limit grow σ { σ with crashed := true }
  /-- peerhandler.go:90-93: bad handshake -/
  | bad (i : Nat) (hc : σ.crashed = false) (hi : σ.phase[i]? = some .shaking) : Step limit grow σ (σ.go i .closed)
  /-- peerhandler.go:73, 80, 86, 100, 108: an error -/
  | fail (i : Nat) (hc : σ.crashed = false) (hi : σ.phase[i]? = some .shaking) : Step limit grow σ (σ.go i .failed)
  /-- peerhandler.go:114: a good handshake -/
  | good (i : Nat) (hc : σ.crashed = false) (hi : σ.phase[i]? = some .shaking) : Step limit grow σ (σ.go i .ready)
  /-- swarm.go:161: the slice is loaded -/
  | load (i : Nat) (hc : σ.crashed = false) (hi : σ.phase[i]? = some .ready) : Step limit grow σ (σ.go i (.loaded σ.ptr σ.len σ.cap))
  /-- swarm.go:161: there is room -/
  | fits (i p l c : Nat) (hc : σ.crashed = false) (hi : σ.phase[i]? = some (.loaded p l c)) (h : l < c) : Step limit grow σ (σ.go i (.room p l))
  /-- swarm.go:161: there is no room; the first `l` elements are copied to a new array, the capacity is stored -/
  | grows (i p l c : Nat) (a : List (Option Nat)) (hc : σ.crashed = false) (hi : σ.phase[i]? = some (.loaded p l c)) (h : ¬ l < c) (ha : σ.mem[p]? = some a) :
      Step limit grow σ { σ.go i (.wroteCap σ.mem.length l) with
        mem := σ.mem ++ [a.take l ++ List.replicate (grow c - l) none], cap := grow c }
  /-- swarm.go:161: the pointer is stored -/
  | setPtr (i p l : Nat) (hc : σ.crashed = false) (hi : σ.phase[i]? = some (.wroteCap p l)) : Step limit grow σ { σ.go i (.room p l) with ptr := p }
  /-- swarm.go:161: the length is stored -/
  | setLen (i p l : Nat) (hc : σ.crashed = false) (hi : σ.phase[i]? = some (.room p l)) : Step limit grow σ { σ.go i (.wroteLen p l) with len := l + 1 }
  /-- swarm.go:161: the element is stored -/
  | setElem (i p l : Nat) (hc : σ.crashed = false) (hi : σ.phase[i]? = some (.wroteLen p l)) : Step limit grow σ ((σ.go i .looping).store p l i)
  /-- peerhandler.go:183-184: `Loop` returns; the connection stays open -/
  | ends (i : Nat) (hc : σ.crashed = false) (hi : σ.phase[i]? = some .looping) : Step limit grow σ (σ.go i .ended)
  /-- a connection whose goroutine has ended and whose handler is not in the array of `phs` may be closed by its finalizer -/
  | finalize (i : Nat) (hc : σ.crashed = false) (hi : σ.phase[i]? = some .failed ∨ σ.phase[i]? = some .ended) (hr : some i ∉ σ.array) :
      Step limit grow σ (σ.go i .closed)

end Verif.Listener
