import Verif.Model.Go
/-
Model of /repo/src/utils/ds/linklist.go and set.go.  Nodes live in a heap; an address is an index into the heap, and several
lists can share a heap.  Sizes (`int64`) are unbounded.
-/
set_option autoImplicit false

namespace Verif.DS

/-- linklist.go:8-12; `none` is a nil pointer -/
structure Node (α : Type) where
  data : α
  next : Option Nat
  prev : Option Nat
  deriving DecidableEq, Repr

/-- the allocated nodes -/
abbrev Heap (α : Type) := List (Node α)

/-- linklist.go:3-6 -/
structure LinkedList where
  head : Option Nat
  size : Int
  deriving DecidableEq, Repr

/-- linklist.go:28-33 `Make`, and the zero value of the type -/
def Make : LinkedList := ⟨none, 0⟩

/-- a read through a pointer; the model only makes pointers to allocated nodes -/
def deref {α : Type} (h : Heap α) (p : Option Nat) : Res (Node α) :=
  match p with
  | none => .panic
  | some a =>
    match h[a]? with
    | none => .panic
    | some nd => .ok nd

/-- `p.next = v` -/
def setNext {α : Type} (h : Heap α) (p : Option Nat) (v : Option Nat) : Res (Heap α) :=
  match p with
  | none => .panic
  | some a =>
    match h[a]? with
    | none => .panic
    | some nd => .ok (h.set a { nd with next := v })

/-- `p.prev = v` -/
def setPrev {α : Type} (h : Heap α) (p : Option Nat) (v : Option Nat) : Res (Heap α) :=
  match p with
  | none => .panic
  | some a =>
    match h[a]? with
    | none => .panic
    | some nd => .ok (h.set a { nd with prev := v })

/-- linklist.go:46-58 `AddNodeFront` -/
def AddNodeFront {α : Type} (h : Heap α) (ll : LinkedList) (n : Nat) : Res (Heap α × LinkedList) :=
  if ll.size = 0 then do
    let h ← setPrev h (some n) none
    let h ← setNext h (some n) none
    .ok (h, ⟨some n, ll.size + 1⟩)
  else do
    let h ← setNext h (some n) ll.head
    let h ← setPrev h (some n) none
    let h ← setPrev h ll.head (some n)
    .ok (h, ⟨some n, ll.size + 1⟩)

/-- linklist.go:35-44 `AddDataFront`; also returns the new node -/
def AddDataFront {α : Type} (h : Heap α) (ll : LinkedList) (data : α) : Res (Heap α × LinkedList × Nat) := do
  let (h', ll') ← AddNodeFront (h ++ [⟨data, none, none⟩]) ll h.length
  .ok (h', ll', h.length)

/-- linklist.go:71-73 -/
def removeHead (ll : LinkedList) (n : Nat) (next : Option Nat) : Option Nat := if some n = ll.head then next else ll.head

/-- linklist.go:74-76 -/
def removePrev {α : Type} (h : Heap α) (nd : Node α) : Res (Heap α) := if nd.prev = none then .ok h else setNext h nd.prev nd.next

/-- linklist.go:77-79 -/
def removeNext {α : Type} (h : Heap α) (nd : Node α) : Res (Heap α) := if nd.next = none then .ok h else setPrev h nd.next nd.prev

/-- linklist.go:60-81 `Remove` -/
def Remove {α : Type} (h : Heap α) (ll : LinkedList) (n : Nat) : Res (Heap α × LinkedList) :=
  if ll.size = 0 then .panic
  else if ll.size = 1 then do
    let h ← setPrev h (some n) none
    let h ← setNext h (some n) none
    .ok (h, ⟨none, 0⟩)
  else do
    let nd ← deref h (some n)
    let h ← removePrev h nd
    let nd' ← deref h (some n)
    let h ← removeNext h nd'
    .ok (h, ⟨removeHead ll n nd.next, ll.size - 1⟩)

/-- linklist.go:83-86 `Clear` -/
def Clear (_ll : LinkedList) : LinkedList := ⟨none, 0⟩

/-- set.go:3-5: a map from keys to elements, in some order -/
abbrev Set (τ : Type) := List (Bytes × τ)

/-- set.go:7-11 `MakeSet` -/
def MakeSet (τ : Type) : Set τ := []

/-- set.go:22-25 `Has`; `key` is the method `Key` of the element type -/
def Set.Has {τ : Type} (key : τ → Bytes) (s : Set τ) (x : τ) : Bool := (s.lookup (key x)).isSome

/-- set.go:13-20 `Add` -/
def Set.Add {τ : Type} (key : τ → Bytes) (s : Set τ) (x : τ) : Set τ × Bool :=
  if s.Has key x then (s, false) else (s ++ [(key x, x)], true)

/-- set.go:27-34 `Remove` -/
def Set.Remove {τ : Type} (key : τ → Bytes) (s : Set τ) (x : τ) : Set τ × Bool :=
  if s.Has key x then (s.filter fun p => p.1 != key x, true) else (s, false)

/-- set.go:36-38 `Size` -/
def Set.Size {τ : Type} (s : Set τ) : Int := s.length

/-- set.go:40-46 `Items`: `make([]T, n)` followed by `append`; `zero` is the zero value of the element type.  Go may
iterate in any order: here in the order of the list. -/
def Set.Items {τ : Type} (zero : τ) (s : Set τ) : List τ := List.replicate s.length zero ++ s.map Prod.snd

end Verif.DS
