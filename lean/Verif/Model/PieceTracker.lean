import Verif.Model.DS
import Verif.Model.Bitfield
/-
Model of /repo/src/swarm/piecetracker.go.  Every method holds the mutex from beginning to end, so calls happen one after
the other.
-/
set_option autoImplicit false

namespace Verif.PieceTracker
open Verif.DS Verif.Bf

/-- piecetracker.go:20 -/
def numBuckets : Nat := 64

/-- a `*PeerHandler`: its address and the result of its method `Key` (peerhandler.go:316-318) -/
structure PH where
  ptr : Nat
  key : Bytes
  deriving DecidableEq, Repr

/-- piecetracker.go:44-48; `uint32` as a natural number.  `peerSet` holds a reference to a map, but copies of a piece
are never used to change it. -/
structure Piece where
  index : Nat
  active : Bool
  peerSet : Set PH
  deriving DecidableEq, Repr

/-- piecetracker.go:28-42, with the heap the nodes live in.  `bf` is passed to `NextPiece` instead.  `requests` maps addresses of
peer handlers to copies of pieces, of which index and flag are kept. -/
structure Tracker where
  heap : Heap Piece
  nodes : List Nat
  buckets : List LinkedList
  requests : List (Nat × List (Nat × Bool))
  deriving DecidableEq, Repr

/-- `ppt.buckets[c]`, with the bounds check -/
def bucket (t : Tracker) (c : Nat) : Res LinkedList :=
  match t.buckets[c]? with
  | none => .panic
  | some ll => .ok ll

/-- `ppt.buckets[c].Remove(node)` -/
def bucketRemove (t : Tracker) (c n : Nat) : Res Tracker := do
  let ll ← bucket t c
  let (h, ll') ← DS.Remove t.heap ll n
  .ok { t with heap := h, buckets := t.buckets.set c ll' }

/-- `ppt.buckets[c].AddNodeFront(node)` -/
def bucketAdd (t : Tracker) (c n : Nat) : Res Tracker := do
  let ll ← bucket t c
  let (h, ll') ← AddNodeFront t.heap ll n
  .ok { t with heap := h, buckets := t.buckets.set c ll' }

/-- a change of the peer set of a node -/
def setPeers (t : Tracker) (n : Nat) (f : Set PH → Set PH) : Tracker :=
  { t with heap := t.heap.modify n fun nd => { nd with data := { nd.data with peerSet := f nd.data.peerSet } } }

/-- piecetracker.go:62-70: the loop of `NewPeerPieceTracker`; `size - i` iterations are left -/
def initLoop : Nat → Nat → Tracker → Res Tracker
  | 0, _, t => .ok t
  | left + 1, i, t => do
    let ll ← bucket t 0
    let (h, ll', node) ← AddDataFront t.heap ll ⟨i, false, MakeSet PH⟩
    initLoop left (i + 1) { t with heap := h, buckets := t.buckets.set 0 ll', nodes := t.nodes ++ [node] }

/-- piecetracker.go:53-73 `NewPeerPieceTracker` -/
def NewPeerPieceTracker (size : Nat) : Res Tracker := initLoop size 0 ⟨[], [], List.replicate numBuckets Make, []⟩

/-- piecetracker.go:107-110: move to the next bucket -/
def moveUp (t : Tracker) (n oldCount : Nat) : Res Tracker :=
  if oldCount < numBuckets then do
    let t ← bucketRemove t oldCount n
    bucketAdd t (oldCount + 1) n
  else .ok t

/-- piecetracker.go:100-115 `register` -/
def register (t : Tracker) (whom : PH) (index : Nat) : Res Tracker :=
  match t.nodes[index]? with
  | none => .panic
  | some n => do
    let nd ← deref t.heap (some n)
    if nd.data.peerSet.Has PH.key whom then .ok t
    else do
      let t ← moveUp t n nd.data.peerSet.length
      .ok (setPeers t n fun s => (s.Add PH.key whom).1)

/-- piecetracker.go:88-95 `Register` -/
def Register (t : Tracker) (whom : PH) : List Nat → Res Tracker
  | [] => .ok t
  | index :: indices => do
    let t ← register t whom index
    Register t whom indices

/-- piecetracker.go:80-84: the loop of `RegisterBF` -/
def registerBFLoop (b : Bitfield) (whom : PH) : Nat → Nat → Tracker → Res Tracker
  | 0, _, t => .ok t
  | left + 1, index, t => do
    let has ← b.Get index
    let t ← if has then register t whom (index % 2 ^ 32) else .ok t
    registerBFLoop b whom left (index + 1) t

/-- piecetracker.go:76-85 `RegisterBF` -/
def RegisterBF (t : Tracker) (whom : PH) (b : Bitfield) : Res Tracker := registerBFLoop b whom b.nbits.toNat 0 t

/-- piecetracker.go:135-138: move to the previous bucket -/
def moveDown (t : Tracker) (n oldCount : Nat) : Res Tracker :=
  if oldCount ≤ numBuckets then do
    let t ← bucketRemove t oldCount n
    bucketAdd t (oldCount - 1) n
  else .ok t

/-- piecetracker.go:130-142: one node (if the peer is in the set, the old count is not 0) -/
def unregisterNode (t : Tracker) (whom : PH) (n : Nat) : Res Tracker := do
  let nd ← deref t.heap (some n)
  if nd.data.peerSet.Has PH.key whom then do
    let t ← moveDown t n nd.data.peerSet.length
    .ok (setPeers t n fun s => (s.Remove PH.key whom).1)
  else .ok t

/-- piecetracker.go:128-143: the loop over the nodes -/
def unregisterLoop (whom : PH) : List Nat → Tracker → Res Tracker
  | [], t => .ok t
  | n :: ns, t => do
    let t ← unregisterNode t whom n
    unregisterLoop whom ns t

/-- piecetracker.go:118-144 `Unregister`.  The flags that are cleared first are those of the copies in `requests`; the entry
itself stays. -/
def Unregister (t : Tracker) (whom : PH) : Res Tracker :=
  unregisterLoop whom t.nodes
    { t with requests := t.requests.map fun r => if r.1 = whom.ptr then (r.1, r.2.map fun p => (p.1, false)) else r }

/-- piecetracker.go:156-170: the search in one bucket, at most `fuel` nodes -/
def scanList (h : Heap Piece) (own : Bitfield) (whom : PH) : Nat → Option Nat → Res (Option Nat)
  | _, none => .ok none
  | 0, some _ => .timeout
  | fuel + 1, some a => do
    let nd ← deref h (some a)
    let have' ← own.Get nd.data.index
    if !have' && (!nd.data.active && nd.data.peerSet.Has PH.key whom) then .ok (some nd.data.index)
    else scanList h own whom fuel nd.next

/-- piecetracker.go:154-171: the search in the buckets -/
def scanBuckets (h : Heap Piece) (own : Bitfield) (whom : PH) : List LinkedList → Res (Option Nat)
  | [] => .ok none
  | ll :: lls => do
    let r ← scanList h own whom (h.length + 1) ll.head
    match r with
    | some i => .ok (some i)
    | none => scanBuckets h own whom lls

/-- piecetracker.go:165: append to the list of requests of a peer -/
def addRequest (rs : List (Nat × List (Nat × Bool))) (ptr i : Nat) : List (Nat × List (Nat × Bool)) :=
  if (rs.lookup ptr).isSome then rs.map fun r => if r.1 = ptr then (r.1, r.2 ++ [(i, true)]) else r
  else rs ++ [(ptr, [(i, true)])]

/-- piecetracker.go:150-174 `NextPiece`.  `curPiece` is a copy of the piece: the flag set in line 164 is only seen through
`requests`. -/
def NextPiece (t : Tracker) (own : Bitfield) (whom : PH) : Res (Tracker × Nat × Bool) := do
  let r ← scanBuckets t.heap own whom (t.buckets.drop 1)
  match r with
  | some i => .ok ({ t with requests := addRequest t.requests whom.ptr i }, i, true)
  | none => .ok (t, 0, false)

end Verif.PieceTracker
