import Verif.Model.Utils
import Verif.Model.PieceTracker
import Verif.Model.Tracker
import Verif.Model.FileIO
import Verif.Tests.Torrents
/-
TESTS, not proofs: the cases of utils_test.go, futils_test.go, ds/linklist_test.go, ds/set_test.go, swarm/piecetracker_test.go,
tracker/tracker_test.go, filesd/flist_test.go, info/piecemap_test.go and fileio/fileio_test.go of /repo/src, run on the model by evaluation.
-/
set_option autoImplicit false

namespace Verif.Tests
open Verif.Utils Verif.DS Verif.Bf Verif.Files Verif.FileIO Verif.FS Verif.Sha1

/-! utils_test.go -/

-- TestSegmentData
#guard isOk [[0, 1, 2, 3]] (SegmentData [0, 1, 2, 3] 4)
#guard isOk [[0, 1], [2, 3], [4, 5]] (SegmentData [0, 1, 2, 3, 4, 5] 2)
#guard isOk [[0, 1, 2], [3, 4, 5], [6, 7]] (SegmentData [0, 1, 2, 3, 4, 5, 6, 7] 3)

-- TestRemoveSwap
#guard isOk [4, 1, 2, 3] (RemoveSwap [0, 1, 2, 3, 4] 0)
#guard isOk [0, 4, 2, 3] (RemoveSwap [0, 1, 2, 3, 4] 1)
#guard isOk [0, 1, 4, 3] (RemoveSwap [0, 1, 2, 3, 4] 2)
#guard isOk [0, 1, 2, 4] (RemoveSwap [0, 1, 2, 3, 4] 3)
#guard isOk [0, 1, 2, 3] (RemoveSwap [0, 1, 2, 3, 4] 4)

/-! ds/linklist_test.go -/

/-- `AddDataFront` for all the data; the addresses of the nodes -/
def addAll : List Nat → Heap Nat → LinkedList → Res (Heap Nat × LinkedList × List Nat)
  | [], h, ll => .ok (h, ll, [])
  | d :: ds, h, ll => do
    let (h', ll', n) ← AddDataFront h ll d
    let (h'', ll'', ns) ← addAll ds h' ll'
    .ok (h'', ll'', n :: ns)

/-- the data from a node on, following `next` -/
def walk (h : Heap Nat) : Nat → Option Nat → Res (List Nat)
  | 0, _ => .timeout
  | _, none => .ok []
  | f + 1, some a => do
    let nd ← deref h (some a)
    let rest ← walk h f nd.next
    .ok (nd.data :: rest)

-- TestLinkedList_AddData
#guard isOk (List.range 20).reverse (do
  let (h, ll, _) ← addAll (List.range 20) [] Make
  walk h 100 ll.head)

/-- add the data, remove one of the nodes, walk forwards from the head -/
def removed (data : List Nat) (i : Nat) : Res (List Nat × Int) := do
  let (h, ll, ns) ← addAll data [] Make
  let (h', ll') ← Remove h ll (ns.getD i 0)
  let l ← walk h' 100 ll'.head
  .ok (l, ll'.size)

-- TestLinkedList_Remove
#guard isOk ([], 0) (removed [20] 0)
#guard isOk ([1], 1) (removed [1, 2] 1)
#guard isOk ([2], 1) (removed [1, 2] 0)
#guard isOk ([3, 1], 2) (removed [1, 2, 3] 1)
-- `e1.prev != e3 || e3.next != e1`
#guard isOk (some 2, some 0) (do
  let (h, ll, ns) ← addAll [1, 2, 3] [] Make
  let (h', _) ← Remove h ll (ns.getD 1 0)
  let e1 ← deref h' (some (ns.getD 0 0))
  let e3 ← deref h' (some (ns.getD 2 0))
  .ok (e1.prev, e3.next))

/-! ds/set_test.go -/

/-- sizes while adding, and whether all are found at the end -/
def adds (words : List Bytes) : List Int × Bool :=
  let sets := (List.range (words.length + 1)).map fun n => (words.take n).foldl (fun st w => (Set.Add id st w).1) (MakeSet Bytes)
  (sets.map Set.Size, words.all fun w => Set.Has id (sets.getD words.length []) w)

-- TestSet_Add
#guard adds [ascii "a"] == ([0, 1], true)
#guard adds [ascii "a", ascii "b"] == ([0, 1, 2], true)
#guard adds [ascii "a", ascii "b", ascii "c"] == ([0, 1, 2, 3], true)

/-! swarm/piecetracker_test.go -/

open Verif.PieceTracker

/-- `peerAction` -/
structure Action where
  ph : PH
  bf : List Int
  gets : List Nat
  want : Nat
  succ : Bool
  leaves : Bool

/-- `PHDummy`: the key is the text of the peer information -/
def PHDummy (n : Nat) : PH := ⟨n, Bencode.natDec n ++ ascii " @ <nil>:60666"⟩

/-- set some bits -/
def setAll (v : Bool) : List Int → Bitfield → Res Bitfield
  | [], b => .ok b
  | i :: is, b => do
    let b' ← b.Set i v
    setAll v is b'

/-- `bfFromNeed` -/
def bfFromNeed (size : Nat) (need : List Int) : Res Bitfield := do
  let b ← NewBitfield size
  let b ← setAll true ((List.range size).map Int.ofNat) b
  setAll false need b

/-- `bfFromHave` -/
def bfFromHave (size : Nat) (have' : List Int) : Res Bitfield := do
  let b ← NewBitfield size
  setAll true have' b

/-- the first loop of the test -/
def simulate (size : Nat) : List Action → Tracker → Res Tracker
  | [], t => .ok t
  | a :: as, t => do
    let b ← bfFromHave size a.bf
    let t ← RegisterBF t a.ph b
    let t ← Register t a.ph a.gets
    let t ← if a.leaves then Unregister t a.ph else .ok t
    simulate size as t

/-- the second loop -/
def check (own : Bitfield) : List Action → Tracker → Res Bool
  | [], _ => .ok true
  | a :: as, t =>
    if a.leaves then check own as t
    else do
      let (t, next, ok) ← NextPiece t own a.ph
      if (a.succ && !ok) || next != a.want then .ok false else check own as t

/-- one case of the test -/
def trackerCase (size : Nat) (need : List Int) (actions : List Action) : Bool :=
  isOk true (do
    let own ← bfFromNeed size need
    let t ← NewPeerPieceTracker size
    let t ← simulate size actions t
    check own actions t)

-- TestPeerPieceTracker_NextPiece
#guard trackerCase 3 [0] [⟨PHDummy 1, [0], [], 0, true, false⟩]
#guard trackerCase 3 [0] [⟨PHDummy 1, [], [0], 0, true, false⟩]
#guard trackerCase 3 [0, 1, 2] [⟨PHDummy 1, [0, 1, 2], [], 2, true, false⟩, ⟨PHDummy 2, [0, 1], [], 1, true, false⟩,
  ⟨PHDummy 3, [0], [], 0, true, false⟩]
#guard trackerCase 2 [0, 1] [⟨PHDummy 1, [0, 1], [], 1, true, false⟩, ⟨PHDummy 2, [0], [], 0, true, false⟩,
  ⟨PHDummy 3, [1], [], 0, false, true⟩, ⟨PHDummy 4, [1], [], 0, false, true⟩]
#guard trackerCase 10 [2] [⟨PHDummy 1, [0, 1], [], 0, false, false⟩, ⟨PHDummy 2, [1, 2], [], 2, true, false⟩]

/-! tracker/tracker_test.go -/

/-- addresses and ports of the peers in the answer of a tracker -/
def peersOf (body : Bytes) : Res (List (Bytes × UInt16)) := do
  let r ← Tracker.doRequest (fun _ => []) (fun _ => []) (some body) []
  .ok (r.peers.map fun p => (p.ip, p.port))

/-- the IPv4 address in the 16-byte form of `net.IPv4` -/
def v4 (a b c d : UInt8) : Bytes := [0, 0, 0, 0, 0, 0, 0, 0, 0, 0, 255, 255, a, b, c, d]

-- TestNewResponseCompact
#guard isOk [(v4 255 193 65 23, 30532), (v4 175 178 243 56, 64005), (v4 105 143 135 2, 666), (v4 147 196 133 77, 1337)]
  (peersOf (ascii "d8:completei5e10:downloadedi55e10:incompletei2e8:intervali1748e12:min intervali874e5:peers24:" ++
    [255, 193, 65, 23, 119, 68, 175, 178, 243, 56, 250, 5, 105, 143, 135, 2, 2, 154, 147, 196, 133, 77, 5, 57] ++ ascii "e"))

/-! filesd/flist_test.go -/

/-- names and lengths as entries -/
def fents (l : List (String × Int)) : List EntryBase := l.map fun p => MakeFileEntry (ascii p.1) p.2

/-- start piece, end piece, start offset, end offset of the files -/
def layout (l : List (String × Int)) (pl : Int) : Res (List (Int × Int × Int × Int)) := do
  let fl ← MakeFileList (fents l) pl
  .ok (fl.map fun f => (f.startPiece, f.endPiece, f.startOff, f.endOff))

-- TestMakeFileList
#guard isOk [(0, 0, 0, 31)] (layout [("f1", 32)] 32)
#guard isOk [(0, 0, 0, 2), (0, 1, 3, 2), (1, 1, 3, 4), (2, 4, 0, 2), (4, 4, 3, 4)]
  (layout [("f1", 3), ("f2", 5), ("f3", 2), ("f4", 13), ("f5", 2)] 5)
#guard isOk [(0, 0, 0, 4), (1, 1, 0, 4), (2, 3, 0, 4), (4, 4, 0, 1)] (layout [("f1", 5), ("f2", 5), ("f3", 10), ("f4", 2)] 5)

/-- names of the files of a piece -/
def filesAt (l : List (String × Int)) (pl piece : Int) : Res (List Bytes) := do
  let fl ← MakeFileList (fents l) pl
  let fs ← GetFiles fl piece
  .ok (fs.map fun f => f.base.torPath)

-- TestFileList_GetFiles
#guard [(0, ["f1"]), (1, ["f2"]), (2, ["f3"]), (3, [])].all fun p => isOk (p.2.map ascii) (filesAt [("f1", 3), ("f2", 3), ("f3", 3)] 3 p.1)
#guard [(0, ["f1"]), (1, ["f1", "f2"]), (2, ["f2"]), (3, ["f2", "f3"]), (4, [])].all
  fun p => isOk (p.2.map ascii) (filesAt [("f1", 4), ("f2", 6), ("f3", 2)] 3 p.1)
#guard [(0, ["f1", "f2", "f3"]), (1, [])].all fun p => isOk (p.2.map ascii) (filesAt [("f1", 3), ("f2", 3), ("f3", 3)] 9 p.1)

/-! info/piecemap_test.go -/

/-- file, offset and length of the parts of all pieces -/
def pieceMap (l : List (String × Int)) (pl total : Int) : Res (List (List (Nat × Int × Int))) := do
  let n ← CalcNumPieces (fents l) pl
  let fl ← MakeFileList (fents l) pl
  let pm ← MakePieceMap fl n.toNat pl total
  .ok (pm.map fun ls => ls.map fun x => (x.fidx, x.loc.seekAmnt, x.loc.readAmnt))

-- TestMakePieceMap
#guard isOk [[(0, 0, 5)]] (pieceMap [("A", 5)] 5 5)
#guard isOk [[(0, 0, 3)]] (pieceMap [("A", 3)] 5 3)
#guard isOk [[(0, 0, 3)], [(0, 3, 3)], [(0, 6, 2)]] (pieceMap [("A", 8)] 3 8)
#guard isOk [[(0, 0, 3)], [(1, 0, 3)], [(2, 0, 3)]] (pieceMap [("A", 3), ("B", 3), ("C", 3)] 3 9)
#guard isOk [[(0, 0, 3)], [(0, 3, 1), (1, 0, 2)], [(1, 2, 3)], [(1, 5, 1), (2, 0, 2)]] (pieceMap [("A", 4), ("B", 6), ("C", 2)] 3 12)
#guard isOk [[(0, 0, 4)], [(0, 4, 1), (1, 0, 1), (2, 0, 1), (3, 0, 1)], [(4, 0, 1)]]
  (pieceMap [("A", 5), ("B", 1), ("C", 1), ("D", 1), ("E", 1)] 4 9)

/-! futils_test.go and fileio/fileio_test.go.  `run` follows the execution in which no call fails. -/

/-- the execution in which no call fails (opening a file that does not exist excepted); `none`: a write to a file that does not exist, which
the model has no step for -/
def run : Prog → State → Option (Res Unit × State)
  | .ret r, fs => some (r, fs)
  | .openRW p k, fs => run (k (fs p).isSome) fs
  | .mkdirAll _ k, fs => run (k true) fs
  | .openTrunc p k, fs => run (k true) (fs.set p [])
  | .size p k, fs => run (k ((fs p).map List.length)) fs
  | .truncate p n k, fs =>
    match fs p with
    | some c => if n < 0 then run (k false) fs else run (k true) (fs.set p (c.take n.toNat))
    | none => run (k false) fs
  | .write p o d k, fs =>
    match fs p with
    | some c => run (k true) (fs.set p (writeAt c o d))
    | none => none

/-- `run` is one of the executions of the model -/
theorem run_exec (sp : Bool) (p : Prog) (fs fs' : State) (r : Res Unit) (h : run p fs = some (r, fs')) : Exec sp p fs (.done r) fs' := by
  induction p generalizing fs with
  | ret r' => cases h; exact Exec.ret _ _
  | openRW q k ih =>
    simp only [run] at h
    cases hq : fs q with
    | none => rw [hq] at h; exact Exec.open_fail q k fs _ _ (Or.inl hq) (ih false fs h)
    | some c => rw [hq] at h; exact Exec.open_ok q k fs _ _ c hq (ih true fs h)
  | mkdirAll q k ih => exact Exec.mkdir q k fs _ _ true (ih true fs h)
  | openTrunc q k ih => exact Exec.trunc_ok q k fs _ _ (ih true _ h)
  | size q k ih =>
    simp only [run] at h
    cases hq : fs q with
    | none => rw [hq] at h; exact Exec.size_fail q k fs _ _ (ih none fs h)
    | some c => rw [hq] at h; exact Exec.size_ok q k fs _ _ c hq (ih (some c.length) fs h)
  | truncate q n k ih =>
    simp only [run] at h
    cases hq : fs q with
    | none => rw [hq] at h; exact Exec.truncate_fail q n k fs _ _ (ih false fs h)
    | some c =>
      rw [hq] at h
      by_cases hn : n < 0
      · simp only [hn, ↓reduceIte] at h
        exact Exec.truncate_fail q n k fs _ _ (ih false fs h)
      · simp only [hn, ↓reduceIte] at h
        have e : n = ((n.toNat : Nat) : Int) := by omega
        have := Exec.truncate_ok (sp := sp) q n.toNat k fs _ _ c hq (ih true (fs.set q (c.take n.toNat)) h)
        rw [← e] at this
        exact this
  | write q o d k ih =>
    simp only [run] at h
    cases hq : fs q with
    | none => rw [hq] at h; cases h
    | some c => rw [hq] at h; exact Exec.write_ok q o d k fs _ _ c hq (ih true _ h)

/-- size of the file after `CreateZeroFilledFile` -/
def created0 (path : String) (size : Nat) : Option Nat :=
  match run (CreateZeroFilledFile (ascii path) size) (fun _ => none) with
  | some (.ok _, fs) => (fs (ascii path)).map List.length
  | _ => none

-- TestWriteEmptyFile
#guard created0 "TestEmptyWrite" (writeSize - 100) == some (writeSize - 100)
#guard created0 "TestEmptyWrite" writeSize == some writeSize
#guard created0 "TestEmptyWrite" (writeSize + 100) == some (writeSize + 100)
#guard created0 "TestEmptyWrite/subdir/test" (writeSize + 100) == some (writeSize + 100)

/-- the files of the tests -/
def tfiles : List (String × String) := [("f1", "abcd"), ("f2", "e"), ("f3", "fghijkl")]

/-- a file system with these files -/
def fsOf (l : List (String × String)) : State := fun p => (l.find? fun f => ascii f.1 == p).map fun f => ascii f.2

/-- all pieces as `ReadPiece` returns them into one buffer -/
def readAll (fs : State) (ti : TorInfo) : Res (List Bytes) :=
  (List.range ti.numPieces).mapM fun (i : Nat) => do
    let (n, buf) ← ReadPiece fs (openedAll ti) i (List.replicate ti.pieceLen.toNat 0)
    .ok (buf.take n)

-- TestFileIO_ReadPiece: the name of the torrent is empty
#guard isOk (["abc", "def", "ghi", "jkl"].map ascii) (do
  let ti ← Create.CreateTorInfo sha1 (fun _ => some 100) (fsOf tfiles) 100 (tfiles.map fun f => ascii f.1) (ascii ".") [] 3
  match run (OCATAll ti.flist) (fsOf tfiles) with
  | some (.ok _, fs) => readAll fs ti
  | _ => .panic)

/-- write all pieces -/
def writeAll (ti : TorInfo) : Nat → List Bytes → State → Res State
  | _, [], fs => .ok fs
  | i, p :: ps, fs =>
    match WritePiece sha1 fs (openedAll ti) i p [] with
    | (fs', .ok _) => writeAll ti (i + 1) ps fs'
    | _ => .panic

/-- `TestFileIO_WritePiece` -/
def writeCase (name : String) (l : List (String × String)) : Res (List Bytes) := do
  let pieces ← SegmentData (l.flatMap fun f => ascii f.2) 3
  let ti ← NewTorInfo (ascii name) 3 (HashSlices sha1 pieces) (l.map fun f => MakeFileEntry (ascii f.1) (ascii f.2).length)
  match run (OCATAll ti.flist) (fun _ => none) with
  | some (.ok _, fs) => do
    let fs ← writeAll ti 0 pieces fs
    readAll fs ti
  | _ => .panic

-- TestFileIO_WritePiece
#guard isOk (["abc", "def", "ghi", "jkl"].map ascii) (writeCase "multifile" tfiles)
#guard isOk (["abc", "def", "gh"].map ascii) (writeCase "singlefile" [("singlefile", "abcdefgh")])

end Verif.Tests
