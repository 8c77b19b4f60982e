import Verif.Spec.Lts
/-
Model of the memory that the goroutines of a running client share, and of the order in which they access it.

After NewSwarm has returned and `Start` is called (/repo/src/main.go:39, swarm/swarm.go:120-136) there are: the goroutine that called Start, the listener,
the rate limiter's Run, and for every connection the goroutine that made it, pingLoop, recvLoop, requestLoop and the read loop's Run.
`code` is the control flow of each of them: a graph whose edges are single accesses to memory, operations of locks and channels, and `go` statements.
Every edge names the lines it stands for.  What decides between several edges (contents of messages, errors, the `select` statement, time) is left open,
so that every execution of the code is one of the graph.

Simplified: memory that only one goroutine knows (local variables, messages) is left out; memory is grouped in locations (`Loc`), so that an access of one of
its parts is an access of the location.  Connections (net.Conn), os.File, log and sync.WaitGroup do their own locking: WaitGroup's operations are atomic
accesses of `procs`, the others are `skip`.  What Wait waits for is left out (Model/PeerLoop.lean has it).
-/
set_option autoImplicit false

namespace Verif.Races

/-- memory that more than one goroutine knows -/
inductive Loc where
  /-- the fields of Swarm (swarm.go:21-34), the torrent with its metadata, the list of peers, the options: written by NewSwarm and initOpts only -/
  | config
  /-- the variable `phs` of runListener with the array it points to (swarm.go:147) -/
  | phs
  /-- our bitfield without the first five bytes of its data (bf/bitfield.go:12-18) -/
  | bits
  /-- the first five bytes of the data of our bitfield, where the head of the bitfield message is put (p2p/bitfield.go:44-45) -/
  | head
  /-- everything in PeerPieceTracker but the pointer to the bitfield (piecetracker.go:28-42) -/
  | tracker
  /-- the map of open files (fileio.go:33-36) -/
  | files
  /-- the fields of RateLimitIO (ratelimit.go:14-26) -/
  | rUsed | wRate | wUsed | wTotal
  /-- the fields of a PeerHandler but `bf` and `procs`, without the contents of `buf` (peerhandler.go:33-43) -/
  | handler
  /-- a PeerHandler's count of goroutines -/
  | procs
  /-- the contents of a PeerHandler's `buf` -/
  | pieceBuf
  /-- a PeerHandler's `bf` with the bitfield -/
  | peerBits
  /-- the fields of a connection's ReadLoop (readloop.go:14-23) -/
  | readLoop
  /-- the contents of its buffer -/
  | readBuf
  deriving DecidableEq, Repr

/-- every connection has its own -/
def Loc.perConn : Loc → Bool
  | .handler | .procs | .pieceBuf | .peerBits | .readLoop | .readBuf => true
  | _ => false

/-- things with room for one: a buffered channel of capacity 1, or a mutex, which is free if it is full -/
inductive Box where
  /-- RateLimitIO.wlock -/
  | wlock
  /-- PeerPieceTracker.mutex -/
  | mutex
  /-- ReadLoop.chBuf (readloop.go:28) -/
  | chBuf
  /-- ReadLoop.chReady (readloop.go:29) -/
  | chReady
  deriving DecidableEq, Repr

/-- every connection has its own -/
def Box.perConn : Box → Bool
  | .chBuf | .chReady => true
  | _ => false

/-- unbuffered channels of a connection -/
inductive Chan where
  /-- chErr and chDone of Loop (peerhandler.go:145, 148) -/
  | err | done
  /-- ReadLoop.chErr and chDone (readloop.go:30, 31) -/
  | readErr | readDone
  deriving DecidableEq, Repr

/-- the functions that are run by `go` -/
inductive Kind where
  | main | listener | limiter | incoming | bootstrap | ping | recv | request | reader
  deriving DecidableEq, Repr

/-- what a goroutine does at once -/
inductive Act where
  | rd (l : Loc)
  | wr (l : Loc)
  /-- sync/atomic -/
  | at (l : Loc)
  | skip
  /-- receive from a buffered channel, lock a mutex -/
  | take (b : Box)
  /-- send to a buffered channel, unlock a mutex -/
  | put (b : Box)
  | send (c : Chan)
  | recv (c : Chan)
  /-- `go` for the same connection (or for none) -/
  | spawn (k : Kind)
  /-- `go` for a new connection -/
  | «open» (k : Kind)
  deriving DecidableEq, Repr

/-- from, what, to -/
abbrev Edge := Nat × Act × Nat

/-- ratelimit.go:85-115, RateLimitIO.Write, from `a` to `b`; its own positions are `a+1` … `a+7`.  The write itself is not an access to shared memory. -/
def rateWrite (a b : Nat) : List Edge :=
  [(a, .rd .wRate, a+1),          -- :91
   (a+1, .at .wUsed, a+2),        -- :93 without limit
   (a+2, .at .wTotal, b),         -- :94
   (a+1, .take .wlock, a+3),      -- :100 with limit
   (a+3, .rd .wUsed, a+4),        -- :104
   (a+4, .rd .wRate, a+5),        -- :104
   (a+5, .skip, a+3),             -- :103 too much
   (a+5, .at .wUsed, a+6),        -- :109
   (a+6, .put .wlock, a+7),       -- :110
   (a+7, .at .wTotal, b)]         -- :111

/-- peerhandler.go:117-128, NewPeerHandler, from `a` to `a+3` -/
def newHandler (a : Nat) : List Edge :=
  [(a, .wr .handler, a+1),        -- :119-125
   (a+1, .wr .pieceBuf, a+2),     -- :125
   (a+2, .wr .peerBits, a+3)]     -- :126

/-- peerhandler.go:142-184, Loop, from `a` -/
def loop (a : Nat) : List Edge :=
  [(a, .rd .handler, a+1),        -- :152 unchoke
   (a+1, .spawn .ping, a+2),      -- :157
   (a+2, .spawn .recv, a+3),      -- :159
   (a+3, .spawn .request, a+4),   -- :161
   (a+4, .recv .err, a+5),        -- :172
   (a+5, .rd .handler, a+6),      -- :174
   (a+6, .send .done, a+7),       -- :175
   (a+7, .at .procs, a+8),        -- :176
   (a+8, .rd .handler, a+9)]      -- :179; the channel is nil, so this is the end

/-- the code of the goroutines -/
def code : Kind → List Edge
  /- swarm.go:120-136, Start -/
  | .main =>
    [(0, .spawn .listener, 1),    -- :122
     (1, .rd .config, 2),         -- :123
     (2, .spawn .limiter, 3),     -- :123
     (3, .rd .config, 4),         -- :126
     (4, .open .bootstrap, 4)]    -- :127
  /- swarm.go:138-166, runListener -/
  | .listener =>
    [(0, .rd .config, 1),         -- :139-145
     (1, .wr .phs, 2),            -- :147
     (2, .open .incoming, 2)]     -- :150-156
  /- ratelimit.go:59-74, Run; nobody calls Stop -/
  | .limiter =>
    [(0, .wr .rUsed, 1),          -- :60
     (1, .wr .wUsed, 2),          -- :61
     (2, .skip, 3),               -- :69
     (3, .at .wUsed, 4),          -- :70
     (4, .at .rUsed, 2)]          -- :71
  /- swarm.go:156-164 with peerhandler.go:68-115, FromIncoming; with an error it ends where it is -/
  | .incoming =>
    [(0, .rd .config, 1),         -- :90
     (1, .rd .config, 2),         -- :97
     (2, .rd .config, 3),         -- :105
     (3, .rd .bits, 4),           -- :105, p2p/bitfield.go:26
     (4, .wr .head, 5),           -- :106, p2p/bitfield.go:45
     (5, .rd .head, 6),           -- :106
     (6, .rd .bits, 7),           -- :106
     (7, .rd .config, 8)]         -- :114, 118
    ++ newHandler 8 ++            -- :114
    [(11, .rd .phs, 12),          -- swarm.go:161
     (12, .wr .phs, 13)]          -- swarm.go:161
    ++ loop 13                    -- swarm.go:162
  /- swarm.go:127-134 with peerhandler.go:50-64, FromBootstrap -/
  | .bootstrap =>
    [(0, .rd .config, 1),         -- :56
     (1, .rd .config, 2)]         -- :63, 118
    ++ newHandler 2               -- :63
    ++ loop 5                     -- swarm.go:132
  /- peerhandler.go:286-314, pingLoop -/
  | .ping =>
    [(0, .at .procs, 1),          -- :288
     (1, .rd .handler, 2),        -- :290-294
     (2, .skip, 3),               -- :302
     (3, .rd .handler, 4),        -- :303
     (4, .skip, 2),               -- :309
     (4, .send .err, 5),          -- :305
     (2, .recv .done, 5),         -- :310
     (5, .at .procs, 6)]          -- :289
  /- peerhandler.go:188-228, recvLoop, with msghandler.go -/
  | .recv =>
    [(0, .at .procs, 1),          -- :199
     (1, .rd .handler, 2),        -- :202-205
     (2, .wr .readLoop, 3),       -- :205, readloop.go:26
     (3, .wr .readBuf, 4),        -- :205, readloop.go:27
     (4, .spawn .reader, 5),      -- :206
     (5, .rd .readLoop, 6),       -- :213, 216
     (6, .take .chBuf, 7),        -- :213
     (7, .rd .readBuf, 8),        -- :214, msghandler.go:13 DecodeAll; a bitfield is copied
     (8, .rd .handler, 9),        -- msghandler.go:15
     (9, .skip, 9),               -- msghandler.go:17-18 a message of another kind
     -- msghandler.go:58-76, handleRequest
     (9, .rd .handler, 10),       -- msghandler.go:60
     (10, .rd .config, 11),       -- msghandler.go:62
     (11, .rd .bits, 12),         -- msghandler.go:62
     (12, .skip, 9),              -- msghandler.go:75 we do not have the piece
     (12, .rd .config, 13),       -- msghandler.go:63, fileio.go:147
     (13, .rd .files, 14),        -- fileio.go:155, 134
     (14, .wr .pieceBuf, 15),     -- fileio.go:138
     (15, .skip, 13),             -- fileio.go:153 next file
     (15, .skip, 41),             -- msghandler.go:65 error
     (15, .rd .pieceBuf, 16)]     -- msghandler.go:67-69
    ++ rateWrite 16 24 ++         -- msghandler.go:69
    [(24, .skip, 9),              -- msghandler.go:75
     (24, .skip, 41),             -- msghandler.go:71 error
     -- msghandler.go:35-56, handleBitfield
     (9, .rd .handler, 25),       -- msghandler.go:38
     (25, .rd .bits, 26),         -- msghandler.go:41
     (26, .skip, 41),             -- msghandler.go:42 error
     (26, .rd .config, 27),       -- msghandler.go:46
     (27, .wr .peerBits, 28),     -- msghandler.go:46, 49
     (28, .take .mutex, 29),      -- msghandler.go:52, piecetracker.go:77
     (29, .rd .peerBits, 30),     -- piecetracker.go:80-81
     (30, .skip, 29),             -- piecetracker.go:81 not set
     (30, .rd .tracker, 31),      -- piecetracker.go:101-107
     (31, .skip, 29),             -- piecetracker.go:104 already registered
     (31, .wr .tracker, 29),      -- piecetracker.go:108-113
     (30, .put .mutex, 9),        -- piecetracker.go:78
     -- back in recvLoop
     (9, .put .chReady, 5),       -- msghandler.go:32, :215
     (41, .put .chReady, 42),     -- msghandler.go:28, :215
     (42, .send .err, 43),        -- :224
     (6, .recv .readErr, 44),     -- :216
     (44, .skip, 43),             -- :223 end of data without an error
     (44, .send .err, 43),        -- :224
     (6, .recv .done, 45),        -- :218
     (45, .send .readDone, 46),   -- :219, readloop.go:55
     (46, .rd .readLoop, 43),     -- :219, readloop.go:58
     (43, .at .procs, 47)]        -- :200
  /- peerhandler.go:231-263, requestLoop -/
  | .request =>
    [(0, .at .procs, 1),          -- :232
     (1, .rd .handler, 2),        -- :235-236
     (2, .rd .config, 3),         -- :241
     (3, .rd .bits, 4),           -- :241
     (4, .skip, 19),              -- :241 complete
     (4, .rd .config, 5),         -- :245
     (5, .take .mutex, 6),        -- :245, piecetracker.go:151
     (6, .rd .tracker, 7),        -- piecetracker.go:154-158, 169
     (7, .put .mutex, 2),         -- piecetracker.go:152, 173, :248
     (7, .rd .bits, 8),           -- piecetracker.go:160
     (8, .rd .tracker, 6),        -- piecetracker.go:163, 169 next piece
     (8, .wr .tracker, 9),        -- piecetracker.go:163, 165
     (9, .put .mutex, 10),        -- piecetracker.go:152, 166
     (10, .rd .config, 11)]       -- :256, 266-272
    ++ rateWrite 11 10 ++         -- :256
    [(10, .skip, 2),              -- :259
     (19, .at .procs, 20)]        -- :233
  /- readloop.go:65-91, Run -/
  | .reader =>
    [(0, .rd .readLoop, 1),       -- :71
     (1, .send .readErr, 6),      -- :73
     (1, .wr .readBuf, 2),        -- :77
     (2, .send .readErr, 6),      -- :79
     (2, .put .chBuf, 3),         -- :82
     (3, .take .chReady, 0),      -- :85
     (3, .recv .readDone, 6)]     -- :86

/-- a goroutine: its function, its connection, and where it is -/
structure Thread where
  kind : Kind
  conn : Nat
  pc : Nat
  deriving DecidableEq, Repr

/-- the goroutines, the number of connections so far, and what is full -/
structure State where
  threads : List Thread
  conns : Nat
  full : Box → Nat → Bool

/-- which of the boxes it is -/
def Box.ix (b : Box) (c : Nat) : Nat := if b.perConn then c else 0

/-- main.go:39: Start is called; the mutexes are free -/
def init : State := ⟨[⟨.main, 0, 0⟩], 1, fun b n => n = 0 ∧ (b = .wlock ∨ b = .mutex)⟩

/-- goroutine `i` can do `a` next and is at `pc` then -/
def State.Can (σ : State) (i : Nat) (t : Thread) (a : Act) (pc : Nat) : Prop := σ.threads[i]? = some t ∧ (t.pc, a, pc) ∈ code t.kind

/-- goroutine `i` goes on -/
def State.go (σ : State) (i : Nat) (t : Thread) (pc : Nat) : State := { σ with threads := σ.threads.set i { t with pc := pc } }

/-- a box is filled or emptied -/
def State.setBox (σ : State) (b : Box) (n : Nat) (v : Bool) : State := { σ with full := fun b' n' => if b' = b ∧ n' = n then v else σ.full b' n' }

/-- what only concerns the goroutine that does it -/
def Act.local : Act → Bool
  | .rd _ | .wr _ | .at _ | .skip => true
  | _ => false

/-- one step of the client -/
inductive Step (σ : State) : State → Prop
  | step (i : Nat) (t : Thread) (a : Act) (pc : Nat) (h : σ.Can i t a pc) (hl : a.local = true) : Step σ (σ.go i t pc)
  /-- receive from a buffered channel, lock -/
  | take (i : Nat) (t : Thread) (b : Box) (pc : Nat) (h : σ.Can i t (.take b) pc) (hf : σ.full b (b.ix t.conn) = true) :
      Step σ ((σ.go i t pc).setBox b (b.ix t.conn) false)
  /-- send to a buffered channel, unlock -/
  | put (i : Nat) (t : Thread) (b : Box) (pc : Nat) (h : σ.Can i t (.put b) pc) (hf : σ.full b (b.ix t.conn) = false) :
      Step σ ((σ.go i t pc).setBox b (b.ix t.conn) true)
  /-- a value goes through an unbuffered channel -/
  | meet (i j : Nat) (hij : i ≠ j) (t u : Thread) (c : Chan) (pc pc' : Nat) (h : σ.Can i t (.send c) pc) (h' : σ.Can j u (.recv c) pc') (hc : t.conn = u.conn) :
      Step σ ((σ.go i t pc).go j u pc')
  | spawn (i : Nat) (t : Thread) (k : Kind) (pc : Nat) (h : σ.Can i t (.spawn k) pc) :
      Step σ { (σ.go i t pc) with threads := (σ.go i t pc).threads ++ [⟨k, t.conn, 0⟩] }
  | «open» (i : Nat) (t : Thread) (k : Kind) (pc : Nat) (h : σ.Can i t (.open k) pc) :
      Step σ { (σ.go i t pc) with threads := (σ.go i t pc).threads ++ [⟨k, σ.conns, 0⟩], conns := σ.conns + 1 }

end Verif.Races
