import Verif.Model.Start
import Verif.Model.DirFS
import Verif.Model.Flags
import Verif.Model.Show
/-
Model of the whole program: /repo/src/main.go:12-52 (`main`, `CmdSwarm`, `CmdTorInfo`) around the command line (Model/Flags.lean), NewSwarm on a disk with
directories (swarm.go:39-96; Model/Startup.lean, Model/DirFS.lean) and the running client (Model/Start.lean).

Not modelled here: log output (standard error, see Model/Log.lean), signals, and the operating system ending the process.
-/
set_option autoImplicit false

namespace Verif.Program
open Verif.Utils Verif.Flags Verif.Startup Verif.Torrent Verif.DirFS Verif.FS Verif.Bencode

/-- everything outside of the program: see `Startup.World`; the text of floating point numbers (`fv`, Model/Show.lean); the current directory; the requests to which
the tracker takes the connection and then never answers (`silent`); the random peer id (swarm.go:43); for `sp` see `FS.Exec` -/
structure Setting where
  w : World
  fv : Int → Int → Bytes
  cwd : Place
  silent : Bytes → Bool
  id : Bytes
  sp : Bool

/-- the process.  `out` is what it has written to standard output. -/
inductive Proc where
  | begin (d : Disk)
  /-- in NewSwarm, behind `OCATAll` (swarm.go:65) -/
  | opened (o : Opts) (tor : Torrent) (out : Bytes) (d : Disk)
  /-- main.go:41-43: the main goroutine is in its loop, the others do the work -/
  | serving (st : Started) (σ : Start.State) (out : Bytes) (d : Disk)
  | ended (status : Nat) (out : Bytes) (d : Disk)

/-- opts.go:159-161, swarm.go:44-48: what NewSwarm takes from the options -/
def options (o : Opts) : Options := ⟨o.input, o.wd, UInt16.ofNat o.Port⟩

/-- main.go:15-16 -/
def limits (o : Opts) : Bytes := intDec o.uplim ++ ascii "\n" ++ intDec o.dnlim ++ ascii "\n"

/-- main.go:27 -/
def done : Bytes := ascii "\n\nDONE\n"

/-- torrent.go: the torrent of the input file; `readOk` tells whether reading it works -/
def load (S : Setting) (o : Opts) (readOk : Bool) (d : Disk) : Res Torrent :=
  FromTorrentFile S.w.H (if readOk then d.files o.input else none) S.w.spareFile o.wd

/-- swarm.go:65-82: from the opened files to the request that is sent to the tracker -/
def asks (S : Setting) (o : Opts) (tor : Torrent) (fs : State) : Res Bytes := do
  let b0 ← Bf.NewBitfield tor.info.numPieces
  let _ ← Swarm.Validate S.w.H fs (FileIO.openedAll tor.info) b0
  Tracker.newRequest S.w.parseURL tor (Tracker.NewStats 0 0 0) (options o).port S.id

/-- one step.  The exit status is 1 after `log.Fatal`, 2 after a panic. -/
inductive Step (S : Setting) (args : List Bytes) : Proc → Proc → Prop
  /-- the exit in `flag.Parse` -/
  | exit (d : Disk) (c : Nat) (h : main args = .exit c) : Step S args (.begin d) (.ended c [] d)
  /-- opts.go:53 -/
  | badOpts (d : Disk) (h : main args = .panic) : Step S args (.begin d) (.ended 2 [] d)
  /-- main.go:23-24 -/
  | invalid (d : Disk) (o : Opts) (h : main args = .invalid o) :
      Step S args (.begin d) (.ended 0 (limits o ++ ascii "invalid command [" ++ o.cmd ++ ascii "]" ++ done) d)
  /-- main.go:21-22, 46-52 -/
  | info (d : Disk) (o : Opts) (readOk : Bool) (text : Bytes) (h : main args = .info o)
      (h1 : Show.CmdTorInfo S.w.H S.fv (if readOk then d.files o.input else none) S.w.spareFile o.wd = .ok text) :
      Step S args (.begin d) (.ended 0 (limits o ++ text ++ done) d)
  | infoFatal (d : Disk) (o : Opts) (readOk : Bool) (e : Err) (h : main args = .info o)
      (h1 : Show.CmdTorInfo S.w.H S.fv (if readOk then d.files o.input else none) S.w.spareFile o.wd = .err e) :
      Step S args (.begin d) (.ended 1 (limits o) d)
  | infoPanic (d : Disk) (o : Opts) (readOk : Bool) (h : main args = .info o)
      (h1 : Show.CmdTorInfo S.w.H S.fv (if readOk then d.files o.input else none) S.w.spareFile o.wd = .panic) :
      Step S args (.begin d) (.ended 2 (limits o) d)
  /-- main.go:32-35 after swarm.go:48-51 -/
  | rejected (d : Disk) (o : Opts) (readOk : Bool) (e : Err) (h : main args = .swarm o) (h1 : load S o readOk d = .err e) :
      Step S args (.begin d) (.ended 1 (limits o) d)
  | loadPanic (d : Disk) (o : Opts) (readOk : Bool) (h : main args = .swarm o) (h1 : load S o readOk d = .panic) :
      Step S args (.begin d) (.ended 2 (limits o) d)
  /-- main.go:32-35 after swarm.go:60-63 -/
  | noFiles (d d' : Disk) (o : Opts) (readOk : Bool) (tor : Torrent) (e : Err) (h : main args = .swarm o) (h1 : load S o readOk d = .ok tor)
      (h2 : DirExec S.sp S.cwd (FileIO.OCATAll tor.info.flist) d (.done (.err e)) d') : Step S args (.begin d) (.ended 1 (limits o) d')
  | filesPanic (d d' : Disk) (o : Opts) (readOk : Bool) (tor : Torrent) (h : main args = .swarm o) (h1 : load S o readOk d = .ok tor)
      (h2 : DirExec S.sp S.cwd (FileIO.OCATAll tor.info.flist) d (.done .panic) d') : Step S args (.begin d) (.ended 2 (limits o) d')
  /-- swarm.go:48-64 -/
  | «open» (d d' : Disk) (o : Opts) (readOk : Bool) (tor : Torrent) (h : main args = .swarm o) (h1 : load S o readOk d = .ok tor)
      (h2 : DirExec S.sp S.cwd (FileIO.OCATAll tor.info.flist) d (.done (.ok ())) d') : Step S args (.begin d) (.opened o tor (limits o) d')
  /-- main.go:32-35 after swarm.go:67-70 or 80-83; `http.Client` has no time limit (tracker.go:101), so nothing happens before the tracker answers -/
  | fatal (o : Opts) (tor : Torrent) (out : Bytes) (d : Disk) (e : Err) (hs : ∀ raw, asks S o tor d.files = .ok raw → S.silent raw = false)
      (h : finish S.w (options o) S.id tor d.files = .err e) : Step S args (.opened o tor out d) (.ended 1 out d)
  | panic (o : Opts) (tor : Torrent) (out : Bytes) (d : Disk) (hs : ∀ raw, asks S o tor d.files = .ok raw → S.silent raw = false)
      (h : finish S.w (options o) S.id tor d.files = .panic) : Step S args (.opened o tor out d) (.ended 2 out d)
  /-- main.go:37: `String` panics -/
  | printPanic (o : Opts) (tor : Torrent) (out : Bytes) (d : Disk) (st : Started) (hs : ∀ raw, asks S o tor d.files = .ok raw → S.silent raw = false)
      (h : finish S.w (options o) S.id tor d.files = .ok st) (h1 : Show.SwarmString S.fv S.w.v6 st = .panic) : Step S args (.opened o tor out d) (.ended 2 out d)
  /-- main.go:37-39 -/
  | start (o : Opts) (tor : Torrent) (out : Bytes) (d : Disk) (st : Started) (text : Bytes)
      (hs : ∀ raw, asks S o tor d.files = .ok raw → S.silent raw = false)
      (h : finish S.w (options o) S.id tor d.files = .ok st) (h1 : Show.SwarmString S.fv S.w.v6 st = .ok text) :
      Step S args (.opened o tor out d) (.serving st (Start.begin st) (out ++ ascii "\n " ++ text ++ ascii "\n") d)
  /-- the other goroutines; none of them writes to the files (C83) -/
  | work (st : Started) (σ σ' : Start.State) (out : Bytes) (d : Disk) (h : Start.Step (Start.env S.w st) st.port σ σ') :
      Step S args (.serving st σ out d) (.serving st σ' out d)
  /-- a panic in one of them ends the process -/
  | died (st : Started) (σ : Start.State) (out : Bytes) (d : Disk) (h : σ.client.crashed = true) : Step S args (.serving st σ out d) (.ended 2 out d)
  /-- main.go:41-43: once around the loop -/
  | spin (st : Started) (σ : Start.State) (out : Bytes) (d : Disk) (h : σ.client.crashed = false) :
      Step S args (.serving st σ out d) (.serving st σ out d)

end Verif.Program
