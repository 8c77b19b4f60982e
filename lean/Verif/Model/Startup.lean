import Verif.Model.Torrent
import Verif.Model.Tracker
import Verif.Model.Swarm
import Verif.Model.MsgHandler
/-
Model of NewSwarm, /repo/src/swarm/swarm.go:39-96.
-/
set_option autoImplicit false

namespace Verif.Startup
open Verif.Files Verif.FS Verif.FileIO Verif.Bf Verif.Torrent

/-- everything outside of the program that start-up depends on: SHA-1, formatting and parsing of addresses and URLs by the standard library,
the HTTP client (raw query to body), spare capacity behind the data read from the torrent file and from the tracker -/
structure World where
  H : Bytes → Bytes
  v6 : Peer.IP → Bytes
  parseIP : Bytes → Peer.IP
  parseURL : Bytes → Option (List (Bytes × Bytes))
  http : Bytes → Option Bytes
  spareFile : Bytes
  spareBody : Bytes

/-- opts.go:17-27, the validated options used by `NewSwarm` -/
structure Options where
  input : Bytes
  workingDir : Bytes
  port : UInt16

/-- swarm.go:21-34 `Swarm` after start-up.  The rate limiter is a model of its own. -/
structure Started where
  tor : Torrent
  core : MsgHandler.Swarm
  state : Tracker.State
  peers : List Peer.Info
  ppt : PieceTracker.Tracker
  stats : Tracker.Stats
  id : Bytes
  port : UInt16

/-- swarm.go:65-95: `NewSwarm` after the files have been opened.  `NumPieces` is converted to `uint32` for the tracker of
pieces. -/
def finish (w : World) (o : Options) (id : Bytes) (tor : Torrent) (fs : State) : Res Started := do
  let b0 ← NewBitfield tor.info.numPieces
  let b ← Swarm.Validate w.H fs (openedAll tor.info) b0
  let resp ← Tracker.Get w.v6 w.parseIP w.parseURL w.http w.spareBody tor (Tracker.NewStats 0 0 0) o.port id
  let ppt ← PieceTracker.NewPeerPieceTracker (UInt32.ofNat tor.info.numPieces).toNat
  .ok ⟨tor, ⟨tor.info, b, openedAll tor.info, fs⟩, resp.state, resp.peers, ppt, Tracker.NewStats 0 0 0, id, o.port⟩

/-- swarm.go:39-96 `NewSwarm` with the peer id `id` (`NewPeerId` is random).  `NewSwarm sp w o id readOk fs r fs'`: started in `fs` it can end
with `r` in `fs'`.  `readOk` tells whether reading the torrent file works; for `sp` see `FS.Exec`. -/
inductive NewSwarm (sp : Bool) (w : World) (o : Options) (id : Bytes) (readOk : Bool) : State → Res Started → State → Prop
  | rejected (fs : State) (e : Err) :
      FromTorrentFile w.H (if readOk then fs o.input else none) w.spareFile o.workingDir = .err e → NewSwarm sp w o id readOk fs (.err e) fs
  | crashed (fs : State) :
      FromTorrentFile w.H (if readOk then fs o.input else none) w.spareFile o.workingDir = .panic → NewSwarm sp w o id readOk fs .panic fs
  | noFiles (fs fs' : State) (tor : Torrent) (e : Err) :
      FromTorrentFile w.H (if readOk then fs o.input else none) w.spareFile o.workingDir = .ok tor →
      Exec sp (OCATAll tor.info.flist) fs (.done (.err e)) fs' → NewSwarm sp w o id readOk fs (.err e) fs'
  | filesCrashed (fs fs' : State) (tor : Torrent) :
      FromTorrentFile w.H (if readOk then fs o.input else none) w.spareFile o.workingDir = .ok tor →
      Exec sp (OCATAll tor.info.flist) fs (.done .panic) fs' → NewSwarm sp w o id readOk fs .panic fs'
  | ready (fs fs' : State) (tor : Torrent) :
      FromTorrentFile w.H (if readOk then fs o.input else none) w.spareFile o.workingDir = .ok tor →
      Exec sp (OCATAll tor.info.flist) fs (.done (.ok ())) fs' → NewSwarm sp w o id readOk fs (finish w o id tor fs') fs'

end Verif.Startup
