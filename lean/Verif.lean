import Verif.Model.Go
import Verif.Model.Bencode
import Verif.Model.Bitfield
import Verif.Model.P2P
import Verif.Model.Files
import Verif.Model.FS
import Verif.Model.FileIO
import Verif.Model.Utils
import Verif.Model.Url
import Verif.Model.Path
import Verif.Model.Torrent
import Verif.Model.Create
import Verif.Model.Swarm
import Verif.Model.Peer
import Verif.Model.Tracker
import Verif.Spec.Bencode
import Verif.Spec.Bits
import Verif.Spec.Wire
import Verif.Spec.Layout
import Verif.Spec.Size
import Verif.Props.Bencode
import Verif.Props.Bitfield
import Verif.Props.P2P
import Verif.Props.Layout
import Verif.Props.FileIO
import Verif.Props.Utils
import Verif.Spec.Doc
import Verif.Spec.Info
import Verif.Spec.Dirs
import Verif.Spec.Query
import Verif.Props.Create
import Verif.Props.Doc
import Verif.Props.Torrent
import Verif.Props.Info
import Verif.Props.Paths
import Verif.Props.Hostile
import Verif.Props.Tracker
import Verif.Model.DS
import Verif.Model.PieceTracker
import Verif.Spec.Seq
import Verif.Spec.Avail
import Verif.Props.DS
import Verif.Props.PieceTracker
import Verif.Model.Handshake
import Verif.Model.MsgHandler
import Verif.Spec.Handshake
import Verif.Props.Handshake
import Verif.Props.MsgHandler
import Verif.Props.Peer
import Verif.Model.RateLimit
import Verif.Model.ReadLoop
import Verif.Model.PeerLoop
import Verif.Spec.Rate
import Verif.Spec.Lts
import Verif.Spec.ReadLoop
import Verif.Lemmas.Lts
import Verif.Props.RateLimit
import Verif.Props.ReadLoop
import Verif.Props.PeerLoop
import Verif.Props.PeerLoopEnds
import Verif.Model.Session
import Verif.Spec.Session
import Verif.Props.Session
import Verif.Props.HandshakeCut
import Verif.Props.AnyBuffers
import Verif.Props.Seeder
import Verif.Props.SeederSent
import Verif.Model.Startup
import Verif.Lemmas.Saved
import Verif.Props.Saved
import Verif.Props.Startup
import Verif.Props.StartupSingle
import Verif.Model.Files64
import Verif.Lemmas.Files64
import Verif.Props.Int64
import Verif.Lemmas.PieceOrder
import Verif.Model.FileConc
import Verif.Lemmas.FileConc
import Verif.Lemmas.FileConcLocks
import Verif.Props.FileConc
import Verif.Props.FileConcWhole
import Verif.Props.FileConcParts
import Verif.Props.FileConcMix
import Verif.Props.FileClose
import Verif.Props.FileEnv
import Verif.Props.FileConcAlone
import Verif.Model.Flags
import Verif.Spec.Args
import Verif.Props.CommandLine
import Verif.Model.Peers
import Verif.Spec.Peers
import Verif.Props.Peers
import Verif.Props.PeersNext
import Verif.Model.Handles
import Verif.Spec.Handles
import Verif.Props.Handles
import Verif.Model.Human
import Verif.Props.Human
import Verif.Model.Dial
import Verif.Props.Dial
import Verif.Model.Listener
import Verif.Props.Listener
import Verif.Props.MsgWire
import Verif.Model.RateRead
import Verif.Spec.RateRead
import Verif.Props.RateRead
import Verif.Model.Show
import Verif.Spec.Show
import Verif.Props.Show
import Verif.Props.Download
import Verif.Model.Stack
import Verif.Spec.Stack
import Verif.Lemmas.Stack
import Verif.Props.Stack
import Verif.Lemmas.Places
import Verif.Props.Places
import Verif.Props.Restart
import Verif.Model.Idle
import Verif.Props.Idle
import Verif.Model.DirFS
import Verif.Props.DirFS
import Verif.Model.Races
import Verif.Lemmas.Races
import Verif.Props.Races
import Verif.Model.HeadRace
import Verif.Props.HeadRace
import Verif.Spec.RateLive
import Verif.Props.RateLive
import Verif.Spec.Memory
import Verif.Model.Memory
import Verif.Lemmas.Memory
import Verif.Props.Memory
import Verif.Props.Locks
import Verif.Props.LocksRate
import Verif.Props.Again
import Verif.Spec.Framing
import Verif.Props.Framing
import Verif.Spec.Fate
import Verif.Props.Fate
import Verif.Spec.Large
import Verif.Props.Large
import Verif.Spec.Changed
import Verif.Props.Changed
import Verif.Model.Sha1
import Verif.Tests.Bencode
import Verif.Tests.Messages
import Verif.Tests.Torrents
import Verif.Tests.Structures
import Verif.Props.SendBitfield
import Verif.Props.InfoExact
import Verif.Spec.Once
import Verif.Props.Once
import Verif.Model.Start
import Verif.Props.Start
import Verif.Model.MsgText
import Verif.Spec.MsgText
import Verif.Props.MsgText
import Verif.Model.Program
import Verif.Props.Program
import Verif.Props.ProgramEnds
import Verif.Model.Limited
import Verif.Spec.Limited
import Verif.Props.Limited
import Verif.Model.Spinner
import Verif.Spec.Screen
import Verif.Props.Spinner
import Verif.Model.DecodeText
import Verif.Spec.DecodeText
import Verif.Lemmas.DecodeText
import Verif.Props.DecodeText
import Verif.Model.LoadText
import Verif.Spec.LoadText
import Verif.Lemmas.LoadText
import Verif.Props.LoadText
import Verif.Lemmas.Format
import Verif.Model.TrackText
import Verif.Spec.TrackText
import Verif.Lemmas.TrackText
import Verif.Props.TrackText
import Verif.Model.OptsText
import Verif.Spec.OptsText
import Verif.Lemmas.OptsText
import Verif.Lemmas.OptsSize
import Verif.Props.OptsText
import Verif.Model.Log
import Verif.Spec.Log
import Verif.Lemmas.Log
import Verif.Lemmas.LogStory
import Verif.Props.Log
import Verif.Props.LogStory
import Verif.Model.MsgErr
import Verif.Spec.MsgErr
import Verif.Lemmas.MsgErr
import Verif.Props.MsgErr
import Verif.Model.EncErr
import Verif.Spec.EncErr
import Verif.Lemmas.EncErr
import Verif.Props.EncErr
import Verif.Model.WriteErr
import Verif.Props.WriteErr
import Verif.Spec.LoadOrder
import Verif.Lemmas.LoadOrder
import Verif.Props.LoadOrder
import Verif.Model.Work
import Verif.Spec.Work
import Verif.Lemmas.Work
import Verif.Props.Work
import Verif.Props.RacesCover
import Verif.Model.ReadWork
import Verif.Props.ReadWork
import Verif.Spec.Rest
import Verif.Props.Rest
import Verif.Spec.Numbers
import Verif.Props.Numbers
import Verif.Props.Served
import Verif.Model.NetIP
import Verif.Spec.NetIP
import Verif.Lemmas.NetIP
import Verif.Lemmas.NetText
import Verif.Props.NetIP
import Verif.Model.UrlParse
import Verif.Spec.UrlParse
import Verif.Lemmas.UrlParse
import Verif.Lemmas.UrlRef
import Verif.Props.UrlParse
import Verif.Model.PeerWork
import Verif.Props.PeerWork
import Verif.Props.ExactMsgs
import Verif.Props.ExactBencode
import Verif.Props.ExactFiles
import Verif.Model.Descriptors
import Verif.Lemmas.Descriptors
import Verif.Props.Descriptors
import Verif.Props.LogDone
import Verif.Model.Redirect
import Verif.Spec.Redirect
import Verif.Lemmas.Redirect
import Verif.Lemmas.RedirectNext
import Verif.Props.Redirect
import Verif.Props.PeersOver
import Verif.Props.ExactSmall
import Verif.Props.StartCrash
import Verif.Model.Links
import Verif.Spec.Links
import Verif.Lemmas.Links
import Verif.Lemmas.LinksExec
import Verif.Lemmas.LinksPath
import Verif.Lemmas.LinksFlat
import Verif.Props.Links
import Verif.Props.LinksChain
import Verif.Props.Body
import Verif.Props.Announce
