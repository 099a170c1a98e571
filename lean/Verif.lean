import Verif.Model.Go
import Verif.Model.Bencode
import Verif.Model.Parse
import Verif.Lemmas.Num
import Verif.Lemmas.Suffix
import Verif.Lemmas.ParseTop
import Verif.Lemmas.Encode
import Verif.Props.Bencode
import Verif.Props.Alias
import Verif.Model.Unmarshal
import Verif.Lemmas.Unmarshal
import Verif.Props.Unmarshal
import Verif.Props.HttpTracker
import Verif.Props.UdpTracker
import Verif.Props.PeerMessage
import Verif.Props.Connection
import Verif.Props.Handshake
import Verif.Props.Torrent
import Verif.Props.PiecesNum
import Verif.Props.Files
import Verif.Props.Paths
import Verif.Spec.Opened
import Verif.Props.Opened
import Verif.Props.Writer
import Verif.Props.Queue
import Verif.Props.Requests
import Verif.Props.PeerRun
import Verif.Props.Stats
import Verif.Model.Retry
import Verif.Spec.Retry
import Verif.Props.Retry
import Verif.Props.RetryUdp
import Verif.Model.Manager
import Verif.Spec.Manager
import Verif.Lemmas.Manager
import Verif.Props.Manager
import Verif.Props.ManagerRun
import Verif.Model.Cli
import Verif.Spec.Cli
import Verif.Props.Cli
import Verif.Model.Open
import Verif.Spec.Metainfo
import Verif.Spec.Text
import Verif.Lemmas.MapOf
import Verif.Lemmas.Faithful
import Verif.Props.Open
import Verif.Spec.Crash
import Verif.Props.Crash
import Verif.Props.Memory
import Verif.Model.World
import Verif.Spec.World
import Verif.Lemmas.World
import Verif.Lemmas.Push
import Verif.Props.World
import Verif.Spec.Canonical
import Verif.Props.Canonical
import Verif.Model.Builder
import Verif.Spec.Builder
import Verif.Props.Builder
import Verif.Model.Shared
import Verif.Spec.Race
import Verif.Lemmas.Shared
import Verif.Lemmas.Races
import Verif.Props.Race
import Verif.Spec.Deadlock
import Verif.Props.Deadlock
import Verif.Model.PeerAnnounce
import Verif.Spec.PeerAnnounce
import Verif.Props.PeerAnnounce
import Verif.Model.Figures
import Verif.Spec.Figures
import Verif.Props.Figures
import Verif.Model.TrackerNew
import Verif.Spec.TrackerNew
import Verif.Props.TrackerNew
import Verif.Spec.Determined
import Verif.Spec.Shown
import Verif.Spec.RunState
import Verif.Spec.Below
import Verif.Props.PathsExact
import Verif.Props.RunState
import Verif.Props.Determined
import Verif.Props.DeterminedMaps
import Verif.Props.Shown
import Verif.Spec.Asked
import Verif.Props.Asked
import Verif.Spec.Plain
import Verif.Props.Reencode
import Verif.Spec.Literal
import Verif.Spec.Stored
import Verif.Spec.Left
import Verif.Lemmas.Literal
import Verif.Props.Stored
import Verif.Props.Left
import Verif.Spec.Indent
import Verif.Props.Indent
import Verif.Props.RepoTests
import Verif.Spec.Serving
import Verif.Props.Serving
import Verif.Spec.Preserve
import Verif.Props.Preserve
import Verif.Spec.Lost
import Verif.Props.Lost
import Verif.Spec.Events
import Verif.Props.Events
import Verif.Model.StatusLine
import Verif.Spec.StatusLine
import Verif.Lemmas.Near
import Verif.Props.StatusLine
import Verif.Model.Describe
import Verif.Spec.Describe
import Verif.Props.Describe
import Verif.Spec.WriterCrash
import Verif.Props.WriterCrash
import Verif.Model.RunTime
import Verif.Spec.KeepAlive
import Verif.Props.RunTime
import Verif.Model.Faults
import Verif.Lemmas.Faults
import Verif.Spec.Faults
import Verif.Props.Faults
import Verif.Props.WorldCrash
import Verif.Spec.Sizes
import Verif.Props.Sizes
import Verif.Model.UdpSocket
import Verif.Props.UdpSocket
import Verif.Model.TimedNet
import Verif.Spec.TimedNet
import Verif.Props.TimedNet
import Verif.Model.Contact
import Verif.Spec.Contact
import Verif.Props.Contact
import Verif.Model.TrackerClock
import Verif.Spec.TrackerClock
import Verif.Props.TrackerClock
import Verif.Spec.Resume
import Verif.Lemmas.Late
import Verif.Props.Resume
import Verif.Spec.Response
import Verif.Props.Response
import Verif.Model.Process
import Verif.Spec.Process
import Verif.Props.Process
import Verif.Model.ParseStack
import Verif.Spec.ParseStack
import Verif.Props.ParseStack
import Verif.Model.Announced
import Verif.Spec.Announced
import Verif.Props.Announced
import Verif.Spec.Placed
import Verif.Props.Placed
import Verif.Model.Session
import Verif.Spec.Session
import Verif.Props.Session
import Verif.Model.Rest
import Verif.Spec.Rest
import Verif.Props.Rest
import Verif.Spec.Orphan
import Verif.Props.Orphan
import Verif.Props.UdpKind
import Verif.Model.AnnounceTime
import Verif.Props.AnnounceTime
import Verif.Spec.Interest
import Verif.Props.Interest
import Verif.Model.Program
import Verif.Spec.Program
import Verif.Props.Program
import Verif.Props.ProgramAny
import Verif.Props.ProgramFile
import Verif.Props.ProgramCrash
import Verif.Model.Netip
import Verif.Spec.Netip
import Verif.Props.Netip
import Verif.Model.BitWords
import Verif.Spec.BitWords
import Verif.Props.BitWords
import Verif.Spec.Announcing
import Verif.Props.Announcing
import Verif.Props.DeadEnd
import Verif.Model.Handles
import Verif.Spec.Handles
import Verif.Props.Handles
import Verif.Spec.Publish
import Verif.Props.FullLength
import Verif.Props.Publish
import Verif.Props.ResponseQueue
import Verif.Spec.Dials
import Verif.Spec.HostPort
import Verif.Props.Dials
import Verif.Props.HostPort
import Verif.Model.Outgoing
import Verif.Spec.Outgoing
import Verif.Props.Outgoing
import Verif.Model.Display
import Verif.Spec.Display
import Verif.Props.Display
import Verif.Props.DisplayCrash
import Verif.Props.DisplayLine
import Verif.Spec.TrackerCrash
import Verif.Props.TrackerCrash
import Verif.Model.Ending
import Verif.Spec.Ending
import Verif.Props.Ending
import Verif.Model.Port
import Verif.Spec.Port
import Verif.Props.Port
import Verif.Model.Config
import Verif.Spec.Config
import Verif.Props.Config
import Verif.Spec.Again
import Verif.Props.Again
import Verif.Spec.Failing
import Verif.Props.Failing
import Verif.Props.MapKeys
import Verif.Spec.Trips
import Verif.Props.Trips
