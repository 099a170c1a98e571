import Verif.Model.World
import Verif.Model.PeerAnnounce
/-
  `Run` on a connection. Model/PeerRun.lean and Model/World.lean leave open what a read returns; here every read is the call of
  `ReadPeerMessage` (Model/Net.lean) on the connection `Announce` has left in `p.conn` (Model/PeerAnnounce.lean). Only one goroutine reads
  from a connection: the one that calls `Announce` and then starts `Run` (manager.go:148-178).
-/
namespace Gotit

/-- What an event of `Run` takes from the connection: lines 183 and 266 of peer.go call `ReadPeerMessage`, the others do not read. -/
inductive Reads : List Ev → RunEv → List Ev → Prop
  | received {c f c'} : readPeerMessage c = (.ok f, c') → Reads c (.received f) c'
  | failed {c e c'} : readPeerMessage c = (.err e, c') → Reads c .readFailed c'
  | sent {c m} : Reads c (.sent m) c
  | sendFailed {c m} : Reads c (.sendFailed m) c
  | req {c e} : Reads c (.req e) c
  | requeued {c m} : Reads c (.requeued m) c
  | accepted {c m} : Reads c (.accepted m) c

/-- The same for the events of one step, in order. -/
inductive ReadsAll : List Ev → List RunEv → List Ev → Prop
  | nil {c} : ReadsAll c [] c
  | cons {c c' c'' e es} : Reads c e c' → ReadsAll c' es c'' → ReadsAll c (e :: es) c''

/-- All executions of `Run` (peer.go:212-282) on the peer `p0` whose connection is `conn`; with what still happens on it. -/
inductive Session (sha1 : Bytes → Bytes) (t : Torrent) (p0 : Peer) (conn : List Ev) : Run → List Ev → Prop
  | start : Session sha1 t p0 conn (Run.start p0) conn
  | step {r r' c c' es} : Session sha1 t p0 conn r c → Run.Step sha1 t r r' → r'.log = r.log ++ es → ReadsAll c es c' →
      Session sha1 t p0 conn r' c'
  | env {r r' c} : Session sha1 t p0 conn r c → Run.Env r r' → Session sha1 t p0 conn r' c

/-- The events of a step of the whole program, each with the number of its peer, on the connections of the peers. -/
inductive ReadsAt : (Nat → List Ev) → List (Nat × RunEv) → (Nat → List Ev) → Prop
  | nil {cs} : ReadsAt cs [] cs
  | cons {cs cs' i e c es} : Reads (cs i) e c → ReadsAt (fun j => if j = i then c else cs j) es cs' → ReadsAt cs ((i, e) :: es) cs'

/-- All states of a download (Model/World.lean) in which peer number `i` talks over the connection `conns i`. -/
inductive Wired (sha1 : Bytes → Bytes) (t : Torrent) (p0 : Peer) (disk : Disk) (conns : Nat → List Ev) : World → (Nat → List Ev) → Prop
  | start : Wired sha1 t p0 disk conns (World.start t disk) conns
  | step {W W' cs cs' es} : Wired sha1 t p0 disk conns W cs → World.Step sha1 t p0 W W' → W'.trace = W.trace ++ es → ReadsAt cs es cs' →
      Wired sha1 t p0 disk conns W' cs'

end Gotit
