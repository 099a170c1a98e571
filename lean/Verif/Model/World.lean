import Verif.Model.PeerRun
import Verif.Model.PiecesQueue
import Verif.Model.Faults
import Verif.Model.Manager
/-
  A whole download: any number of `Run` goroutines (Model/PeerRun.lean) that share the torrent's bit sets, the retry queues and the
  channel to the writer, and the writer `WritePiece` (Model/Faults.lean), interleaved in any order. Any write to the disk can fail.

  `Run.Step` leaves open what the retry queue, `Next`, `Done`, the context and the channel answer; here they are the shared objects.
  Each call of a method under a mutex is one step (justified by Props/Torrent.lean and Props/Queue.lean, which have the fine-grained
  version). When peers are started, when the context is cancelled and when the channel is closed is left open, as are the remote
  peers; manager.go decides these, see Model/Manager.lean.
-/
namespace Gotit

/-- The state of a download. -/
structure World where
  /-- one entry per `startPeerDownload` (manager.go:174-178): the number of its retry queue and its `Run` -/
  peers : List (Nat × Run)
  /-- the retry queues: one per call of `initPeers` (manager.go:110), shared by the peers made there -/
  queues : Nat → List PeerMessage
  /-- `t.requested` -/
  requested : BitSet
  /-- what is buffered in `pieceCh` (manager.go:57) -/
  buffer : List PeerMessage
  /-- the message `WritePiece` has received and not written yet -/
  inHand : Option PeerMessage
  /-- the disk, `t.downloaded` and the bytes counted -/
  out : Written
  cancelled : Bool
  closed : Bool
  /-- a panic in `WritePiece` ended the program -/
  dead : Bool
  /-- Not in the program: everything the peers did, in order, with the position in `peers`; and what `WritePiece` is done with. -/
  trace : List (Nat × RunEv)
  written : List PeerMessage

/-- The beginning of a download of a torrent that `New` has opened. -/
def World.start (t : Torrent) (disk : Disk) : World :=
  { peers := [], queues := fun _ => [], requested := t.requested, buffer := [], inHand := none, out := ⟨disk, t.downloaded, 0⟩,
    cancelled := false, closed := false, dead := false, trace := [], written := [] }

/-- What a `Run` sees of the rest: `ctx.Err()` (peer.go:168, 218), `p.torrent.Done()` (peer.go:223), the channel. -/
def Run.sync (W : World) (r : Run) : Run :=
  { r with cancelled := W.cancelled, done := W.out.downloaded.all, closed := W.closed }

/-- What an event of a `Run` with retry queue `q` and the remote peer's pieces `have_` does to the shared objects. -/
inductive World.Effect (q : Nat) (have_ : BitSet) : World → RunEv → World → Prop
  /-- `FailedPieceMessage` (peer.go:288) -/
  | popped {W m s'} : queueMethods.Runs .failedPieceMessage .start (W.queues q) s' (some m) →
      Effect q have_ W (.req (.popped m)) { W with queues := fun x => if x = q then s' else W.queues x }
  /-- `Next` (peer.go:292). The call of `FailedPieceMessage` before it returned nil; others may have used the queue since. -/
  | next {W r s'} : nextMethod.Runs have_ (nextMethod.start have_) W.requested s' r →
      Effect q have_ W (.req (.next r)) { W with requested := s' }
  /-- `RequestFailed` (peer.go:251 and 269); it is never called with nil, see `C54_requeue_requests` -/
  | requeued {W m s'} : queueMethods.Runs (.requestFailed m) .start (W.queues q) s' none →
      Effect q have_ W (.requeued (some m)) { W with queues := fun x => if x = q then s' else W.queues x }
  /-- the channel send (peer.go:400) needs room in the buffer -/
  | accepted {W m} : W.buffer.length < pieceChCap → Effect q have_ W (.accepted m) { W with buffer := W.buffer ++ [m] }
  /-- the rest touches nothing shared -/
  | created {W m} : Effect q have_ W (.req (.created m)) W
  | sent {W m} : Effect q have_ W (.sent m) W
  | sendFailed {W m} : Effect q have_ W (.sendFailed m) W
  | received {W f} : Effect q have_ W (.received f) W
  | readFailed {W} : Effect q have_ W .readFailed W

/-- The same for the events of one step, in order. -/
inductive World.Effects (q : Nat) (have_ : BitSet) : World → List RunEv → World → Prop
  | nil {W} : Effects q have_ W [] W
  | cons {W W' W'' e es} : World.Effect q have_ W e W' → Effects q have_ W' es W'' → Effects q have_ W (e :: es) W''

/-- A panic in any goroutine ends the program. -/
def World.alive (W : World) : Prop := W.dead = false ∧ ∀ x ∈ W.peers, x.2.loc ≠ .panicked

/-- One step of the program. `p0` is what `NewPeer` returns. -/
inductive World.Step (sha1 : Bytes → Bytes) (t : Torrent) (p0 : Peer) : World → World → Prop
  /-- manager.go:174-178, for a peer whose queue is number `q` -/
  | spawn {W} (q : Nat) : W.alive → Step sha1 t p0 W { W with peers := W.peers ++ [(q, Run.start p0)] }
  | cancel {W} : W.alive → Step sha1 t p0 W { W with cancelled := true }
  /-- manager.go:65-66 -/
  | close {W} : W.alive → W.cancelled = true → Step sha1 t p0 W { W with closed := true }
  /-- a step of one `Run` -/
  | peer {W W' i q r r' es} : W.alive → W.peers[i]? = some (q, r) → Run.Step sha1 t (r.sync W) r' → r'.log = r.log ++ es →
      World.Effects q r.peer.bitset W es W' →
      Step sha1 t p0 W { W' with peers := W.peers.set i (q, r'), trace := W.trace ++ es.map (fun e => (i, e)) }
  /-- `range piecesCh` (torrent.go:177) -/
  | receive {W m rest} : W.alive → W.inHand = none → W.buffer = m :: rest →
      Step sha1 t p0 W { W with inHand := some m, buffer := rest }
  /-- the body of the loop (torrent.go:178-192), the disk doing as it likes; nothing else uses the disk, and `Done` sees the bit only -/
  | write {W m w} (fl : Faults) : W.alive → W.inHand = some m → writeOneF fl t W.out m = .ok w →
      Step sha1 t p0 W { W with inHand := none, out := w, written := W.written ++ [m] }
  /-- the body panics -/
  | writeCrash {W m} (fl : Faults) : W.alive → W.inHand = some m → (∀ w, writeOneF fl t W.out m ≠ .ok w) →
      Step sha1 t p0 W { W with dead := true }

/-- All states of a download of the torrent `t` (as `New` returned it) on the given disk. -/
inductive World.Reachable (sha1 : Bytes → Bytes) (t : Torrent) (p0 : Peer) (disk : Disk) : World → Prop
  | start : Reachable sha1 t p0 disk (World.start t disk)
  | step {W W'} : Reachable sha1 t p0 disk W → World.Step sha1 t p0 W W' → Reachable sha1 t p0 disk W'

end Gotit
