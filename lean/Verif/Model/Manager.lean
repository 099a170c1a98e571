import Verif.Model.Mutex
import Verif.Model.PeerMessage
/-
  pkg/download/manager.go: the peer pool and the life of a download.

  Two models. `poolMethods` is the body of `AddPeer` and of `Stop` operation by operation, under the mutex `poolMu`
  (`Model/Mutex.lean` has the goroutines). `Mgr` is the whole manager: the goroutine of `runDownload` (download.go:80-83), one
  goroutine per tracker, one per peer that was handshaken, and the writer, as one interleaved state machine in which the
  body of `AddPeer` is a single step (which the first model justifies).
-/
namespace Gotit

/-! ### The pool under its mutex -/

/-- The calls. `AddPeer` of the peer `id` whose `AddrPort.String()` is `addr`; `Stop`, where `crash` says whether one of the
`p.Close()` panics. -/
inductive PoolOp where
  | add (addr : Bytes) (id : Nat)
  | stop (crash : Bool)
  deriving DecidableEq

inductive PoolLoc where
  | start | insert | count

/-- What a call does in the end. -/
inductive PoolRes where
  | added (b : Bool)
  | stopped
  | panicked
  deriving DecidableEq

/-- `peerPool` (manager.go:31-32; `none` is the nil map) with the peers by address, and the counter `PeerNum`. -/
structure Pool where
  peers : Option (List (Bytes × Nat))
  peerNum : Nat

/-- Reading from a map; a nil map reads as empty. -/
def poolLookup (m : Option (List (Bytes × Nat))) (addr : Bytes) : Option Nat :=
  match m with
  | none => none
  | some l => (l.find? fun x => x.1 == addr).map Prod.snd

/-- `AddPeer` (manager.go:216-227): look the address up; store the peer (a write to a nil map panics); count it. The part of
`Stop` under the mutex (manager.go:200-209): close the peers, then forget the map. A panic releases the mutex (deferred
unlock) and ends the program; here others may still go on, which only adds histories. -/
def poolMethods : Methods Pool PoolOp PoolLoc PoolRes where
  start := fun _ => .start
  step := fun op l s =>
    match op, l with
    | .add addr _, .start =>
      match poolLookup s.peers addr with
      | some _ => (s, .inr (.added false))
      | none => (s, .inl .insert)
    | .add addr id, .insert =>
      match s.peers with
      | none => (s, .inr .panicked)
      | some l => ({ s with peers := some ((addr, id) :: l) }, .inl .count)
    | .add _ _, .count => ({ s with peerNum := s.peerNum + 1 }, .inr (.added true))
    | .stop true, .start => (s, .inr .panicked)
    | .stop false, .start => (s, .inl .insert)
    | .stop _, _ => ({ s with peers := none }, .inr .stopped)

/-- `make(map[string]*peer.Peer, 100)` (manager.go:44): the 100 is only a hint for the allocation. -/
def newPool : Pool := { peers := some [], peerNum := 0 }

/-! ### The whole manager -/

/-- A goroutine running `runTracker` (manager.go:80-107). -/
inductive TrackerLoc where
  /-- before `tracker.New` -/
  | start
  /-- in `announceToTracker` -/
  | announcing
  /-- in the loop of `initPeers`, with these addresses still to do -/
  | adding (ips : List Bytes)
  /-- in the `retry.Do` of `startPeerDownload` -/
  | connecting (addr : Bytes) (ips : List Bytes)
  /-- in `WaitInterval` -/
  | waiting
  | ended
  deriving DecidableEq

/-- The goroutine of `runDownload`. -/
inductive MainLoc where
  /-- `wg.Wait()` called -/
  | waitPeers
  /-- blocked in `wg.Wait()`: the counter was not zero -/
  | waitBlocked
  /-- woken by the counter reaching zero, before `Wait` checks the counter again -/
  | waitWoken
  /-- at `<-ctx.Done()` -/
  | waitCtx
  /-- at `close(pieceCh)` -/
  | closing
  /-- `Download` has returned; the deferred `Stop` begins -/
  | returned
  /-- `Stop` after `cancelCtx()`, before `poolMu.Lock()` -/
  | stopLock
  /-- `Stop` in its loop, with these peers still to close; the mutex is held -/
  | stopClose (rest : List Bytes)
  /-- `Stop` has returned -/
  | stopped
  deriving DecidableEq

/-- A goroutine running `peer.Run` (manager.go:175-178). `late`: it was started after `wg.Wait()` had returned (not in the
program; for stating what goes wrong). -/
structure PeerRef where
  addr : Bytes
  late : Bool
  deriving DecidableEq

/-- The state of a download. -/
structure Mgr where
  main : MainLoc
  trackers : List TrackerLoc
  /-- the peers whose `Run` has not returned yet -/
  running : List PeerRef
  /-- the counter of the wait group -/
  wg : Nat
  /-- the addresses in `peerPool`; `none` is the nil map -/
  pool : Option (List Bytes)
  /-- `p.conn != nil`, by address, for the peer in the pool -/
  conn : Bytes → Bool
  /-- `PeerNum()` -/
  peerNum : Int
  /-- the context is cancelled -/
  cancelled : Bool
  /-- `pieceCh`: what is buffered, and whether it is closed -/
  buffer : List PeerMessage
  closed : Bool
  /-- the message `WritePiece` has received and not finished with -/
  inHand : Option PeerMessage
  /-- `WritePiece` has returned -/
  writerDone : Bool
  /-- why the program died -/
  panicked : Option String
  /-- Not in the program: the calls of `AddPeer` with their results, the addresses given up by `startPeerDownload`, the
  messages put into the channel, and the messages `WritePiece` is done with. -/
  adds : List (Bytes × Bool)
  failed : List Bytes
  accepted : List PeerMessage
  written : List PeerMessage

/-- The capacity of `pieceCh` (manager.go:57). -/
def pieceChCap : Nat := 1024

/-- The beginning of `Download` up to `waitPeers` (manager.go:54-64): nothing is waited for, the goroutines have only been
started. `n` is the number of trackers. -/
def Mgr.start (n : Nat) : Mgr :=
  { main := .waitPeers, trackers := List.replicate n .start, running := [], wg := 0, pool := some [], conn := fun _ => false,
    peerNum := 0, cancelled := false, buffer := [], closed := false, inHand := none, writerDone := false, panicked := none,
    adds := [], failed := [], accepted := [], written := [] }

/-- `poolMu` is held by `Stop`. -/
def Mgr.locked (σ : Mgr) : Bool := match σ.main with | .stopClose _ => true | _ => false

/-- `wg.Wait()` has returned. -/
def MainLoc.waited : MainLoc → Bool
  | .waitPeers | .waitBlocked | .waitWoken => false
  | _ => true

/-- `wg.Done()` when the counter reaches zero wakes the waiter. -/
def wakeIfZero (wg : Nat) (main : MainLoc) : MainLoc :=
  if wg = 0 ∧ main = .waitBlocked then .waitWoken else main

/-- Steps of the goroutines. Whatever the outside world does (trackers, peers, disk, signals) is a free choice. -/
inductive Mgr.Step : Mgr → Mgr → Prop
  /-- a signal (app.go:98-99) cancels the context -/
  | signal {σ} : σ.panicked = none → Step σ { σ with cancelled := true }
  /- runDownload: Download and Stop -/
  /-- manager.go:213 with counter zero -/
  | waitNow {σ} : σ.panicked = none → σ.main = .waitPeers → σ.wg = 0 → Step σ { σ with main := .waitCtx }
  /-- manager.go:213 with counter not zero -/
  | waitBlock {σ} : σ.panicked = none → σ.main = .waitPeers → σ.wg ≠ 0 → Step σ { σ with main := .waitBlocked }
  /-- `Wait` after being woken: returns if the counter is (still) zero -/
  | waitReturn {σ} : σ.panicked = none → σ.main = .waitWoken → σ.wg = 0 → Step σ { σ with main := .waitCtx }
  /-- `Wait` after being woken: panics if somebody has called `Add` in the meantime. (One text stands for the two of sync.WaitGroup.) -/
  | waitReused {σ} : σ.panicked = none → σ.main = .waitWoken → σ.wg ≠ 0 →
      Step σ { σ with panicked := some "sync: WaitGroup is reused before previous Wait has returned" }
  /-- manager.go:65 -/
  | ctxDone {σ} : σ.panicked = none → σ.main = .waitCtx → σ.cancelled = true → Step σ { σ with main := .closing }
  /-- manager.go:66-67 -/
  | close {σ} : σ.panicked = none → σ.main = .closing → Step σ { σ with main := .returned, closed := true }
  /-- manager.go:195-198. (`peerPool` is not nil, as `Stop` has not run before.) -/
  | stopCancel {σ} : σ.panicked = none → σ.main = .returned → Step σ { σ with main := .stopLock, cancelled := true }
  /-- manager.go:200: the mutex is free, as only `AddPeer` takes it besides. The loop goes over the map in any order. -/
  | stopLock {σ l l'} : σ.panicked = none → σ.main = .stopLock → σ.pool = some l → l'.Perm l →
      Step σ { σ with main := .stopClose l' }
  /-- manager.go:203-207, one peer with a connection -/
  | stopClose {σ a rest} : σ.panicked = none → σ.main = .stopClose (a :: rest) → σ.conn a = true →
      Step σ { σ with main := .stopClose rest }
  /-- manager.go:204 → peer.go:306 → connection.go:107: `p.conn` is nil, `c.c` dereferences it -/
  | stopNilConn {σ a rest} : σ.panicked = none → σ.main = .stopClose (a :: rest) → σ.conn a = false →
      Step σ { σ with panicked := some "nil pointer dereference" }
  /-- manager.go:208-209 -/
  | stopDone {σ} : σ.panicked = none → σ.main = .stopClose [] → Step σ { σ with main := .stopped, pool := none }
  /- runTracker -/
  /-- manager.go:81-84: the URL cannot be used -/
  | trackerBad {σ a b} : σ.panicked = none → σ.trackers = a ++ .start :: b → Step σ { σ with trackers := a ++ .ended :: b }
  | trackerNew {σ a b} : σ.panicked = none → σ.trackers = a ++ .start :: b →
      Step σ { σ with trackers := a ++ .announcing :: b }
  /-- manager.go:98-100: peers received -/
  | announced {σ a b} (ips : List Bytes) : σ.panicked = none → σ.trackers = a ++ .announcing :: b →
      Step σ { σ with trackers := a ++ .adding ips :: b }
  /-- manager.go:95-97: an error other than `context.Canceled` -/
  | announceFailed {σ a b} : σ.panicked = none → σ.trackers = a ++ .announcing :: b →
      Step σ { σ with trackers := a ++ .waiting :: b }
  /-- `Announce` panics (the reply of an HTTP tracker does: bencode.Unmarshal, http_tracker.go:116); nothing recovers. One text stands for
  those of the panics of parse.go and tag_parser.go -/
  | announceCrash {σ a b} : σ.panicked = none → σ.trackers = a ++ .announcing :: b →
      Step σ { σ with panicked := some "panic in Announce" }
  /-- manager.go:90-92 -/
  | announceCanceled {σ a b} : σ.panicked = none → σ.trackers = a ++ .announcing :: b → σ.cancelled = true →
      Step σ { σ with trackers := a ++ .ended :: b }
  /-- manager.go:111-113: the address is in the pool -/
  | addKnown {σ a b ip ips l} : σ.panicked = none → σ.trackers = a ++ .adding (ip :: ips) :: b → σ.locked = false →
      σ.pool = some l → ip ∈ l →
      Step σ { σ with trackers := a ++ .adding ips :: b, adds := σ.adds ++ [(ip, false)] }
  /-- manager.go:111-114: a new address; `NewPeer` makes a peer without connection -/
  | addNew {σ a b ip ips l} : σ.panicked = none → σ.trackers = a ++ .adding (ip :: ips) :: b → σ.locked = false →
      σ.pool = some l → ip ∉ l →
      Step σ { σ with trackers := a ++ .connecting ip ips :: b, pool := some (ip :: l), peerNum := σ.peerNum + 1,
                      conn := fun x => if x = ip then false else σ.conn x, adds := σ.adds ++ [(ip, true)] }
  /-- manager.go:224 on the nil map -/
  | addNil {σ a b ip ips} : σ.panicked = none → σ.trackers = a ++ .adding (ip :: ips) :: b → σ.locked = false →
      σ.pool = none → Step σ { σ with panicked := some "assignment to entry in nil map" }
  /-- end of the loop of `initPeers` -/
  | addedAll {σ a b} : σ.panicked = none → σ.trackers = a ++ .adding [] :: b → Step σ { σ with trackers := a ++ .waiting :: b }
  /-- peer.go:124 in an attempt of the handshake: dialling succeeds or fails, `p.conn` is the connection or nil -/
  | dial {σ a b ip ips} (ok : Bool) : σ.panicked = none → σ.trackers = a ++ .connecting ip ips :: b →
      Step σ { σ with conn := fun x => if x = ip then ok else σ.conn x }
  /-- manager.go:166-172 -/
  | connectFailed {σ a b ip ips} : σ.panicked = none → σ.trackers = a ++ .connecting ip ips :: b →
      Step σ { σ with trackers := a ++ .adding ips :: b, peerNum := σ.peerNum - 1, failed := σ.failed ++ [ip] }
  /-- manager.go:174-178 -/
  | connected {σ a b ip ips} : σ.panicked = none → σ.trackers = a ++ .connecting ip ips :: b → σ.conn ip = true →
      Step σ { σ with trackers := a ++ .adding ips :: b, wg := σ.wg + 1, running := ⟨ip, σ.main.waited⟩ :: σ.running }
  /-- manager.go:103, the interval is over -/
  | intervalOver {σ a b} : σ.panicked = none → σ.trackers = a ++ .waiting :: b →
      Step σ { σ with trackers := a ++ .announcing :: b }
  /-- manager.go:103-105 -/
  | intervalCanceled {σ a b} : σ.panicked = none → σ.trackers = a ++ .waiting :: b → σ.cancelled = true →
      Step σ { σ with trackers := a ++ .ended :: b }
  /- peers -/
  /-- peer.go, `handlePieceMessage`: an accepted message is sent to the writer; the channel must have room -/
  | deliver {σ a p b} (m : PeerMessage) : σ.panicked = none → σ.running = a ++ p :: b → σ.closed = false →
      σ.buffer.length < pieceChCap → Step σ { σ with buffer := σ.buffer ++ [m], accepted := σ.accepted ++ [m] }
  /-- the same when the channel is closed -/
  | deliverClosed {σ a p b} : σ.panicked = none → σ.running = a ++ p :: b → σ.closed = true →
      Step σ { σ with panicked := some "send on closed channel" }
  /-- `Run` returns, `wg.Done()` (manager.go:176-177). (If `Add` comes between the decrement of `Done` and the release of
  the waiter, Go panics in `Add` or `Done` already, with another text; here the same goroutines doing the same get to `waitReused`: `peerEnds`,
  `connected`, `waitReused`.) -/
  | peerEnds {σ a p b} : σ.panicked = none → σ.running = a ++ p :: b →
      Step σ { σ with running := a ++ b, wg := σ.wg - 1, main := wakeIfZero (σ.wg - 1) σ.main }
  /- WritePiece (torrent.go:176-195) -/
  | receive {σ m rest} : σ.panicked = none → σ.inHand = none → σ.writerDone = false → σ.buffer = m :: rest →
      Step σ { σ with inHand := some m, buffer := rest }
  | write {σ m} : σ.panicked = none → σ.inHand = some m → Step σ { σ with inHand := none, written := σ.written ++ [m] }
  | writerEnds {σ} : σ.panicked = none → σ.inHand = none → σ.writerDone = false → σ.buffer = [] → σ.closed = true →
      Step σ { σ with writerDone := true }

/-- The states of a download with `n` trackers. `limit` is `peerNum`, the value of the flag `num-peer` (download.go:42):
`NewMng` stores it (manager.go:45) and no code reads it. -/
inductive Mgr.Reachable (n limit : Nat) : Mgr → Prop
  | start : Reachable n limit (Mgr.start n)
  | step {σ σ'} : Reachable n limit σ → Mgr.Step σ σ' → Reachable n limit σ'

end Gotit
