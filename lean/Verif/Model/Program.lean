import Verif.Model.Manager
import Verif.Model.Session
import Verif.Model.UdpTracker
import Verif.Model.TrackerNew
/-
  The whole of a download: the manager (Model/Manager.lean) together with the `Run` goroutines and the writer (Model/World.lean), the
  connections (Model/PeerAnnounce.lean, Model/Session.lean) and the answers of the trackers (Model/HttpTracker.lean, Model/UdpTracker.lean).

  Model/Manager.lean leaves open what trackers and peers do, Model/World.lean leaves open when peers are started, when the context is
  cancelled and when the channel is closed. Here both are one program: what one of them leaves open is what the other does. Open remain
  the outside world (replies of trackers, bytes on connections, results of dialling and of writing to the disk, signals) and the
  scheduler.
-/
namespace Gotit

/-- What a download is made of. `rest` and `dial` are those of `trackerNew`; `name` is `AddrPort.String`; `urls` is the order in which
`getIps` (manager.go:75) goes over the set of trackers. -/
structure JobSetup where
  sha1 : Bytes → Bytes
  t : Torrent
  clientId : Bytes
  parseAddr : Bytes → Option Addr
  name : AddrPort → Bytes
  rest : Bytes → Bytes → Bytes → Option Bytes
  dial : Bytes → Bool
  urls : List Bytes

/-- A `Peer` as far as `startPeerDownload` (manager.go:148-164) goes: its connections, the attempts made, whether the last one
returned nil, and what happens on the reading side of its connection from the beginning. -/
structure Contacted where
  link : Link
  tries : Nat
  ok : Bool
  wire : List Ev

/-- The state of the program. -/
structure Prog where
  mgr : Mgr
  world : World
  /-- the peers whose `Run` has not returned, by position in `world.peers`; in the order of `mgr.running` -/
  runs : List Nat
  /-- the addresses of the peers of `world.peers` -/
  addrs : List Bytes
  /-- what still happens on the connections of the peers of `world.peers` -/
  conns : Nat → List Ev
  /-- the peers that `initPeers` has made, by address (a second one for the same address is dropped, manager.go:113) -/
  contacts : Bytes → Contacted
  /-- the retry queue of the current `initPeers` (manager.go:110) of each tracker's goroutine, and the number of the next one -/
  queue : Nat → Nat
  fresh : Nat
  /-- Not in the program: the successful replies of HTTP trackers, each with the tracker's URL; and the reading sides of the connections
  of the peers of `world.peers` from the beginning. -/
  replies : List (Bytes × HttpReply)
  wires : List (List Ev)
  /-- Not in the program: the reply at which `Announce` panicked, with the tracker's URL. -/
  fatal : Option (Bytes × HttpReply)

/-- `Download` has started its goroutines (manager.go:54-64). -/
def Prog.start (S : JobSetup) (disk : Disk) : Prog :=
  { mgr := Mgr.start S.urls.length, world := World.start S.t disk, runs := [], addrs := [], conns := fun _ => [],
    contacts := fun _ => { link := Link.new, tries := 0, ok := false, wire := [] }, queue := fun _ => 0, fresh := 0, replies := [],
    wires := [], fatal := none }

/-- Nothing has panicked. -/
def Prog.alive (P : Prog) : Prop := P.mgr.panicked = none ∧ P.world.alive

/-- A step of the manager that has nothing to do with the connections, the peers' goroutines, the channel, the context and the replies
of trackers: the steps of Model/Manager.lean other than `signal`, `close`, `announced`, `announceCrash`, `dial`, `connected`, `connectFailed`, `deliver`,
`deliverClosed`, `peerEnds`, `receive` and `write`. (`addNew` sets `conn` of its address to what it is anyhow.) -/
structure Mgr.Private (σ σ' : Mgr) : Prop where
  step : Mgr.Step σ σ'
  panicked : σ'.panicked ≠ some "send on closed channel" ∧ σ'.panicked ≠ some "panic in Announce"
  running : σ'.running = σ.running
  wg : σ'.wg = σ.wg
  conn : σ'.conn = σ.conn
  failed : σ'.failed = σ.failed
  cancelled : σ'.cancelled = σ.cancelled
  buffer : σ'.buffer = σ.buffer
  closed : σ'.closed = σ.closed
  inHand : σ'.inHand = σ.inHand
  written : σ'.written = σ.written
  accepted : σ'.accepted = σ.accepted
  replies : ∀ (k : Nat) (ips : List Bytes), σ.trackers[k]? = some TrackerLoc.announcing → σ'.trackers[k]? ≠ some (TrackerLoc.adding ips)

/-- The channel after the events of a step of `Run` (peer.go:400), as the manager sees it. -/
def Mgr.afterEvents (σ : Mgr) : List RunEv → Mgr
  | [] => σ
  | .accepted m :: es => Mgr.afterEvents { σ with buffer := σ.buffer ++ [m], accepted := σ.accepted ++ [m] } es
  | _ :: es => σ.afterEvents es

/-- `Res` is success. -/
def Res.isOk {α : Type} : Res α → Bool
  | .ok _ => true
  | _ => false

/-- One step of the program. -/
inductive Prog.Step (S : JobSetup) : Prog → Prog → Prop
  | manager {P σ'} : P.alive → P.mgr.Private σ' → Step S P { P with mgr := σ' }
  /-- a signal (app.go:98-99) -/
  | cancel {P} : P.alive →
      Step S P { P with mgr := { P.mgr with cancelled := true }, world := { P.world with cancelled := true } }
  /-- manager.go:66-67 -/
  | close {P} : P.alive → P.mgr.main = .closing →
      Step S P { P with mgr := { P.mgr with main := .returned, closed := true }, world := { P.world with closed := true } }
  /-- manager.go:89-100 with an HTTP tracker, in whatever state its object is: the reply is good, `initPeers` begins with a new queue -/
  | announcedHttp {P a b u addrs r} (ht ht' : HttpTracker) : P.alive → P.mgr.trackers = a ++ .announcing :: b → S.urls[a.length]? = some u →
      trackerNew S.rest S.dial u = .http u → httpAnnounce S.parseAddr ht r = (ht', .ok addrs) →
      Step S P { P with mgr := { P.mgr with trackers := a ++ .adding (addrs.map S.name) :: b },
                        queue := fun k => if k = a.length then P.fresh else P.queue k, fresh := P.fresh + 1, replies := P.replies ++ [(u, r)] }
  /-- the same with a UDP tracker. A UDP socket knows no end of file; the slice of `io.ReadAll` has a capacity of at least 512 bytes and
  always some to spare -/
  | announcedUdp {P a b u addrs host} (ut : UdpTracker) (d : AnnounceData) (rnd : UdpRandom) (we : Option String) (evs : List Ev)
      (spare : Bytes) : P.alive → P.mgr.trackers = a ++ .announcing :: b → S.urls[a.length]? = some u →
      trackerNew S.rest S.dial u = .udp host → .eof ∉ evs → 4 ≤ spare.length →
      (udpAnnounce S.clientId ut S.t.hash d rnd we evs spare).2.2 = .ok addrs →
      Step S P { P with mgr := { P.mgr with trackers := a ++ .adding (addrs.map S.name) :: b },
                        queue := fun k => if k = a.length then P.fresh else P.queue k, fresh := P.fresh + 1 }
  /-- `Announce` panics at the reply of an HTTP tracker (http_tracker.go:116) -/
  | announceCrash {P a b u w r} (ht : HttpTracker) : P.alive → P.mgr.trackers = a ++ .announcing :: b → S.urls[a.length]? = some u →
      trackerNew S.rest S.dial u = .http u → (httpAnnounce S.parseAddr ht r).2 = .panic w →
      Step S P { P with mgr := { P.mgr with panicked := some "panic in Announce" }, fatal := some (u, r) }
  /-- the same with a UDP tracker (udp_tracker.go:113) -/
  | announceCrashUdp {P a b u host} (ut : UdpTracker) (d : AnnounceData) (rnd : UdpRandom) (we : Option String) (evs : List Ev)
      (spare : Bytes) : P.alive → P.mgr.trackers = a ++ .announcing :: b → S.urls[a.length]? = some u →
      trackerNew S.rest S.dial u = .udp host → .eof ∉ evs → 4 ≤ spare.length →
      (udpAnnounce S.clientId ut S.t.hash d rnd we evs spare).2.2 = .panic →
      Step S P { P with mgr := { P.mgr with panicked := some "panic in Announce" } }
  /-- an attempt of `startPeerDownload` (manager.go:149-164) calls `Announce` (peer.go:133-154). Whether the context ends the pauses
  before it (Model/Retry.lean) is left open. The text of the zero `AddrPort`, `invalid AddrPort`, is no address one can connect to. -/
  | attempt {P a b ip ips} (att : Attempt) : P.alive → P.mgr.trackers = a ++ .connecting ip ips :: b → (P.contacts ip).ok = false →
      (P.contacts ip).tries < 5 → (ip = S.name .zero → att.dial ≠ none) →
      Step S P { P with
        mgr := { P.mgr with conn := fun x => if x = ip then att.dial.isNone else P.mgr.conn x }
        contacts := fun x => if x = ip then
            { link := (peerAnnounce S.t.hash S.clientId att (P.contacts ip).link).1
              tries := (P.contacts ip).tries + 1
              ok := (peerAnnounce S.t.hash S.clientId att (P.contacts ip).link).2.isOk
              wire := att.evs }
          else P.contacts x }
  /-- manager.go:166-172: five attempts failed, or the context was cancelled -/
  | connectFailed {P a b ip ips} : P.alive → P.mgr.trackers = a ++ .connecting ip ips :: b → (P.contacts ip).ok = false →
      ((P.contacts ip).tries = 5 ∨ P.mgr.cancelled = true) →
      Step S P { P with mgr := { P.mgr with trackers := a ++ .adding ips :: b, peerNum := P.mgr.peerNum - 1, failed := P.mgr.failed ++ [ip] } }
  /-- manager.go:174-178: `Run` is started on the connection of the last attempt -/
  | connected {P a b ip ips k evs} : P.alive → P.mgr.trackers = a ++ .connecting ip ips :: b → (P.contacts ip).ok = true →
      (P.contacts ip).link.conn = some (k, evs) →
      Step S P { P with
        mgr := { P.mgr with trackers := a ++ .adding ips :: b, wg := P.mgr.wg + 1, running := ⟨ip, P.mgr.main.waited⟩ :: P.mgr.running }
        world := { P.world with peers := P.world.peers ++ [(P.queue a.length, Run.start (newPeer S.t))] }
        runs := P.world.peers.length :: P.runs
        addrs := P.addrs ++ [ip]
        conns := fun i => if i = P.world.peers.length then evs else P.conns i
        wires := P.wires ++ [(P.contacts ip).wire] }
  /-- a step of a `Run`: it reads from its connection -/
  | peer {P i q r r' es W' c'} : P.alive → i ∈ P.runs → P.world.peers[i]? = some (q, r) → Run.Step S.sha1 S.t (r.sync P.world) r' →
      r'.log = r.log ++ es → World.Effects q r.peer.bitset P.world es W' → ReadsAll (P.conns i) es c' →
      Step S P { P with
        mgr := P.mgr.afterEvents es
        world := { W' with peers := P.world.peers.set i (q, r'), trace := P.world.trace ++ es.map (fun e => (i, e)) }
        conns := fun j => if j = i then c' else P.conns j }
  /-- manager.go:176-177: `Run` has returned -/
  | peerEnds {P i q r x y a p b} : P.alive → P.runs = x ++ i :: y → P.mgr.running = a ++ p :: b → x.length = a.length →
      P.world.peers[i]? = some (q, r) → r.loc = .returned →
      Step S P { P with
        mgr := { P.mgr with running := a ++ b, wg := P.mgr.wg - 1, main := wakeIfZero (P.mgr.wg - 1) P.mgr.main }
        runs := x ++ y }
  /-- torrent.go:177 -/
  | receive {P m rest} : P.alive → P.mgr.writerDone = false → P.mgr.inHand = none → P.mgr.buffer = m :: rest →
      Step S P { P with mgr := { P.mgr with inHand := some m, buffer := rest }, world := { P.world with inHand := some m, buffer := rest } }
  /-- torrent.go:178-192 -/
  | write {P m w} (fl : Faults) : P.alive → P.mgr.inHand = some m → writeOneF fl S.t P.world.out m = .ok w →
      Step S P { P with mgr := { P.mgr with inHand := none, written := P.mgr.written ++ [m] },
                        world := { P.world with inHand := none, out := w, written := P.world.written ++ [m] } }
  | writeCrash {P m} (fl : Faults) : P.alive → P.mgr.inHand = some m → (∀ w, writeOneF fl S.t P.world.out m ≠ .ok w) →
      Step S P { P with world := { P.world with dead := true } }

/-- All states of the program. -/
inductive Prog.Reachable (S : JobSetup) (disk : Disk) : Prog → Prop
  | start : Reachable S disk (Prog.start S disk)
  | step {P P'} : Reachable S disk P → Prog.Step S P P' → Reachable S disk P'

end Gotit
