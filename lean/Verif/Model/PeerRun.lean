import Verif.Model.Peer
/-
  pkg/peer/peer.go: Run (212-282) with unchoke (165-200), wait (202-209), checkKeepAlive (309-319) and SendInterested
  (388-391), as a machine that stops at every point where something outside can happen.

  The outside decides: whether the context is cancelled (it stays so) and the torrent is done, whether a keep-alive is
  due, whether a write succeeds, what a read returns, when a timer fires, what the retry queue and `Next` return, and
  whether the channel to the writer takes a message or is closed. Back-off durations are not modelled (any wait may end
  at any time).
-/
namespace Gotit

/-- Where `Run` is. -/
inductive RunLoc where
  /-- line 218 -/
  | loopTop
  /-- line 223 -/
  | checkDone
  /-- line 227, lines 310-312 -/
  | keepAlive
  /-- line 232 -/
  | ifChoked
  /-- line 168 -/
  | unchokeTop
  /-- line 172 -/
  | unchokeSend
  /-- line 183 -/
  | unchokeRead
  /-- lines 177 and 189 -/
  | unchokeWait
  /-- line 240 -/
  | ifRequest
  /-- line 250 -/
  | sendRequest (m : PeerMessage)
  /-- lines 251 and 269 -/
  | requeue (m : Option PeerMessage)
  /-- line 266 -/
  | read
  /-- lines 243, 256 and 273 -/
  | pause
  /-- line 400, called from line 196 (`inUnchoke`) or line 280 -/
  | deliver (m : PeerMessage) (inUnchoke : Bool)
  | returned
  | panicked

/-- What can be observed. -/
inductive RunEv where
  /-- a message was written to the connection -/
  | sent (m : PeerMessage)
  /-- writing a message failed -/
  | sendFailed (m : PeerMessage)
  /-- a frame was read -/
  | received (frame : Bytes)
  /-- reading failed -/
  | readFailed
  /-- a call of the retry queue or of `Next`, or a request made -/
  | req (e : ReqEv)
  /-- `RequestFailed` was called; `none` is a nil pointer -/
  | requeued (m : Option PeerMessage)
  /-- a message was given to the writer -/
  | accepted (m : PeerMessage)

/-- The state of one `Run`; `closed` means that the channel to the writer is closed. -/
structure Run where
  peer : Peer
  loc : RunLoc
  requestMsg : Option PeerMessage
  sentPieceMsg : Bool
  cancelled : Bool
  done : Bool
  closed : Bool
  log : List RunEv

/-- `Run` is called (peer.go:213-214). -/
def Run.start (p : Peer) : Run :=
  { peer := p, loc := .loopTop, requestMsg := none, sentPieceMsg := false, cancelled := false, done := false, closed := false, log := [] }

def Run.goto (s : Run) (l : RunLoc) : Run := { s with loc := l }
def Run.emit (s : Run) (es : List RunEv) (l : RunLoc) : Run := { s with loc := l, log := s.log ++ es }

/-- `p.handlePeerMessage(util.NewPeerMessage(frame))` (lines 195-196 and 280), up to a channel send. -/
def Run.handle (sha1 : Bytes → Bytes) (t : Torrent) (s : Run) (frame : Bytes) (inUnchoke : Bool) : Run :=
  let s : Run := { s with log := s.log ++ [RunEv.received frame] }
  match (newPeerMessage frame).bind (s.peer.handlePeerMessage sha1 t) with
  | .ok (none, p) => { s with peer := p, loc := if inUnchoke then .ifRequest else .loopTop }
  | .ok (some m, p) => { s with peer := p, loc := .deliver m inUnchoke }
  | _ => s.goto .panicked

/-- One step of `Run`. -/
inductive Run.Step (sha1 : Bytes → Bytes) (t : Torrent) : Run → Run → Prop
  | ctxErr {s} : s.loc = .loopTop → s.cancelled = true → Step sha1 t s (s.goto .returned)
  | ctxOk {s} : s.loc = .loopTop → s.cancelled = false → Step sha1 t s (s.goto .checkDone)
  | isDone {s} : s.loc = .checkDone → s.done = true → Step sha1 t s (s.goto .returned)
  | notDone {s} : s.loc = .checkDone → s.done = false → Step sha1 t s (s.goto .keepAlive)
  | notDue {s} : s.loc = .keepAlive → Step sha1 t s (s.goto .ifChoked)
  | kept {s} : s.loc = .keepAlive → Step sha1 t s (s.emit [.sent keepaliveMessage] .ifChoked)
  | keepFail {s} : s.loc = .keepAlive → Step sha1 t s (s.emit [.sendFailed keepaliveMessage] .returned)
  | choked {s} : s.loc = .ifChoked → s.peer.clientChoked = true → Step sha1 t s (s.goto .unchokeTop)
  | unchoked {s} : s.loc = .ifChoked → s.peer.clientChoked = false → Step sha1 t s (s.goto .ifRequest)
  | uCtxErr {s} : s.loc = .unchokeTop → s.cancelled = true → Step sha1 t s (s.goto .returned)
  | uCtxOk {s} : s.loc = .unchokeTop → s.cancelled = false → Step sha1 t s (s.goto .unchokeSend)
  | uSent {s} : s.loc = .unchokeSend → Step sha1 t s (s.emit [.sent interestedMessage] .unchokeRead)
  | uSendFail {s} : s.loc = .unchokeSend → Step sha1 t s (s.emit [.sendFailed interestedMessage] .unchokeWait)
  | uReadFail {s} : s.loc = .unchokeRead → Step sha1 t s (s.emit [.readFailed] .unchokeWait)
  | uRead {s} (frame : Bytes) : s.loc = .unchokeRead → Step sha1 t s (s.handle sha1 t frame true)
  | uWaited {s} : s.loc = .unchokeWait → Step sha1 t s (s.goto .unchokeTop)
  | uWaitCancel {s} : s.loc = .unchokeWait → s.cancelled = true → Step sha1 t s (s.goto .returned)
  | noRequest {s} : s.loc = .ifRequest →
      (s.peer.clientChoked = true ∨ s.peer.clientInterested = false ∨ s.sentPieceMsg = true) → Step sha1 t s (s.goto .read)
  /-- the retry queue only ever holds requests, see `C54_requeue` -/
  | next {s} (failed : Option PeerMessage) (nxt : Option Nat) : s.loc = .ifRequest → s.peer.clientChoked = false →
      s.peer.clientInterested = true → s.sentPieceMsg = false → (∀ m, failed = some m → m.type = requestType) →
      Step sha1 t s { s with
        peer := (s.peer.nextRequestMessage failed nxt).2.1
        requestMsg := (s.peer.nextRequestMessage failed nxt).1
        log := s.log ++ (s.peer.nextRequestMessage failed nxt).2.2.map .req
        loc := match (s.peer.nextRequestMessage failed nxt).1 with | none => .pause | some m => .sendRequest m }
  | requestSent {s m} : s.loc = .sendRequest m → Step sha1 t s { s.emit [.sent m] .read with sentPieceMsg := true }
  | requestFail {s m} : s.loc = .sendRequest m → Step sha1 t s (s.emit [.sendFailed m] (.requeue s.requestMsg))
  | requeued {s m} : s.loc = .requeue m → Step sha1 t s (s.emit [.requeued m] .pause)
  | readFailWaiting {s} : s.loc = .read → s.sentPieceMsg = true →
      Step sha1 t s { s.emit [.readFailed] (.requeue s.requestMsg) with sentPieceMsg := false }
  | readFail {s} : s.loc = .read → s.sentPieceMsg = false → Step sha1 t s (s.emit [.readFailed] .pause)
  | read {s} (frame : Bytes) : s.loc = .read → Step sha1 t s (s.handle sha1 t frame false)
  | waited {s} : s.loc = .pause → Step sha1 t s (s.goto .loopTop)
  | waitCancel {s} : s.loc = .pause → s.cancelled = true → Step sha1 t s (s.goto .returned)
  | delivered {s m b} : s.loc = .deliver m b → s.closed = false →
      Step sha1 t s (s.emit [.accepted m] (if b then .ifRequest else .loopTop))
  | deliverClosed {s m b} : s.loc = .deliver m b → s.closed = true → Step sha1 t s (s.goto .panicked)

/-- What others do meanwhile. `Done` can become false again: `SetDownloaded` with an index beyond the number of pieces makes the
set longer. -/
inductive Run.Env : Run → Run → Prop
  | cancel {s} : Env s { s with cancelled := true }
  | finish {s} : Env s { s with done := true }
  | unfinish {s} : Env s { s with done := false }
  | close {s} : Env s { s with closed := true }

/-- All executions of `Run` on the peer `p0`. -/
inductive Run.Reachable (sha1 : Bytes → Bytes) (t : Torrent) (p0 : Peer) : Run → Prop
  | start : Reachable sha1 t p0 (Run.start p0)
  | step {s s'} : Reachable sha1 t p0 s → Run.Step sha1 t s s' → Reachable sha1 t p0 s'
  | env {s s'} : Reachable sha1 t p0 s → Run.Env s s' → Reachable sha1 t p0 s'

/-- Executions from a given state in which the torrent, once done, stays so; with the number of steps of `Run` itself. -/
inductive Run.Exec (sha1 : Bytes → Bytes) (t : Torrent) : Run → Nat → Run → Prop
  | refl {s} : Exec sha1 t s 0 s
  | step {s n s' s''} : Exec sha1 t s n s' → Run.Step sha1 t s' s'' → Exec sha1 t s (n + 1) s''
  | env {s n s' s''} : Exec sha1 t s n s' → Run.Env s' s'' → (s'.done = true → s''.done = true) → Exec sha1 t s n s''

end Gotit
