import Verif.Model.TimedNet
import Verif.Model.Retry
/-
  How long it takes to contact the peers of an announce response: `Peer.Announce` (pkg/peer/peer.go:133-154), `Manager.startPeerDownload`
  (pkg/download/manager.go:148-179) and `Manager.initPeers` (manager.go:109-117) with clock times in nanoseconds. What is sent and
  received is in Model/PeerAnnounce.lean; here only how long each call takes and whether it succeeds.
-/
namespace Gotit

/-- One attempt to contact a peer: how long `net.DialTimeout` takes and whether it succeeds, the same for writing the handshake, and for reading
and checking the answer. -/
structure TimedAttempt where
  dialTook : Nat
  dialOk : Bool
  writeTook : Nat
  writeOk : Bool
  readTook : Nat
  readOk : Bool

/-- How long `Announce` takes (peer.go:133-154 with connect, 122-131): it returns at the first error. -/
def TimedAttempt.took (a : TimedAttempt) : Nat :=
  if a.dialOk then if a.writeOk then a.dialTook + a.writeTook + a.readTook else a.dialTook + a.writeTook else a.dialTook

/-- Whether it returns nil. -/
def TimedAttempt.ok (a : TimedAttempt) : Bool := a.dialOk && a.writeOk && a.readOk

/-- The loop of `retry.Do` in `startPeerDownload` (manager.go:149-164) while the context is not cancelled: `left` attempts remain, `n` have been
made, it is `now`. The timer after attempt `n` fires `slack n` late. Returns the time at the end and whether the peer's `Run` is started
(in its own goroutine, manager.go:175-178, which takes no time here). -/
def contactLoop (tries : Nat → TimedAttempt) (slack : Nat → Nat) : (left n now : Nat) → Nat × Bool
  | 0, _, now => (now, true)
  | left + 1, n, now =>
    if (tries n).ok then (now + (tries n).took, true)
    else if left = 0 then (now + (tries n).took, false)
    else contactLoop tries slack left (n + 1) (now + (tries n).took + backOffDelay peerRetryDelay n + slack n)

/-- A peer of the response: whether `AddPeer` accepts it (manager.go:113), and what happens when it is contacted. -/
structure Candidate where
  accepted : Bool
  tries : Nat → TimedAttempt
  slack : Nat → Nat

/-- `startPeerDownload` (manager.go:148-179): when it returns. -/
def contact (c : Candidate) (now : Nat) : Nat × Bool := contactLoop c.tries c.slack 5 0 now

/-- `initPeers` (manager.go:109-117): when each peer is dialled for the first time (`none`: not accepted), and when it is done. The peers are
contacted one after the other. -/
def initPeersTimes : List Candidate → Nat → List (Option Nat) × Nat
  | [], now => ([], now)
  | c :: cs, now =>
    if c.accepted then
      let (ts, done) := initPeersTimes cs (contact c now).1
      (some now :: ts, done)
    else
      let (ts, done) := initPeersTimes cs now
      (none :: ts, done)

end Gotit
