import Verif.Model.UdpTracker
import Verif.Model.TimedNet
import Verif.Model.Retry
/-
  How long announces take (in nanoseconds): `udpTracker.Announce` (pkg/tracker/udp_tracker.go:72-114) with the deadlines of the socket, the attempts of
  `announceToTracker` (pkg/download/manager.go:119-146) with their pauses, and `httpTracker.Announce` (pkg/tracker/http_tracker.go:63-96). Only
  waiting for the network and the pauses take time. Nothing is cancelled here.
-/
namespace Gotit

/-- What one UDP announce meets: the result of the first write, how long the two writes would take without a deadline, the figures, the random
numbers and the spare capacity of the slice read. -/
structure TimedTry where
  writeErr : Option String
  write1 : Nat
  write2 : Nat
  data : AnnounceData
  random : UdpRandom
  spare : Bytes

/-- `TimeoutConn.Write` (connection.go:81-86): over by the deadline. -/
def timedWrite (took now : Nat) : Nat := now + min took trackerLimit

/-- The tracker object, what arrives on its socket and when, and the time. -/
structure UdpClock where
  t : UdpTracker
  evs : List (Nat × Ev)
  now : Nat

/-- `handshake` (udp_tracker.go:92-114), as `udpHandshake` in Model/UdpTracker.lean, with time. -/
def timedUdpHandshake (s : UdpClock) (x : TimedTry) : UdpClock × UdpRes Nat :=
  let now := timedWrite x.write1 s.now
  match x.writeErr with
  | some e => ({ s with now := now }, .err (.conn e))
  | none =>
    match timedReadUdpHandshake s.evs now with
    | (.err e, evs, now) => (⟨s.t, evs, now⟩, .err (.conn e))
    | (.panic _, evs, now) => (⟨s.t, evs, now⟩, .panic)
    | (.ok r, evs, now) =>
      match parseTrackerResponse s.t r [] x.random.tid1 with
      | (t, .ok _) => (⟨t, evs, now⟩, .ok t.connectionId)
      | (t, .err e) => (⟨t, evs, now⟩, .err e)
      | (t, .panic) => (⟨t, evs, now⟩, .panic)

/-- `udpTracker.Announce` (udp_tracker.go:72-90), as `udpAnnounce` in Model/UdpTracker.lean, with time. -/
def timedUdpAnnounce (s : UdpClock) (x : TimedTry) : UdpClock × UdpRes (List AddrPort) :=
  match timedUdpHandshake s x with
  | (s, .err e) => (s, .err e)
  | (s, .panic) => (s, .panic)
  | (s, .ok _) =>
    match timedReadAll s.evs (timedWrite x.write2 s.now) with
    | (.err e, evs, now) => (⟨s.t, evs, now⟩, .err (.conn e))
    | (.panic _, evs, now) => (⟨s.t, evs, now⟩, .panic)
    | (.ok response, evs, now) =>
      match parseTrackerResponse s.t response x.spare x.random.tid2 with
      | (t, .ok _) => (⟨t, evs, now⟩, .ok t.ips)
      | (t, .err e) => (⟨t, evs, now⟩, .err e)
      | (t, .panic) => (⟨t, evs, now⟩, .panic)

/-- The result as seen by `retry.Do`. -/
def UdpRes.toRes {α : Type} : UdpRes α → Res α
  | .ok a => .ok a
  | .err _ => .err "udp"
  | .panic => .panic "udp"

/-- Attempt number `n` of `announceToTracker`, with the pause before it: `BackOffDelay` of a second (manager.go:141-142), the timer firing `slack` late. -/
def timedUdpAttempt (tries : Nat → TimedTry) (slack : Nat → Nat) (n : Nat) (s : UdpClock) : UdpClock × Res (List AddrPort) :=
  let pause := match n with | 0 => 0 | k + 1 => backOffDelay trackerRetryDelay k + slack k
  let (s, r) := timedUdpAnnounce { s with now := s.now + pause } (tries n)
  (s, r.toRes)

/-- `io.ReadAll(res.Body)` (http_tracker.go:82): there is no deadline, as `http.DefaultClient` (tracker.go:38) has no timeout. `none`: it
never returns, as the body does not end. An event `timeout` does not occur. -/
def timedBody (acc : Bytes) : List (Nat × Ev) → Nat → Option (Res Bytes × Nat)
  | [], _ => none
  | (t, .data d) :: evs, now => timedBody (acc ++ d) evs (max t now)
  | (_, .timeout) :: evs, now => timedBody acc evs now
  | (t, .fail e) :: _, now => some (.err e, max t now)
  | (t, .eof) :: _, now => some (.ok acc, max t now)

/-- `httpTracker.Announce` (http_tracker.go:63-96): `head` is when `t.c.Do` returns the response and its status, if ever (failures of `Do`
are left out); `body` is how the body arrives. -/
def timedHttpAnnounce (parseAddr : Bytes → Option Addr) (t : HttpTracker) (head : Option (Nat × Int)) (body : List (Nat × Ev)) (now : Nat) :
    Option (HttpTracker × Res (List AddrPort) × Nat) :=
  match head with
  | none => none
  | some (h, status) =>
    match timedBody [] body (max h now) with
    | none => none
    | some (.ok b, now) => let (t, r) := httpAnnounce parseAddr t (.reply status b); some (t, r, now)
    | some (.err e, now) => let (t, r) := httpAnnounce parseAddr t (.fail e); some (t, r, now)
    | some (.panic e, now) => some (t, .panic e, now)

end Gotit
