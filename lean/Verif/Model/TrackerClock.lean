import Verif.Model.HttpTracker
import Verif.Model.Retry
/-
  `runTracker` for an HTTP tracker with the time of every single request: the attempts of `announceToTracker` (pkg/download/manager.go:119-146) with
  their pauses, and `WaitInterval` after them. Times are in nanoseconds. Contacting the peers of a response (Model/Contact.lean) counts as part of the
  wait; nothing is cancelled here.
-/
namespace Gotit

/-- What happens with a request: the reply, how long it takes until it is there, and how long it takes beyond the pause or the interval until the
next request is made (timers that fire late, contacting peers). -/
structure TimedReply where
  reply : HttpReply
  took : Nat
  slack : Nat

/-- `runTracker` when it makes a request: the tracker object, the time, and how many attempts of this announce have failed already. -/
structure TrackerClock where
  t : HttpTracker
  now : Nat
  failed : Nat

/-- The tracker as `newHttpTracker` returns it. -/
def TrackerClock.start (addr trackerId : Bytes) (now : Nat) : TrackerClock := ⟨newHttpTracker addr trackerId, now, 0⟩

/-- From one request to the next: after a failure that is not the fifth there is the pause of `retry.Do` (manager.go:140-143); otherwise the announce
is over and `WaitInterval` is called (manager.go:103). `none`: the program panicked. -/
def TrackerClock.next (parseAddr : Bytes → Option Addr) (s : TrackerClock) (r : TimedReply) : Option TrackerClock :=
  match httpAnnounce parseAddr s.t r.reply with
  | (t, .ok _) => some ⟨t, waitInterval t.interval (s.now + r.took) r.slack, 0⟩
  | (t, .err _) =>
    if s.failed + 1 < 5 then some ⟨t, s.now + r.took + backOffDelay trackerRetryDelay s.failed + r.slack, s.failed + 1⟩
    else some ⟨t, waitInterval t.interval (s.now + r.took) r.slack, 0⟩
  | (_, .panic _) => none

/-- The state at request number `k` (from 0), if there is one. -/
def TrackerClock.at (parseAddr : Bytes → Option Addr) (s : TrackerClock) (replies : Nat → TimedReply) : Nat → Option TrackerClock
  | 0 => some s
  | k + 1 => (TrackerClock.at parseAddr s replies k).bind (fun s => s.next parseAddr (replies k))

end Gotit
