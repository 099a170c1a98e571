import Verif.Model.PeerRun
import Verif.Model.StatusLine
/-
  pkg/peer/peer.go: Run and unchoke with time. Nanoseconds; the clock is the monotonic one `time.Since` reads.

  `Run.Step` says what can happen at each point; here every point also has a time by which it is left. What bounds it: the deadline of
  one second set before every read and write (connection.go:14, 43-45, 74-86, 118-124), the durations given to `wait` (peer.go:174-177, 186-189,
  243, 252-256, 272-273), and for everything else only the scheduler. A send on the channel to the writer (peer.go:400) has no bound of
  its own: it lasts until the writer takes the message.
-/
namespace Gotit

/-- One second. -/
def second : Nat := 1000000000

/-- `PeerTimeout` (connection.go:14). -/
def peerTimeout : Nat := second

/-- `time.Duration.Minutes` for a duration of `ns ≥ 0` nanoseconds. -/
def durationMinutes (ns : Nat) : Frac :=
  fadd 53 (toFloat 53 (ns / 60000000000)) (fdiv 53 (toFloat 53 (ns % 60000000000)) ⟨60000000000, 1⟩)

/-- `time.Since(p.lastMsgSent).Minutes() >= 1.9` (peer.go:310); the constant is the float64 nearest to 1.9. -/
def keepAliveDue (ns : Nat) : Bool :=
  (roundBits 53 19 10).num * (durationMinutes ns).den ≤ (durationMinutes ns).num * (roundBits 53 19 10).den

/-- `Duration` of the back-off of peer.go:156-163 for the attempt `k = 0, 1, …`: with jitter any duration between `Min` and
`Min · Factor^k`, at most `Max`. (github.com/jpillora/backoff is not part of /repo and was not at hand; modelled from general knowledge.) -/
def backoffRange (k d : Nat) : Prop := 100000000 ≤ d ∧ d ≤ 100000000 * 2 ^ k ∧ d ≤ 30 * second

/-- What is assumed of the surroundings: `delay` bounds how late the scheduler lets the goroutine go on, `writer` how long a message has to
wait for the writer (`none`: no bound). -/
structure Limits where
  delay : Nat
  writer : Option Nat

/-- `Run` at the time `now`. -/
structure TRun where
  run : Run
  now : Nat
  /-- the time by which the present point is left; `none`: no bound -/
  until_ : Option Nat
  /-- in a `wait`: the time at which the timer fires -/
  wake : Nat
  /-- the field `lastMsgSent` -/
  lastMsgSent : Nat
  /-- at `keepAlive`: whether a keep-alive was found to be due; `none` before the clock was read -/
  due : Option Bool
  /-- how often `b.Duration` was called in this call of `unchoke` -/
  attempt : Nat
  /-- the times at which a message had been written, the handshake being the first -/
  times : List Nat

/-- How long the operation at a point can take, apart from the scheduler's delay and from `wait`. -/
def RunLoc.takes (lim : Limits) : RunLoc → Option Nat
  | .unchokeSend | .unchokeRead | .sendRequest _ | .read => some peerTimeout
  | .deliver _ _ => lim.writer
  | .returned | .panicked => none
  | _ => some 0

/-- `Run` is called at the time `now`; the handshake was sent at the time `h` (peer.go:129, 139). -/
def TRun.start (lim : Limits) (p : Peer) (lastMsgSent h now : Nat) : TRun :=
  { run := Run.start p, now := now, until_ := some (now + lim.delay), wake := now, lastMsgSent := lastMsgSent, due := none, attempt := 0, times := [h] }

/-- The goroutine has arrived at a point of the program where it does not wait for a timer. -/
def TRun.arrive (lim : Limits) (s : TRun) (r : Run) : TRun :=
  { s with run := r, due := none, until_ := (r.loc.takes lim).map (s.now + lim.delay + ·) }

/-- The goroutine calls `wait` with duration `d` (peer.go:202-209); if the context is cancelled already, it returns at once. -/
def TRun.waits (lim : Limits) (s : TRun) (r : Run) (d : Nat) : TRun :=
  { s with run := r, due := none, wake := s.now + d, until_ := some (s.now + (if r.cancelled then 0 else d) + lim.delay) }

/-- A message has been written. -/
def TRun.wrote (s : TRun) : TRun := { s with times := s.times ++ [s.now] }

/-- One step: time passes, the clock is read, the goroutine makes a step, or something happens outside. -/
inductive TRun.Step (lim : Limits) (sha1 : Bytes → Bytes) (t : Torrent) : TRun → TRun → Prop
  | tick {s} (d : Nat) : (∀ u, s.until_ = some u → s.now + d ≤ u) → Step lim sha1 t s { s with now := s.now + d }
  /-- line 310 -/
  | clock {s} : s.run.loc = .keepAlive → s.due = none → Step lim sha1 t s { s with
      due := some (keepAliveDue (s.now - s.lastMsgSent))
      until_ := some (s.now + lim.delay + if keepAliveDue (s.now - s.lastMsgSent) then peerTimeout else 0) }
  | notDue {s} : s.run.loc = .keepAlive → s.due = some false → Step lim sha1 t s (s.arrive lim (s.run.goto .ifChoked))
  /-- lines 312 and 315 -/
  | kept {s} : s.run.loc = .keepAlive → s.due = some true →
      Step lim sha1 t s { (s.wrote.arrive lim (s.run.emit [.sent keepaliveMessage] .ifChoked)) with lastMsgSent := s.now }
  | keepFail {s} : s.run.loc = .keepAlive → s.due = some true →
      Step lim sha1 t s (s.arrive lim (s.run.emit [.sendFailed keepaliveMessage] .returned))
  /-- line 166: a new back-off -/
  | choked {s} : s.run.loc = .ifChoked → s.run.peer.clientChoked = true →
      Step lim sha1 t s { (s.arrive lim (s.run.goto .unchokeTop)) with attempt := 0 }
  /-- a message is written (lines 172 and 250) -/
  | sent {s r m} : (s.run.loc = .unchokeSend ∨ s.run.loc = .sendRequest m) → Run.Step sha1 t s.run r → r.log = s.run.log ++ [.sent m] →
      Step lim sha1 t s (s.wrote.arrive lim r)
  /-- lines 173 and 185 -/
  | backOff {s r d} : Run.Step sha1 t s.run r → r.loc = .unchokeWait → backoffRange s.attempt d →
      Step lim sha1 t s { (s.waits lim r d) with attempt := s.attempt + 1 }
  /-- line 243 -/
  | idle {s r} : s.run.loc = .ifRequest → Run.Step sha1 t s.run r → r.loc = .pause → Step lim sha1 t s (s.waits lim r (2 * second))
  /-- lines 252 and 272; the back-off is a new one in every iteration (line 239) -/
  | pauses {s r} : s.run.loc ≠ .ifRequest → Run.Step sha1 t s.run r → r.loc = .pause → Step lim sha1 t s (s.waits lim r 100000000)
  /-- the timer of `wait` fires -/
  | wakes {s r} : (s.run.loc = .unchokeWait ∨ s.run.loc = .pause) → s.wake ≤ s.now → Run.Step sha1 t s.run r → r.loc ≠ .returned →
      Step lim sha1 t s (s.arrive lim r)
  /-- `wait` returns because the context is cancelled -/
  | wakesCancelled {s r} : (s.run.loc = .unchokeWait ∨ s.run.loc = .pause) → Run.Step sha1 t s.run r → r.loc = .returned →
      Step lim sha1 t s (s.arrive lim r)
  /-- every other step of `Run` -/
  | other {s r} : s.run.loc ≠ .keepAlive → s.run.loc ≠ .unchokeWait → s.run.loc ≠ .pause → r.loc ≠ .unchokeWait → r.loc ≠ .pause →
      r.loc ≠ .unchokeTop → (∀ m, r.log ≠ s.run.log ++ [.sent m]) → Run.Step sha1 t s.run r → Step lim sha1 t s (s.arrive lim r)
  /-- the context is cancelled: a `wait` ends -/
  | cancel {s} : Step lim sha1 t s { s with
      run := { s.run with cancelled := true }
      until_ := match s.run.loc with
        | .unchokeWait | .pause => s.until_.map (min (s.now + lim.delay))
        | _ => s.until_ }
  | env {s r} : Run.Env s.run r → r.cancelled = s.run.cancelled → Step lim sha1 t s { s with run := r }

/-- Executions from a given state. -/
inductive TRun.Exec (lim : Limits) (sha1 : Bytes → Bytes) (t : Torrent) : TRun → TRun → Prop
  | refl {s} : Exec lim sha1 t s s
  | step {s s' s''} : Exec lim sha1 t s s' → TRun.Step lim sha1 t s' s'' → Exec lim sha1 t s s''

end Gotit
