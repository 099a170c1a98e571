import Verif.Model.Go
import Verif.Model.HttpTracker
/-
  `retry.Do` of github.com/avast/retry-go v3.0.0 as it is used in pkg/download/manager.go:119-146 and 148-179: the options
  `LastErrorOnly(true)`, `Attempts(5)`, `DelayType(BackOffDelay)`, `Context(ctx)`, and the default `RetryIf` (every error that
  is not wrapped by `retry.Unrecoverable`, which nothing in the repository does). The library is not part of /repo; this is
  its documented behaviour with those options.
-/
namespace Gotit

/-- What `retry.Do` returns. `canceled`: the error of the context. -/
inductive RetryOut (α : Type) where
  | ok (v : α)
  | err (e : String)
  | canceled
  | panic (e : String)

/-- The loop of `retry.Do`. `left` attempts remain, `n` have been made. `f n` is attempt number `n` on the state `s` of the
object it is a method of; `stop n` says whether the wait after attempt `n` is ended by the context instead of the timer
(if both are ready, Go picks either). The outcomes of the attempts made are returned too. After the last attempt there is
no wait, and its error is the result. (With no attempts at all the stored error is nil.) -/
def retryLoop {S α : Type} (f : Nat → S → S × Res α) (stop : Nat → Bool) (dflt : α) :
    (left n : Nat) → S → S × List (Res α) × RetryOut α
  | 0, _, s => (s, [], .ok dflt)
  | left + 1, n, s =>
    match f n s with
    | (s', .ok v) => (s', [.ok v], .ok v)
    | (s', .panic e) => (s', [.panic e], .panic e)
    | (s', .err e) =>
      if left = 0 then (s', [.err e], .err e)
      else if stop n then (s', [.err e], .canceled)
      else
        let (s'', outs, r) := retryLoop f stop dflt left (n + 1) s'
        (s'', .err e :: outs, r)

/-- `retry.Do`: the context is looked at once before the first attempt (`before`: it is cancelled then). -/
def retryDo {S α : Type} (attempts : Nat) (f : Nat → S → S × Res α) (before : Bool) (stop : Nat → Bool) (dflt : α) (s : S) :
    S × List (Res α) × RetryOut α :=
  if before then (s, [], .canceled) else retryLoop f stop dflt attempts 0 s

/-- `announceToTracker` (manager.go:119-146). `announce n t` is `t.Announce` with the counters as they are at attempt `n`.
(The peers left in `ips` by a failing last attempt are returned as well, but the caller looks at them only if there is no
error.) -/
def announceToTracker {T : Type} (announce : Nat → T → T × Res (List AddrPort)) (before : Bool) (stop : Nat → Bool) (t : T) :
    T × List (Res (List AddrPort)) × RetryOut (List AddrPort) :=
  retryDo 5 announce before stop [] t

/-- The `retry.Do` of `startPeerDownload` (manager.go:149-164). -/
def announceToPeer {P : Type} (announce : Nat → P → P × Res Unit) (before : Bool) (stop : Nat → Bool) (p : P) :
    P × List (Res Unit) × RetryOut Unit :=
  retryDo 5 announce before stop () p

/-- `BackOffDelay`: the configured delay shifted left by the number of the attempt (the cap on the shift, at least 32 for
both delays used, is not reached with five attempts). -/
def backOffDelay (delay n : Nat) : Nat := delay <<< n

/-- `retry.Delay(time.Second)` (manager.go:141), in nanoseconds. -/
def trackerRetryDelay : Nat := 1000000000

/-- `retry.Delay(500)` (manager.go:161): a `time.Duration`, so nanoseconds. -/
def peerRetryDelay : Nat := 500

/-- When the attempts start: attempt `n` takes `took n` and the timer after it fires `slack n` late. -/
def retryStart (delay : Nat) (took slack : Nat → Nat) (t0 : Nat) : Nat → Nat
  | 0 => t0
  | n + 1 => retryStart delay took slack t0 n + took n + backOffDelay delay n + slack n

end Gotit
