import Verif.Model.Manager
import Verif.Model.RunTime
/-
  pkg/download/manager.go with time: how long `Download` and `Stop` go on after the context has been cancelled (an interrupt, app.go:98-99).
  Nanoseconds. `Mgr.Step` says what can happen; here the goroutine of `runDownload` and those of the peers have a time by which they must have
  moved. Everything else (trackers, their attempts to reach peers, the writer) may take any time.

  A goroutine of a peer that panics, the display and the end of the process after `Stop` are left out: the first two end the program sooner.
-/
namespace Gotit

/-- How long `Run` can go on after the context was cancelled: `C56_time_partial` of Props/RunTime.lean; no bound if there is none for the writer. -/
def runLimit (lim : Limits) : Option Nat := lim.writer.map fun w => 4000000000 + 2 * w + 10 * lim.delay

/-- The download at the time `now`. -/
structure TMgr where
  m : Mgr
  now : Nat
  /-- the time by which the goroutine of `runDownload` makes its next step; `none`: it waits for something -/
  mainBy : Option Nat
  /-- the peers that run (`m.running`), with the time by which `Run` must have returned -/
  runs : List (PeerRef × Option Nat)
  /-- by the number of the tracker, for one that is `connecting`: `retry.Do` was called with a cancelled context, so that it makes no attempt -/
  barred : Nat → Bool
  /-- Not in the program: when the context was cancelled, which trackers started a `Run` after that and how many did. -/
  cancelledAt : Option Nat
  late : Nat → Bool
  lateRuns : Nat

/-- When the goroutine of `runDownload` has arrived at `m.main`: by when it goes on. It waits in `wg.Wait` (manager.go:213) for the peers and at
manager.go:65 for the context; everything else it does at once, up to the scheduler's delay. That includes taking `poolMu`
(manager.go:200), which `AddPeer` holds for a moment only, and closing one connection (manager.go:204). -/
def Mgr.mainDue (lim : Limits) (m : Mgr) (now : Nat) : Option Nat :=
  match m.main with
  | .waitBlocked | .stopped => none
  | .waitCtx => if m.cancelled then some (now + lim.delay) else none
  | _ => some (now + lim.delay)

/-- The program is over, apart from the return of `main`. -/
def TMgr.Over (s : TMgr) : Prop := s.m.main = .stopped ∨ s.m.panicked ≠ none

/-- `Download` has just been called, up to `waitPeers` (manager.go:54-63), with `n` trackers. -/
def TMgr.start (lim : Limits) (n : Nat) : TMgr :=
  { m := Mgr.start n, now := 0, mainBy := some lim.delay, runs := [], barred := fun _ => false, cancelledAt := none, late := fun _ => false,
    lateRuns := 0 }

/-- One step of the download, or time passes. -/
inductive TMgr.Step (lim : Limits) : TMgr → TMgr → Prop
  /-- time passes, but not beyond a time by which somebody must have moved -/
  | tick {s} (d : Nat) : s.Over ∨ ((∀ u, s.mainBy = some u → s.now + d ≤ u) ∧ ∀ x ∈ s.runs, ∀ u, x.2 = some u → s.now + d ≤ u) →
      Step lim s { s with now := s.now + d }
  /-- an interrupt; every `Run` has from now on its limit, and a `Download` that waits for the context goes on -/
  | interrupt {s} : s.m.panicked = none → s.m.cancelled = false → Step lim s { s with
      m := { s.m with cancelled := true }
      runs := s.runs.map fun x => (x.1, (runLimit lim).map (s.now + ·))
      mainBy := if s.m.main = .waitCtx then some (s.now + lim.delay) else s.mainBy
      cancelledAt := some s.now }
  /-- the goroutine of `runDownload` -/
  | main {s m'} : Mgr.Step s.m m' → m'.main ≠ s.m.main → m'.running = s.m.running → m'.panicked = none → Step lim s { s with
      m := m'
      mainBy := m'.mainDue lim s.now }
  /-- a tracker's goroutine has put a new peer into the pool and calls `retry.Do` (manager.go:113-114, 149), which looks at the context first -/
  | tries {s a b ip ips l} : s.m.panicked = none → s.m.trackers = a ++ .adding (ip :: ips) :: b → s.m.locked = false →
      s.m.pool = some l → ip ∉ l → Step lim s { s with
      m := { s.m with
        trackers := a ++ .connecting ip ips :: b, pool := some (ip :: l), peerNum := s.m.peerNum + 1,
        conn := fun x => if x = ip then false else s.m.conn x, adds := s.m.adds ++ [(ip, true)] }
      barred := fun j => if j = a.length then s.m.cancelled else s.barred j }
  /-- a peer was reached (manager.go:174-178). `Run` with a cancelled context returns at once (peer.go:218-221). -/
  | connected {s a b ip ips} : s.m.panicked = none → s.m.trackers = a ++ .connecting ip ips :: b → s.m.conn ip = true →
      s.barred a.length = false → Step lim s { s with
      m := { s.m with
        trackers := a ++ .adding ips :: b, wg := s.m.wg + 1, running := ⟨ip, s.m.main.waited⟩ :: s.m.running }
      runs := (⟨ip, s.m.main.waited⟩, if s.m.cancelled then some (s.now + lim.delay) else none) :: s.runs
      late := fun j => if j = a.length then s.m.cancelled else s.late j
      lateRuns := if s.m.cancelled then s.lateRuns + 1 else s.lateRuns }
  /-- `Run` returns (manager.go:176-177); if it was the last one, `wg.Wait` is woken -/
  | ended {s a p d b} : s.m.panicked = none → s.runs = a ++ (p, d) :: b → Step lim s { s with
      m := { s.m with
        running := (a ++ b).map Prod.fst, wg := s.m.wg - 1, main := wakeIfZero (s.m.wg - 1) s.m.main }
      runs := a ++ b
      mainBy := if s.m.wg - 1 = 0 ∧ s.m.main = .waitBlocked then some (s.now + lim.delay) else s.mainBy }
  /-- somebody panics -/
  | dies {s m'} : Mgr.Step s.m m' → m'.panicked ≠ none → Step lim s { s with m := m' }
  /-- every other step: trackers, failing attempts, messages for the writer, the writer -/
  | other {s m'} : Mgr.Step s.m m' → m'.main = s.m.main → m'.running = s.m.running → m'.cancelled = s.m.cancelled → m'.panicked = none →
      (∀ (i : Nat) (ip : Bytes) (ips : List Bytes), m'.trackers[i]? = some (.connecting ip ips) → s.m.trackers[i]? = some (.connecting ip ips)) →
      Step lim s { s with m := m' }

/-- What can happen to a download with `n` trackers. -/
inductive TMgr.Reachable (lim : Limits) (n : Nat) : TMgr → Prop
  | start : Reachable lim n (TMgr.start lim n)
  | step {s s'} : Reachable lim n s → TMgr.Step lim s s' → Reachable lim n s'

end Gotit
