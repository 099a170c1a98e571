import Verif.Model.Go
import Verif.Model.Float
import Verif.Model.Bencode
/-
  pkg/stats/stats.go and pkg/stats/progress_bar.go.
-/
namespace Gotit

/-- `Stats` (stats.go:11-20) without the start time. All counters are `uint64`: numbers below 2^64. -/
structure Stats where
  torrentSize : Nat
  download : Nat
  upload : Nat
  left : Nat
  peerNum : Nat
  trackerNum : Nat

/-- `NewStats` (stats.go:22-32); the argument is a `uint64`. -/
def newStats (torrentSize : Nat) : Stats :=
  { torrentSize := torrentSize, download := 0, upload := 0, left := torrentSize, peerNum := 0, trackerNum := 0 }

/-- The counters. -/
inductive StatReg where
  | download | upload | left | peerNum | trackerNum
  deriving DecidableEq

/-- The atomic loads (stats.go:43-53, 68-70, 80-82). -/
def Stats.get (s : Stats) : StatReg → Nat
  | .download => s.download
  | .upload => s.upload
  | .left => s.left
  | .peerNum => s.peerNum
  | .trackerNum => s.trackerNum

/-- `atomic.AddUint64(&ts.reg, delta)`. -/
def Stats.add (s : Stats) (r : StatReg) (delta : Nat) : Stats :=
  match r with
  | .download => { s with download := (s.download + delta) % 2 ^ 64 }
  | .upload => { s with upload := (s.upload + delta) % 2 ^ 64 }
  | .left => { s with left := (s.left + delta) % 2 ^ 64 }
  | .peerNum => { s with peerNum := (s.peerNum + delta) % 2 ^ 64 }
  | .trackerNum => { s with trackerNum := (s.trackerNum + delta) % 2 ^ 64 }

/-- The methods that change counters. -/
inductive StatOp where
  | addDownload (size : Nat)
  | addUpload (size : Nat)
  | addPeer
  | removePeer
  | addTracker
  | removeTracker

/-- The atomic additions each method makes, in order (stats.go:34-41, 60-66, 72-78). `-size` is the two's complement of a
`uint64`, `^uint64(0)` is 2^64 - 1. -/
def StatOp.atoms : StatOp → List (StatReg × Nat)
  | .addDownload size => [(.download, size % 2 ^ 64), (.left, (2 ^ 64 - size % 2 ^ 64) % 2 ^ 64)]
  | .addUpload size => [(.upload, size % 2 ^ 64)]
  | .addPeer => [(.peerNum, 1)]
  | .removePeer => [(.peerNum, 2 ^ 64 - 1)]
  | .addTracker => [(.trackerNum, 1)]
  | .removeTracker => [(.trackerNum, 2 ^ 64 - 1)]

/-- Concurrent use: the counters, what the calls in progress still have to do, and all calls made so far. -/
structure StatSys where
  stats : Stats
  pending : List (List (StatReg × Nat))
  calls : List StatOp

/-- One step: somebody calls a method, or some call in progress does its next atomic addition. -/
inductive StatSys.Step : StatSys → StatSys → Prop
  | call {σ} (op : StatOp) : Step σ { σ with pending := σ.pending ++ [op.atoms], calls := σ.calls ++ [op] }
  | atom {σ a r d rest b} : σ.pending = a ++ ((r, d) :: rest) :: b →
      Step σ { σ with stats := σ.stats.add r d, pending := a ++ rest :: b }

inductive StatSys.Reachable (size : Nat) : StatSys → Prop
  | init : Reachable size { stats := newStats size, pending := [], calls := [] }
  | step {σ σ'} : Reachable size σ → StatSys.Step σ σ' → Reachable size σ'

/-- All calls made so far have returned. -/
def StatSys.quiet (σ : StatSys) : Prop := ∀ p ∈ σ.pending, p = []

/-- `PercentCompleted` (stats.go:84-90). Converting a float64 beyond the range of `int` gives the smallest `int` on amd64
(Go leaves the value open). `Download()` is read twice; here it is the same both times. -/
def percentCompleted (torrentSize download : Nat) : Int :=
  if torrentSize = 0 ∨ download = 0 then 0
  else
    let r := (fmul 53 (fdiv 53 (toFloat 53 download) (toFloat 53 torrentSize)) ⟨100, 1⟩).round
    if r < 2 ^ 63 then r else -2 ^ 63

/-- `int(float32(barSize) * (float32(percentComplete) / 100.0))` (progress_bar.go:11-12) for a percentage that is not
negative; otherwise the same with the sign changed, as float arithmetic is symmetric and the conversion truncates. -/
def repeatChars (percentComplete : Int) (barSize : Nat) : Int :=
  let r : Nat := (fmul 24 (toFloat 24 barSize) (fdiv 24 (toFloat 24 percentComplete.natAbs) ⟨100, 1⟩)).floor
  if percentComplete < 0 then -r else r

/-- `strings.Repeat`: panics if the count is negative or the result would be longer than an `int` can say. -/
def stringsRepeat (s : Bytes) (count : Int) : Res Bytes :=
  if count < 0 then .panic "strings: negative Repeat count"
  else if s.length * count ≥ 2 ^ 63 then .panic "strings: Repeat output length overflow"
  else .ok (List.replicate count.toNat s).flatten

/-- `progressChar` (progress_bar.go:8), U+2588 in UTF-8. -/
def progressChar : Bytes := [0xE2, 0x96, 0x88]

/-- `progressBar` (progress_bar.go:10-19). -/
def progressBar (percentComplete : Int) (barSize : Nat) : Res Bytes :=
  let n := repeatChars percentComplete barSize
  (stringsRepeat progressChar n).bind fun full => (stringsRepeat [32] (barSize - n)).bind fun empty =>
    .ok ([124] ++ full ++ empty ++ [124, 32, 32] ++ itoa percentComplete ++ [37])

/-- What `Print` (progress_printer.go:25-26) shows first. -/
def printBar (s : Stats) : Res Bytes := progressBar (percentCompleted s.torrentSize s.download) 20

end Gotit
