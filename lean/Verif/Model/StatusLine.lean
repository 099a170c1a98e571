import Verif.Model.Stats
/-
  The line the client prints every second: pkg/stats/progress_printer.go:25-37 and `Speed` (stats.go:55-58), with the two library
  functions it uses, `bytefmt.ByteSize` (code.cloudfoundry.org/bytefmt at 2023-04-06, bytes.go) and `strconv.FormatFloat(x, 'f', 1, 64)`
  (`%.1f`). The libraries are not part of /repo and their sources were not at hand: both are modelled from
  general knowledge of their behaviour, unchecked against the code.
-/
namespace Gotit

/-- `strconv.FormatFloat(x, 'f', 1, 64)` for a finite `x ≥ 0`: the exact decimal expansion, rounded to one digit after the point, ties
to even. -/
def formatTenths (x : Frac) : Bytes :=
  let m := rne (10 * x.num) x.den
  natDigits (m / 10) ++ 46 :: natDigits (m % 10)

/-- `strings.TrimSuffix`. -/
def trimSuffix (s suffix : Bytes) : Bytes :=
  if suffix.isSuffixOf s then s.take (s.length - suffix.length) else s

/-- The switch of `ByteSize`: by how many powers of two the number is divided, and the letter. -/
def byteUnit (n : Nat) : Nat × UInt8 :=
  if n ≥ 2 ^ 60 then (60, 69)
  else if n ≥ 2 ^ 50 then (50, 80)
  else if n ≥ 2 ^ 40 then (40, 84)
  else if n ≥ 2 ^ 30 then (30, 71)
  else if n ≥ 2 ^ 20 then (20, 77)
  else if n ≥ 2 ^ 10 then (10, 75)
  else (0, 66)

/-- `bytefmt.ByteSize` of a `uint64`. The value is not divided when the unit is B (dividing by 1 is the same). -/
def byteSize (n : Nat) : Bytes :=
  if n = 0 then [48, 66]
  else
    let u := byteUnit n
    trimSuffix (formatTenths (fdiv 53 (toFloat 53 n) ⟨2 ^ u.1, 1⟩)) [46, 48] ++ [u.2]

/-- `x + y` in float64. -/
def fadd (p : Nat) (x y : Frac) : Frac := roundBits p (x.num * y.den + y.num * x.den) (x.den * y.den)

/-- `time.Duration.Seconds` for a duration of `ns ≥ 0` nanoseconds. -/
def durationSeconds (ns : Nat) : Frac :=
  fadd 53 (toFloat 53 (ns / 1000000000)) (fdiv 53 (toFloat 53 (ns % 1000000000)) ⟨1000000000, 1⟩)

/-- `Speed` (stats.go:55-58), `ns` nanoseconds after the start; `mb = 1 << 20` (stats.go:9). -/
def speed (download ns : Nat) : Frac :=
  fdiv 53 (fdiv 53 (toFloat 53 download) (durationSeconds ns)) ⟨2 ^ 20, 1⟩

/-- `%.1f` of `Speed()`. Division by zero gives NaN or +Inf, which `fmt` prints by name. -/
def speedText (download ns : Nat) : Bytes :=
  if ns = 0 then (if download = 0 then ascii "NaN" else ascii "+Inf")
  else formatTenths (speed download ns)

/-- What `Print` (progress_printer.go:25-37) shows after the bar, `ns` nanoseconds after the start. `Download()` is read twice; here it
is the same both times. -/
def statusLine (s : Stats) (ns : Nat) : Bytes :=
  ascii " downloaded (" ++ byteSize s.download ++ ascii "), left (" ++ byteSize s.left ++ ascii "), speed (" ++ speedText s.download ns ++
    ascii " MB/s), peers (" ++ natDigits s.peerNum ++ ascii "), trackers (" ++ natDigits s.trackerNum ++ ascii ")\n"

/-- `Print`: the bar and the line. -/
def printStatus (s : Stats) (ns : Nat) : Res Bytes := (printBar s).bind fun bar => .ok (bar ++ statusLine s ns)

/-- The calls of the counters' methods in the program: `AddDownload` (torrent.go:179), `AddPeer` (manager.go:225), `RemovePeer`
(manager.go:170). `AddUpload` is called by `UpdateStatus` (manager.go:229-232), which nothing calls; `AddTracker` and `RemoveTracker` are called
nowhere. -/
def StatOp.called : StatOp → Bool
  | .addDownload _ | .addPeer | .removePeer => true
  | _ => false

/-- The states of the counters in a run of the program: any number of goroutines make those calls. -/
inductive StatSys.InProgram (size : Nat) : StatSys → Prop
  | init : InProgram size { stats := newStats size, pending := [], calls := [] }
  | call {σ} (op : StatOp) : InProgram size σ → op.called = true →
      InProgram size { σ with pending := σ.pending ++ [op.atoms], calls := σ.calls ++ [op] }
  | atom {σ a r d rest b} : InProgram size σ → σ.pending = a ++ ((r, d) :: rest) :: b →
      InProgram size { σ with stats := σ.stats.add r d, pending := a ++ rest :: b }

end Gotit
