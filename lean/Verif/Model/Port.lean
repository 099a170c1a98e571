import Verif.Model.Figures
import Verif.Model.UdpTracker
/-
  The port given on the command line (pkg/cmd/download.go:43) on its way to the trackers: `NewMng` stores it (manager.go:46), every announce
  carries it (manager.go:128), and nothing else reads it.
-/
namespace Gotit

/-- The flag `port`: `IntVarP` with the default 6666 (download.go:43). pflag reads the text with `strconv.ParseInt(s, 0, 64)`; an error ends
the program before the command runs. `none`: the flag is not given. (pflag is not part of /repo; this is its documented
behaviour for `int` on a 64-bit machine.) -/
def portFlag : Option Bytes → Except NumErr Int
  | none => .ok 6666
  | some s => parseInt0 s 64

/-- What is handed to `Announce` in a download of `size` bytes started with that flag (download.go:80, manager.go:46, 124-129). -/
def Announces (arg : Option Bytes) (size : Nat) (d : AnnounceData) : Prop :=
  ∃ p σ, portFlag arg = .ok p ∧ FigSys.Reachable size p σ ∧ σ.reader = .built d

end Gotit
