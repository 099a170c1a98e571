import Verif.Model.Stats
import Verif.Model.HttpTracker
/-
  The figures announced to a tracker: `announceToTracker` reads three counters one after the other (pkg/download/manager.go:124-129)
  while `WritePiece`, the only caller of `AddDownload` (pkg/torrent/torrent.go:179; `UpdateStatus` of manager.go:229-232 is not called),
  changes two of them one after the other (pkg/stats/stats.go:34-37). `AddUpload` is not called by anybody.
-/
namespace Gotit

/-- Where the reading goroutine is: the arguments of `gotit.AnnounceData{…}` are evaluated in the order in which they are
written. -/
inductive FigLoc where
  | idle
  | gotDownload (d : Nat)
  | gotUpload (d u : Nat)
  | built (data : AnnounceData)

/-- The counters, what the writer still has to do of its current `AddDownload`, the reader, and (not in the program) the sizes
`AddDownload` was called with. -/
structure FigSys where
  stats : Stats
  writer : List (StatReg × Nat)
  reader : FigLoc
  blocks : List Nat

/-- One step of the writer, of the reader, or of a goroutine that adds or removes a peer. -/
inductive FigSys.Step (port : Int) : FigSys → FigSys → Prop
  | call {σ} (n : Nat) : σ.writer = [] →
      Step port σ { σ with writer := (StatOp.addDownload n).atoms, blocks := σ.blocks ++ [n] }
  | atom {σ r d rest} : σ.writer = (r, d) :: rest → Step port σ { σ with stats := σ.stats.add r d, writer := rest }
  | addPeer {σ} : Step port σ { σ with stats := σ.stats.add .peerNum 1 }
  | removePeer {σ} : Step port σ { σ with stats := σ.stats.add .peerNum (2 ^ 64 - 1) }
  | readDownload {σ} : σ.reader = .idle → Step port σ { σ with reader := .gotDownload (σ.stats.get .download) }
  | readUpload {σ d} : σ.reader = .gotDownload d → Step port σ { σ with reader := .gotUpload d (σ.stats.get .upload) }
  | readLeft {σ d u} : σ.reader = .gotUpload d u →
      Step port σ { σ with reader := .built { downloaded := d, uploaded := u, left := σ.stats.get .left, port := port } }
  | again {σ data} : σ.reader = .built data → Step port σ { σ with reader := .idle }

inductive FigSys.Reachable (size : Nat) (port : Int) : FigSys → Prop
  | init : Reachable size port { stats := newStats size, writer := [], reader := .idle, blocks := [] }
  | step {σ σ'} : Reachable size port σ → FigSys.Step port σ σ' → Reachable size port σ'

end Gotit
