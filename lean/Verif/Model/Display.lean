import Verif.Model.Program
import Verif.Model.StatusLine
/-
  The whole program (Model/Program.lean) together with the goroutine that prints the status line every second
  (`initStatisticsPrinting`, pkg/download/manager.go:181-192, started by `Download`, manager.go:59) and with the two atomic
  additions of `AddDownload` (pkg/stats/stats.go:34-37) as steps of their own.

  A panic in that goroutine ends the program like any other.
-/
namespace Gotit

/-- A line that was printed: the percentage, the two sizes, the number of bytes the speed was computed from, the number of peers.
The number of trackers is always 0 (C103). -/
structure ShownLine where
  percent : Int
  downloaded : Nat
  left : Nat
  speedOf : Nat
  peers : Int

/-- Where the goroutine is. -/
inductive ShowLoc where
  /-- the select (manager.go:184-187) -/
  | waiting
  /-- `PercentCompleted` before its first `Download()` (stats.go:85) -/
  | checking
  /-- before its second `Download()` (stats.go:89) -/
  | dividing
  /-- before `progressBar(percent, 20)` (progress_printer.go:26) -/
  | drawing (percent : Int)
  /-- the arguments of `Fprintf` (progress_printer.go:27-35) are evaluated in order; the next one is `Download()`, … -/
  | drawn (percent : Int)
  /-- … `Left()`, … -/
  | gotDownload (percent : Int) (d : Nat)
  /-- … the `Download()` of `Speed()` (stats.go:57), … -/
  | gotLeft (percent : Int) (d l : Nat)
  /-- … `PeerNum()` -/
  | gotSpeed (percent : Int) (d l s : Nat)
  | ended
  | panicked

/-- The program and its display. -/
structure Watched where
  prog : Prog
  /-- the counters; `peerNum` is not kept here but in `prog.mgr` -/
  stats : Stats
  /-- what `WritePiece` still has to do of its call of `AddDownload` for the message it has in hand -/
  adding : List (StatReg × Nat)
  display : ShowLoc
  /-- Not in the program: the lines printed so far. -/
  lines : List ShownLine

/-- `NewMng` (manager.go:37-52: `uint64(torrent.Length)`), and `Download` has started its goroutines. -/
def Watched.start (S : JobSetup) (disk : Disk) : Watched :=
  { prog := Prog.start S disk, stats := newStats (S.t.length % 2 ^ 64).toNat, adding := [], display := .waiting, lines := [] }

/-- `len(msg.Data())` (torrent.go:179). -/
def dataBytes (m : PeerMessage) : Nat := match m.data with | .ok d => d.length | _ => 0

/-- No goroutine has panicked. -/
def Watched.alive (W : Watched) : Prop := W.prog.alive ∧ W.display ≠ .panicked

/-- One step. -/
inductive Watched.Step (S : JobSetup) : Watched → Watched → Prop
  /-- a step that has nothing to do with the counters -/
  | other {W P'} : W.alive → Prog.Step S W.prog P' → P'.world.inHand = W.prog.world.inHand → Step S W { W with prog := P' }
  /-- torrent.go:177-179: a message is received and `AddDownload` is called -/
  | receive {W P' m} : W.alive → Prog.Step S W.prog P' → W.prog.world.inHand = none → P'.world.inHand = some m →
      Step S W { W with prog := P', adding := (StatOp.addDownload (dataBytes m)).atoms }
  /-- stats.go:35-36 -/
  | count {W r d rest} : W.alive → W.adding = (r, d) :: rest → Step S W { W with stats := W.stats.add r d, adding := rest }
  /-- torrent.go:181-192, after `AddDownload` has returned -/
  | write {W P' m} : W.alive → Prog.Step S W.prog P' → W.adding = [] → W.prog.world.inHand = some m → P'.world.inHand = none →
      Step S W { W with prog := P' }
  /-- manager.go:185-186 -/
  | ctxDone {W} : W.alive → W.display = .waiting → W.prog.mgr.cancelled = true → Step S W { W with display := .ended }
  /-- manager.go:187-188; a select of which both cases are ready takes any -/
  | tick {W} : W.alive → W.display = .waiting → Step S W { W with display := .checking }
  /-- stats.go:85-87 -/
  | nothing {W} : W.alive → W.display = .checking → (W.stats.torrentSize = 0 ∨ W.stats.download = 0) →
      Step S W { W with display := .drawing 0 }
  | something {W} : W.alive → W.display = .checking → ¬ (W.stats.torrentSize = 0 ∨ W.stats.download = 0) →
      Step S W { W with display := .dividing }
  /-- stats.go:89. (`percentCompleted` also has the check of line 85; should the counter have become 0 in between, 0 divided by the size
  is 0 as well.) -/
  | divide {W} : W.alive → W.display = .dividing →
      Step S W { W with display := .drawing (percentCompleted W.stats.torrentSize W.stats.download) }
  | draw {W p} : W.alive → W.display = .drawing p → (progressBar p 20).isPanic = false → Step S W { W with display := .drawn p }
  | drawCrash {W p} : W.alive → W.display = .drawing p → (progressBar p 20).isPanic = true → Step S W { W with display := .panicked }
  | readDownload {W p} : W.alive → W.display = .drawn p → Step S W { W with display := .gotDownload p W.stats.download }
  | readLeft {W p d} : W.alive → W.display = .gotDownload p d → Step S W { W with display := .gotLeft p d W.stats.left }
  | readSpeed {W p d l} : W.alive → W.display = .gotLeft p d l → Step S W { W with display := .gotSpeed p d l W.stats.download }
  /-- the line is printed -/
  | readPeers {W p d l s} : W.alive → W.display = .gotSpeed p d l s →
      Step S W { W with display := .waiting, lines := W.lines ++ [⟨p, d, l, s, W.prog.mgr.peerNum⟩] }

inductive Watched.Reachable (S : JobSetup) (disk : Disk) : Watched → Prop
  | start : Reachable S disk (Watched.start S disk)
  | step {W W'} : Reachable S disk W → Watched.Step S W W' → Reachable S disk W'

end Gotit
