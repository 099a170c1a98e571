import Verif.Model.Process
import Verif.Spec.Manager
/-
  C123, C124: interrupts and the exit status.
-/
namespace Gotit.Spec
open Gotit

/-- The process is over. -/
def Ended (P : Proc) : Prop := (∃ code, P.loc = .exited code) ∨ P.loc = .killed

/-- What happens when only those act for whom `who` holds. -/
inductive Acts (S : Setup) (c : Command) (who : ProcAct → Prop) : Proc → Proc → Prop
  | here {P} : Acts S c who P P
  | step {P a P' P''} : Proc.Step S c P a P' → who a → Acts S c who P' P'' → Acts S c who P P''

/-- C123: wherever a signal arrives, the program gets to its end afterwards without waiting for anybody to provide the torrent file. -/
def EndsOnInterrupt (S : Setup) (c : Command) : Prop :=
  ∀ P P', Proc.Reachable S c P → Proc.Step S c P .signal P' → ∃ P'', Acts S c (· = .own) P' P'' ∧ Ended P''

/-- The program still needs something from the torrent file. -/
def NeedsFile (S : Setup) (c : Command) (P : Proc) : Prop :=
  P.loc = .opening ∨ (∃ d, P.loc = .reading d) ∨
    ((P.loc = .between ∧ S.configOk = true ∨ P.loc = .ready) ∧ (c = .download → S.stat = .ok true))

/-- A step towards the end of a download: the goroutine of `Download` and `Stop` gets on, a peer ends, or the program crashes. -/
def Winds (σ σ' : Mgr) : Prop :=
  Mgr.Step σ σ' ∧ (σ'.main ≠ σ.main ∨ σ'.running.length < σ.running.length ∨ σ'.panicked ≠ none)

/-- `k` such steps. -/
inductive WindsN : Nat → Mgr → Mgr → Prop
  | zero {σ} : WindsN 0 σ σ
  | succ {k σ σ' σ''} : Winds σ σ' → WindsN k σ' σ'' → WindsN (k + 1) σ σ''

/-- The download is over. -/
def Over (σ : Mgr) : Prop := σ.panicked ≠ none ∨ σ.main = .stopped

/-- C124: the exit status of a download tells whether everything was written. `complete`: what was written is everything. -/
def ExitTells (S : Setup) (complete : List PeerMessage → Prop) : Prop :=
  ∀ P σ P', Proc.Reachable S .download P → P.loc = .running σ → Proc.Step S .download P .own P' → P'.loc = .exited 0 → complete σ.written

end Gotit.Spec
