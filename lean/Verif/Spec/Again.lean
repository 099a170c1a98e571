import Verif.Spec.Process
/-
  C152: a second interrupt.
-/
namespace Gotit.Spec
open Gotit

/-- C152: whoever sends a second signal because the first did not help, sees the end of the process. -/
def SecondInterruptEnds (S : Setup) (c : Command) : Prop :=
  ∀ P P1 P2, Proc.Reachable S c P → Proc.Step S c P .signal P1 → ¬ Ended P1 → Proc.Step S c P1 .signal P2 → Ended P2

/-- Two processes that differ in nothing but the number of signals they got. -/
def SameBut (P P' : Proc) : Prop := P.loc = P'.loc ∧ P.cancelled = P'.cancelled ∧ P.disk = P'.disk

end Gotit.Spec
