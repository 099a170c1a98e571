import Verif.Model.Program
/-
  Specification for C145: how often an address is dialled, and what steps a response needs.
-/
namespace Gotit.Spec
open Gotit

/-- In a run of the program that has come to this state, so many attempts were made to reach the address: so often did its `Peer` get
another connection, or lose one. -/
inductive Dialled (S : JobSetup) (disk : Disk) (ip : Bytes) : Prog → Nat → Prop
  | start : Dialled S disk ip (Prog.start S disk) 0
  | other {P P' n} : Dialled S disk ip P n → Prog.Step S P P' → P'.contacts ip = P.contacts ip → Dialled S disk ip P' n
  | dial {P P' n} : Dialled S disk ip P n → Prog.Step S P P' → P'.contacts ip ≠ P.contacts ip → Dialled S disk ip P' (n + 1)

/-- Any number of steps. -/
inductive GoesOn (S : JobSetup) : Prog → Prog → Prop
  | refl {P} : GoesOn S P P
  | step {P P' P''} : GoesOn S P P' → Prog.Step S P' P'' → GoesOn S P P''

/-- The addresses of a response that the goroutine has not dealt with. -/
def Remaining : TrackerLoc → Option (List Bytes)
  | .adding ips => some ips
  | .connecting ip ips => some (ip :: ips)
  | _ => none

end Gotit.Spec
