import Verif.Spec.Process
import Verif.Spec.Preserve
/-
  C153: a command that fails leaves the disk as it was.
-/
namespace Gotit.Spec
open Gotit

/-- The process gets from its start, with that disk, to `P`, whoever acts. -/
def Gets (S : Setup) (c : Command) (disk : Disk) (P : Proc) : Prop := Acts S c (fun _ => True) (Proc.start disk) P

/-- C153: a command that says it could not do its work has not touched any file. -/
def FailureLeavesDisk (S : Setup) (c : Command) : Prop :=
  ∀ disk P, Gets S c disk P → P.loc = .exited 1 → Untouched disk P.disk

/-- Some of the files of the torrent can be created, and then one cannot. -/
def Stuck (os : Os) (root : Bytes) (mi : Metainfo) (before : List Bytes) : Prop :=
  ∃ p after, outputs root mi = before ++ p :: after ∧ (∀ q ∈ before, os.createError q = none) ∧ os.createError p ≠ none

end Gotit.Spec
