import Verif.Spec.Opened
/-
  C113: the number of hashes of a metainfo.
-/
namespace Gotit.Spec
open Gotit

/-- A metainfo with one hash of 20 bytes for each of the pieces its content needs. -/
def RightCount (m : Metainfo) : Prop := ∃ k, m.pieces.length = 20 * k ∧ JustEnough m k

end Gotit.Spec
