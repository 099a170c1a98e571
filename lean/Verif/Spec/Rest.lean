import Verif.Spec.Describe
import Verif.Model.Rest
/-
  C129–C131.
-/
namespace Gotit.Spec
open Gotit

/-- Reading the text of a piece: `[`, a number, `:`, base64, `]`. -/
def readPieceText (text : Bytes) : Option (Nat × Bytes) :=
  match text with
  | 91 :: rest =>
    match rest.dropWhile (· ≠ 58) with
    | 58 :: rest' =>
      if rest'.getLast? = some 93 then (base64Decode rest'.dropLast).map (fun h => (decimal (rest.takeWhile (· ≠ 58)), h)) else none
    | _ => none
  | _ => none

/-- `x` has been put into the set by one of the calls. -/
def Entered (x : Bytes) (ops : List SetOp) : Prop := SetOp.add x ∈ ops ∨ ∃ xs, SetOp.addAll xs ∈ ops ∧ x ∈ xs

end Gotit.Spec
