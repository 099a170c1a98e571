import Verif.Model.Figures
/-
  C87: figures that fit together.
-/
namespace Gotit.Spec
open Gotit

/-- `d` counts the first `i` blocks (in 64 bits). -/
def Counts (blocks : List Nat) (i d : Nat) : Prop := i ≤ blocks.length ∧ d < 2 ^ 64 ∧ d % 2 ^ 64 = (blocks.take i).sum % 2 ^ 64

/-- `l` is what is missing of `size` after the first `j` blocks (in 64 bits). -/
def Missing (size : Nat) (blocks : List Nat) (j l : Nat) : Prop :=
  j ≤ blocks.length ∧ l < 2 ^ 64 ∧ (l + (blocks.take j).sum) % 2 ^ 64 = size % 2 ^ 64

/-- What is announced adds up to the size of the torrent. -/
def Fit (size : Nat) (data : AnnounceData) : Prop := data.downloaded + data.left = size

end Gotit.Spec
