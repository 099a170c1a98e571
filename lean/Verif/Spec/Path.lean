import Verif.Spec.Text
/-
  Where a path name leads, starting from `/` or from the working directory.
-/
namespace Gotit.Spec
open Gotit

/-- A place in the directory tree: `ups` levels above the starting point, then down through `names`. -/
structure Place where
  ups : Nat
  names : List Bytes
  deriving DecidableEq

/-- Following one path element. There is nothing above `/`. -/
def enter (abs : Bool) (pl : Place) (c : Bytes) : Place :=
  if c = [] ∨ c = ascii "." then pl
  else if c = ascii ".." then
    if pl.names ≠ [] then { pl with names := pl.names.dropLast }
    else if abs then pl else { pl with ups := pl.ups + 1 }
  else { pl with names := pl.names ++ [c] }

/-- The path starts at `/`. -/
def absolute (p : Bytes) : Bool := p.head? == some 47

/-- Where a path leads. -/
def place (p : Bytes) : Place := (splitAt 47 p).foldl (enter (absolute p)) ⟨0, []⟩

/-- `f` lies below the directory `root`. -/
def Inside (root f : Bytes) : Prop :=
  absolute f = absolute root ∧ (place f).ups = (place root).ups ∧ ∃ rest, rest ≠ [] ∧ (place f).names = (place root).names ++ rest

/-- A plain file name. -/
def PlainName (c : Bytes) : Prop := c ≠ [] ∧ c ≠ ascii "." ∧ c ≠ ascii ".." ∧ (47 : UInt8) ∉ c

instance (c : Bytes) : Decidable (PlainName c) := by unfold PlainName; infer_instance

end Gotit.Spec
