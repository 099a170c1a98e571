import Verif.Model.BitWords
/-
  What calls on a set of numbers should return, given the calls before. (From the model only the types of calls and results are used.)
-/
namespace Gotit.Spec
open Gotit

/-- The members after the calls `ops`, if those at the beginning are `m`. -/
def Member (m : Nat → Prop) (ops : List BitOp) (i : Nat) : Prop := m i ∨ .set i ∈ ops

/-- The size after the calls `ops`, if it was `n` at the beginning: the least that is not less and leaves room for what was set. -/
def IsSize (n : Nat) (ops : List BitOp) (k : Nat) : Prop :=
  n ≤ k ∧ (∀ i, .set i ∈ ops → i < k) ∧ (k = n ∨ .set (k - 1) ∈ ops ∧ 0 < k)

/-- The result of a call on a set with the members `m` of the numbers below `n`. -/
inductive Returns (m : Nat → Prop) (n : Nat) : BitOp → BitResult → Prop
  | set {i} : Returns m n (.set i) .done
  | test {i b} : (b = true ↔ m i) → Returns m n (.test i) (.bool b)
  | found {i j} : i ≤ j → j < n → ¬ m j → (∀ k, i ≤ k → k < j → m k) → Returns m n (.nextClear i) (.index (some j))
  | notFound {i} : (∀ k, i ≤ k → k < n → m k) → Returns m n (.nextClear i) (.index none)
  | all {b} : (b = true ↔ ∀ i, i < n → m i) → Returns m n .all (.bool b)

end Gotit.Spec
