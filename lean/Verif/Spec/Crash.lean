import Verif.Spec.Wire
/-
  Messages a peer can send to crash the client.
-/
namespace Gotit.Spec
open Gotit

/-- A have, request, cancel or piece message too short for its fields, or a piece message whose index is not below the number of
piece hashes. -/
def Poison (pieces : Nat) : Bytes → Prop
  | [] => False
  | id :: p =>
    (id = 4 ∧ p.length < 4) ∨ ((id = 6 ∨ id = 8) ∧ p.length < 12) ∨ (id = 7 ∧ (p.length < 8 ∨ pieces ≤ bigEndian (p.take 4)))

instance (n : Nat) (f : Bytes) : Decidable (Poison n f) := by
  cases f <;> unfold Poison <;> infer_instance

end Gotit.Spec
