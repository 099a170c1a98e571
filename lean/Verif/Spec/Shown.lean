import Verif.Spec.Bencode
/-
  Which elements print differently after a round trip.
-/
namespace Gotit.Spec
open Gotit

/-- A list or dictionary that was built by the program (not obtained from Parse) and has at least one element. -/
def BuiltNonEmpty : Bencode → Prop
  | .list ptr vs _ => ptr = false ∧ ∃ v ∈ vs, v ≠ .nil
  | .dict ptr kvs _ => ptr = false ∧ ∃ e ∈ kvs, e.2 ≠ .nil
  | _ => False

/-- Inside a list or dictionary there is one that was built by the program and is not empty. -/
def BuiltInside : Bencode → Prop
  | .list _ vs _ => ∃ v ∈ vs, ∃ c, Sub c v ∧ BuiltNonEmpty c
  | .dict _ kvs _ => ∃ e ∈ kvs, ∃ c, Sub c e.2 ∧ BuiltNonEmpty c
  | _ => False

end Gotit.Spec
