import Verif.Spec.Bencode
/-
  Nesting of a text.
-/
namespace Gotit.Spec
open Gotit

/-- `Deep k x`: reading `x` from the left, an element has to be read while `k` lists and dictionaries are open, everything
before it being well-formed. -/
inductive Deep : Nat → Bytes → Prop where
  | here (x : Bytes) : Deep 0 x
  | list {k : Nat} (p : Bytes) (vs : List Bencode) (x : Bytes) : DenotesSeq p vs → x ≠ [] → x.head? ≠ some 101 → Deep k x →
      Deep (k + 1) (108 :: (p ++ x))
  | val {k : Nat} (p : Bytes) (es : List (Bytes × Bencode)) (kb key x : Bytes) : DenotesEntries p es → Denotes kb (.str key) →
      Deep k x → Deep (k + 1) (100 :: (p ++ (kb ++ x)))

/-- The text of `n` empty lists inside one another. -/
def nested (n : Nat) : Bytes := List.replicate n 108 ++ List.replicate n 101

end Gotit.Spec
