import Verif.Model.Builder
import Verif.Spec.Bencode
/-
  What an element made of references stands for.
-/
namespace Gotit.Spec
open Gotit

/-- `x` is directly inside `v` and not nil. -/
inductive DirectlyIn (h : Heap) : HVal → HVal → Prop
  | list {x : HVal} {vs : List HVal} : x ∈ vs → x ≠ .nil → DirectlyIn h x (.list vs)
  | dict {x : HVal} {k : Bytes} {r : Nat} : (k, x) ∈ h r → x ≠ .nil → DirectlyIn h x (.dict r)

/-- The map `b` is `v` or somewhere inside it. -/
inductive Holds (h : Heap) (b : Nat) : HVal → Prop
  | here : Holds h b (.dict b)
  | deeper {x v : HVal} : DirectlyIn h x v → Holds h b x → Holds h b v

mutual
/-- The value an element stands for now. -/
inductive StandsFor (h : Heap) : HVal → Bencode → Prop
  | nil : StandsFor h .nil .nil
  | int (n : Int) : StandsFor h (.int n) (.int n)
  | str (s : Bytes) : StandsFor h (.str s) (.str s)
  | list {vs : List HVal} {ws : List Bencode} : StandForList h vs ws → StandsFor h (.list vs) (.list false ws [])
  | dict {r : Nat} {kvs : List (Bytes × Bencode)} : StandForEntries h (h r) kvs → StandsFor h (.dict r) (.dict false kvs [])
inductive StandForList (h : Heap) : List HVal → List Bencode → Prop
  | nil : StandForList h [] []
  | cons {v w vs ws} : StandsFor h v w → StandForList h vs ws → StandForList h (v :: vs) (w :: ws)
inductive StandForEntries (h : Heap) : List (Bytes × HVal) → List (Bytes × Bencode) → Prop
  | nil : StandForEntries h [] []
  | cons {k v w es ws} : StandsFor h v w → StandForEntries h es ws → StandForEntries h ((k, v) :: es) ((k, w) :: ws)
end

/-- A sequence of `Add` calls on one builder. -/
def addAll (h : Heap) (b : Nat) (es : List (Bytes × HVal)) : Heap := es.foldl (fun h e => h.add b e.1 e.2) h

end Gotit.Spec
