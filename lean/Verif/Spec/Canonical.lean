import Verif.Spec.Bencode
/-
  The same element, iterated over in different orders.
-/
namespace Gotit.Spec
open Gotit

/-- `Reorder v w`: `v` and `w` are the same element; the iterations over its maps, and over the maps inside it, may differ. -/
inductive Reorder : Bencode → Bencode → Prop
  | refl (v : Bencode) : Reorder v v
  | trans {u v w : Bencode} : Reorder u v → Reorder v w → Reorder u w
  | dict {kvs kvs' : List (Bytes × Bencode)} (ptr : Bool) (raw : Bytes) : kvs.Perm kvs' → Reorder (.dict ptr kvs raw) (.dict ptr kvs' raw)
  | inList {v v' : Bencode} (ptr : Bool) (a b : List Bencode) (raw : Bytes) : Reorder v v' →
      Reorder (.list ptr (a ++ v :: b) raw) (.list ptr (a ++ v' :: b) raw)
  | inDict {v v' : Bencode} (ptr : Bool) (a b : List (Bytes × Bencode)) (k raw : Bytes) : Reorder v v' →
      Reorder (.dict ptr (a ++ (k, v) :: b) raw) (.dict ptr (a ++ (k, v') :: b) raw)

/-- The keys of a dictionary that have a value. -/
def liveKeys (kvs : List (Bytes × Bencode)) : List Bytes := (kvs.filter (fun e => !e.2.isNil)).map Prod.fst

/-- Every dictionary in `v` has one entry per key, as a Go map does. -/
def OneEntryPerKey (v : Bencode) : Prop := ∀ ptr kvs raw, Sub (.dict ptr kvs raw) v → (kvs.map Prod.fst).Nodup

/-- No dictionary in `v` has two keys. -/
def NoTwoKeys (v : Bencode) : Prop := ∀ ptr kvs raw, Sub (.dict ptr kvs raw) v → (liveKeys kvs).length ≤ 1

/-- Byte-wise comparison, as BEP 3 asks for ("sorted as raw strings"). -/
def bytesLt : Bytes → Bytes → Bool
  | [], [] => false
  | [], _ :: _ => true
  | _ :: _, [] => false
  | a :: as, b :: bs => a < b || (a == b && bytesLt as bs)

/-- The text of a dictionary according to BEP 3: keys in strictly increasing order. -/
def SortedKeys (kvs : List (Bytes × Bencode)) : Prop := (liveKeys kvs).Pairwise (fun a b => bytesLt a b = true)

end Gotit.Spec
