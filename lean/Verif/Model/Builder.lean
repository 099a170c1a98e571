import Verif.Model.Bencode
/-
  The dictionary builder of pkg/bencode/elements.go:140-173. A Go map is a reference: `Generate` returns an element that holds the
  builder's own map. Model/Bencode.lean treats elements as values; here maps live in a heap.
-/
namespace Gotit

/-- An element whose maps are references (elements.go:12-24, 155-173). `raw` is left out: the builders leave it empty. -/
inductive HVal where
  | nil
  | int (n : Int)
  | str (s : Bytes)
  | list (vs : List HVal)
  | dict (ref : Nat)

/-- `v == nil` -/
def HVal.isNil : HVal → Bool
  | .nil => true
  | _ => false

/-- The maps, in some iteration order. -/
abbrev Heap := Nat → List (Bytes × HVal)

/-- `m[k] = v`. -/
def hUpsert (k : Bytes) (v : HVal) : List (Bytes × HVal) → List (Bytes × HVal)
  | [] => [(k, v)]
  | (k', v') :: kvs => if k' = k then (k, v) :: kvs else (k', v') :: hUpsert k v kvs

/-- `Add` (elements.go:150-153) on the builder with map `b`. -/
def Heap.add (h : Heap) (b : Nat) (k : Bytes) (v : HVal) : Heap := fun r => if r = b then hUpsert k v (h b) else h r

/-- `Generate` (elements.go:155-157): the element shares the map. -/
def generate (b : Nat) : HVal := .dict b

/-- `Encode` (elements.go:30-32, 42-44, 54-63, 73-84), with `fuel` nested calls; `none` if they do not suffice. -/
def HVal.encode (h : Heap) : Nat → HVal → Option Bytes
  | 0, _ => none
  | _ + 1, .nil => some []
  | _ + 1, .int n => some (105 :: itoa n ++ [101])
  | _ + 1, .str s => some (encodeStr s)
  | fuel + 1, .list vs =>
    ((vs.filter (fun v => !v.isNil)).mapM (HVal.encode h fuel)).map fun bs => 108 :: bs.flatten ++ [101]
  | fuel + 1, .dict r =>
    (((h r).filter (fun e => !e.2.isNil)).mapM (fun e => (HVal.encode h fuel e.2).map (encodeStr e.1 ++ ·))).map
      fun bs => 100 :: bs.flatten ++ [101]

end Gotit
