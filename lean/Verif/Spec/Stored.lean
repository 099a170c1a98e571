import Verif.Spec.Literal
import Verif.Spec.Unmarshal
/-
  What Unmarshal is to put into its target, type by type.
-/
namespace Gotit.Spec
open Gotit

mutual
/-- The integer types in it are those of Go. -/
def Machine : Ty → Prop
  | .int bits => bits = 8 ∨ bits = 16 ∨ bits = 32 ∨ bits = 64
  | .uint bits => bits = 8 ∨ bits = 16 ∨ bits = 32 ∨ bits = 64
  | .slice t => Machine t
  | .struct fs => MachineIn fs
  | .map _ t => Machine t
  | .ptr t => Machine t
  | _ => True
def MachineIn : List ((Bytes × Bytes × Bool) × Ty) → Prop
  | [] => True
  | (_, t) :: fs => Machine t ∧ MachineIn fs
end

mutual
/-- The value has the shape of the type, as far as structs and pointers are concerned. -/
def Shaped : Ty → GoVal → Prop
  | .struct fs, x => ∃ xs, x = .struct xs ∧ ShapedIn fs xs
  | .ptr t, x => x = .ptr none ∨ ∃ y, x = .ptr (some y) ∧ Shaped t y
  | _, _ => True
def ShapedIn : List ((Bytes × Bytes × Bool) × Ty) → List GoVal → Prop
  | [], xs => xs = []
  | (_, t) :: fs, xs => ∃ y ys, xs = y :: ys ∧ Shaped t y ∧ ShapedIn fs ys
end

/-- `v` is a dictionary in which `k` stands for `x`. -/
def HasEntry (v : Bencode) (k : Bytes) (x : Bencode) : Prop := ∃ p kvs raw, v = .dict p kvs raw ∧ (k, x) ∈ kvs

/-- `v` is a dictionary without the key `k`. -/
def LacksKey (v : Bencode) (k : Bytes) : Prop := ∃ p kvs raw, v = .dict p kvs raw ∧ ∀ x, (k, x) ∉ kvs

def NotPointer (t : Ty) : Prop := ∀ u, t ≠ .ptr u

mutual
/-- `Stored t old v x`: after the element `v` was read into a variable of type `t` that held `old`, it holds `x`. -/
inductive Stored : Ty → GoVal → Bencode → GoVal → Prop
  | strOfStr (old : GoVal) (s : Bytes) : Stored .string old (.str s) (.string s)
  | strOfInt (old : GoVal) (n : Int) : Stored .string old (.int n) (.string (itoa n))
  | strOfOther {old : GoVal} {v : Bencode} : IsContainer v → Stored .string old v (.string v.toText)
  | int {bits : Nat} {old : GoVal} {v : Bencode} {n : Int} : GivesInt v n → -2 ^ (bits - 1) ≤ n → n < 2 ^ (bits - 1) →
      Stored (.int bits) old v (.int n)
  | uint {bits : Nat} {old : GoVal} {v : Bencode} {n : Nat} : GivesNat v n → n < 2 ^ bits → Stored (.uint bits) old v (.uint n)
  | bytesOfStr (old : GoVal) (s : Bytes) : Stored (.slice (.uint 8)) old (.str s) (.bytes s)
  | bytesOfInt (old : GoVal) (n : Int) : Stored (.slice (.uint 8)) old (.int n) (.bytes (itoa n))
  | bytesOfOther {old : GoVal} {v : Bencode} {b : Bytes} : IsContainer v → Denotes b v → Stored (.slice (.uint 8)) old v (.bytes b)
  | slice {t : Ty} {old : GoVal} {p : Bool} {vs : List Bencode} {raw : Bytes} {xs : List GoVal} : t ≠ .uint 8 →
      StoredSeq t vs xs → Stored (.slice t) old (.list p vs raw) (.slice xs)
  | struct {fs : List ((Bytes × Bytes × Bool) × Ty)} {olds : List GoVal} {v : Bencode} {xs : List GoVal} :
      (∃ p kvs raw, v = .dict p kvs raw) → StoredFields fs olds v xs → Stored (.struct fs) (.struct olds) v (.struct xs)
  | map {t : Ty} {old : GoVal} {p : Bool} {kvs : List (Bytes × Bencode)} {raw : Bytes} {m : List (Bytes × GoVal)} (stringKey : Bool) :
      (stringKey = true ∨ kvs = []) → StoredEntries t kvs m → Stored (.map stringKey t) old (.dict p kvs raw) (.map m)
  | ptrNil {t : Ty} {v : Bencode} {x : GoVal} : NotPointer t → Stored t (zero t) v x → Stored (.ptr t) (.ptr none) v (.ptr (some x))
  | ptr {t : Ty} {o : GoVal} {v : Bencode} {x : GoVal} : NotPointer t → Stored t o v x →
      Stored (.ptr t) (.ptr (some o)) v (.ptr (some x))
/-- The elements of a list, in the order of the document; each variable is new. -/
inductive StoredSeq : Ty → List Bencode → List GoVal → Prop
  | nil (t : Ty) : StoredSeq t [] []
  | cons {t : Ty} {v : Bencode} {x : GoVal} {vs : List Bencode} {xs : List GoVal} : Stored t (zero t) v x → StoredSeq t vs xs →
      StoredSeq t (v :: vs) (x :: xs)
/-- The entries of a dictionary under their keys; each variable is new. -/
inductive StoredEntries : Ty → List (Bytes × Bencode) → List (Bytes × GoVal) → Prop
  | nil (t : Ty) : StoredEntries t [] []
  | cons {t : Ty} {k : Bytes} {v : Bencode} {x : GoVal} {kvs : List (Bytes × Bencode)} {m : List (Bytes × GoVal)} :
      Stored t (zero t) v x → StoredEntries t kvs m → StoredEntries t ((k, v) :: kvs) ((k, x) :: m)
/-- The fields of a struct: unexported and untagged ones are kept, and so are optional ones without an entry; the others
take the entry their tag names. -/
inductive StoredFields : List ((Bytes × Bytes × Bool) × Ty) → List GoVal → Bencode → List GoVal → Prop
  | nil (v : Bencode) : StoredFields [] [] v []
  | skip {f : (Bytes × Bytes × Bool) × Ty} {fs : List ((Bytes × Bytes × Bool) × Ty)} {o : GoVal} {olds : List GoVal} {v : Bencode}
      {xs : List GoVal} : ¬ Active f → StoredFields fs olds v xs → StoredFields (f :: fs) (o :: olds) v (o :: xs)
  | absent {f : (Bytes × Bytes × Bool) × Ty} {fs : List ((Bytes × Bytes × Bool) × Ty)} {o : GoVal} {olds : List GoVal} {v : Bencode}
      {xs : List GoVal} {key : Bytes} : Active f → TagNames f.1.2.1 key → TagOptional f.1.2.1 → LacksKey v key →
      StoredFields fs olds v xs → StoredFields (f :: fs) (o :: olds) v (o :: xs)
  | present {f : (Bytes × Bytes × Bool) × Ty} {fs : List ((Bytes × Bytes × Bool) × Ty)} {o x : GoVal} {olds : List GoVal} {v w : Bencode}
      {xs : List GoVal} {key : Bytes} : Active f → TagNames f.1.2.1 key → HasEntry v key w → Stored f.2 o w x →
      StoredFields fs olds v xs → StoredFields (f :: fs) (o :: olds) v (x :: xs)
end

/-! The zero value of a type, as the Go specification has it: the empty string, the number 0, nil for slices, maps and pointers, and for a struct
the zero value of every field. (`map []` stands for nil and for empty maps.) -/
mutual
inductive IsZero : Ty → GoVal → Prop
  | string : IsZero .string (.string [])
  | int (b) : IsZero (.int b) (.int 0)
  | uint (b) : IsZero (.uint b) (.uint 0)
  | slice (t) : IsZero (.slice t) .nilSlice
  | map (k t) : IsZero (.map k t) (.map [])
  | ptr (t) : IsZero (.ptr t) (.ptr none)
  | other : IsZero .other .other
  | struct {fs xs} : AreZero fs xs → IsZero (.struct fs) (.struct xs)
inductive AreZero : List ((Bytes × Bytes × Bool) × Ty) → List GoVal → Prop
  | nil : AreZero [] []
  | cons {n t fs x xs} : IsZero t x → AreZero fs xs → AreZero ((n, t) :: fs) (x :: xs)
end

end Gotit.Spec
