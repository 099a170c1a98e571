import Verif.Spec.Canonical
import Verif.Model.Unmarshal
/-
  C89: what a document determines of the value it is unmarshalled into.
-/
namespace Gotit.Spec
open Gotit

mutual
/-- There is no map in the type. -/
def NoMaps : Ty → Prop
  | .slice t => NoMaps t
  | .struct fs => NoMapsIn fs
  | .map _ _ => False
  | .ptr t => NoMaps t
  | _ => True
def NoMapsIn : List ((Bytes × Bytes × Bool) × Ty) → Prop
  | [] => True
  | (_, t) :: fs => NoMaps t ∧ NoMapsIn fs
end

/-- `InText t v x`: storing the element `v` into a variable of type `t` puts the text of `x` into a string. -/
inductive InText : Ty → Bencode → Bencode → Prop
  | string (v : Bencode) : InText .string v v
  | slice {t v x vs} (p : Bool) (raw : Bytes) : v ∈ vs → InText t v x → InText (.slice t) (.list p vs raw) x
  | struct {fs name tag t v x kvs} (p : Bool) (raw : Bytes) : ((name, tag, true), t) ∈ fs → tag ≠ [] → (tagKey tag, v) ∈ kvs → InText t v x →
      InText (.struct fs) (.dict p kvs raw) x
  | ptr {t v x} : InText t v x → InText (.ptr t) v x
  | map {t v x k kvs} (s p : Bool) (raw : Bytes) : (k, v) ∈ kvs → InText t v x → InText (.map s t) (.dict p kvs raw) x

mutual
/-- The value with every string in it replaced by its image. -/
def mapStrings (f : Bytes → Bytes) : GoVal → GoVal
  | .string s => .string (f s)
  | .slice vs => .slice (mapStringsAll f vs)
  | .struct vs => .struct (mapStringsAll f vs)
  | .map kvs => .map (mapStringsEntries f kvs)
  | .ptr (some v) => .ptr (some (mapStrings f v))
  | .ptr none => .ptr none
  | .int n => .int n
  | .uint n => .uint n
  | .nilSlice => .nilSlice
  | .bytes b => .bytes b
  | .other => .other
def mapStringsAll (f : Bytes → Bytes) : List GoVal → List GoVal
  | [] => []
  | v :: vs => mapStrings f v :: mapStringsAll f vs
def mapStringsEntries (f : Bytes → Bytes) : List (Bytes × GoVal) → List (Bytes × GoVal)
  | [] => []
  | (k, v) :: kvs => (k, mapStrings f v) :: mapStringsEntries f kvs
end

/-- The value with every string blanked out. -/
def blankStrings : GoVal → GoVal := mapStrings (fun _ => [])

/-- Two Go values that cannot be told apart by someone who sees strings only through `f`: maps have no order. -/
inductive SameVal (f : Bytes → Bytes) : GoVal → GoVal → Prop
  | refl (v : GoVal) : SameVal f v v
  | trans {u v w : GoVal} : SameVal f u v → SameVal f v w → SameVal f u w
  | text {s s' : Bytes} : f s = f s' → SameVal f (.string s) (.string s')
  | map {kvs kvs' : List (Bytes × GoVal)} : kvs.Perm kvs' → SameVal f (.map kvs) (.map kvs')
  | inPtr {v w : GoVal} : SameVal f v w → SameVal f (.ptr (some v)) (.ptr (some w))
  | inSlice {v w : GoVal} (a b : List GoVal) : SameVal f v w → SameVal f (.slice (a ++ v :: b)) (.slice (a ++ w :: b))
  | inStruct {v w : GoVal} (a b : List GoVal) : SameVal f v w → SameVal f (.struct (a ++ v :: b)) (.struct (a ++ w :: b))
  | inMap {v w : GoVal} (a b : List (Bytes × GoVal)) (k : Bytes) : SameVal f v w →
      SameVal f (.map (a ++ (k, v) :: b)) (.map (a ++ (k, w) :: b))

end Gotit.Spec
