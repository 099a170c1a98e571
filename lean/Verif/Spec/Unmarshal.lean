import Verif.Model.Unmarshal
import Verif.Spec.Bencode
/-
  Vocabulary for the Unmarshal properties.
-/
namespace Gotit.Spec
open Gotit

/-- A field that takes part in unmarshalling: exported and tagged. -/
def Active (f : (Bytes × Bytes × Bool) × Ty) : Prop := f.1.2.2 = true ∧ f.1.2.1 ≠ []

/-- A tag names the key `key`: it is the key, or the key, a comma and options. -/
def TagNames (tag key : Bytes) : Prop := 44 ∉ key ∧ (tag = key ∨ ∃ options, tag = key ++ 44 :: options)

/-- A tag has the option "optional": the word stands after a comma and before another comma or the end. -/
def TagOptional (tag : Bytes) : Prop :=
  ∃ before, tag = before ++ 44 :: ascii "optional" ∨ ∃ after, tag = before ++ 44 :: (ascii "optional" ++ 44 :: after)

/-- A document that begins with a dictionary with the entries `es`. -/
def Document (data : Bytes) (es : List (Bytes × Bencode)) : Prop :=
  ∃ body rest, data = (100 :: body ++ [101]) ++ rest ∧ DenotesEntries body es

mutual
/-- Every map type inside has `string` keys. -/
def StringKeyed : Ty → Prop
  | .slice t => StringKeyed t
  | .struct fs => StringKeyedAll fs
  | .map k t => k = true ∧ StringKeyed t
  | .ptr t => StringKeyed t
  | _ => True
def StringKeyedAll : List ((Bytes × Bytes × Bool) × Ty) → Prop
  | [] => True
  | (_, t) :: fs => StringKeyed t ∧ StringKeyedAll fs
end

/-- A type whose values are set in one step: neither a struct nor a pointer. -/
def Atomic : Ty → Prop
  | .struct _ => False
  | .ptr _ => False
  | _ => True

end Gotit.Spec
