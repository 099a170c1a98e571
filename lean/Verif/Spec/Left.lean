import Verif.Spec.Stored
/-
  What a call of Unmarshal that fails leaves in its target.
-/
namespace Gotit.Spec
open Gotit

/-- Neither a struct nor a pointer. -/
def FlatTy (t : Ty) : Prop := NotPointer t ∧ ∀ fs, t ≠ .struct fs

def NotDict (v : Bencode) : Prop := ∀ p kvs raw, v ≠ .dict p kvs raw

mutual
/-- `Left t old v x`: the element `v` could not be read into a variable of type `t` that held `old`; now it holds `x`. -/
inductive Left : Ty → GoVal → Bencode → GoVal → Prop
  | same {t : Ty} (old : GoVal) (v : Bencode) : FlatTy t → Left t old v old
  | notDict {fs : List ((Bytes × Bytes × Bool) × Ty)} {old : GoVal} {v : Bencode} : NotDict v → Left (.struct fs) old v old
  | struct {fs : List ((Bytes × Bytes × Bool) × Ty)} {olds : List GoVal} {v : Bencode} {xs : List GoVal} : ¬ NotDict v →
      LeftFields fs olds v xs → Left (.struct fs) (.struct olds) v (.struct xs)
  /-- a nil pointer points to something afterwards -/
  | ptrNil {t : Ty} {v : Bencode} {x : GoVal} : NotPointer t → Left t (zero t) v x → Left (.ptr t) (.ptr none) v (.ptr (some x))
  | ptr {t : Ty} {o : GoVal} {v : Bencode} {x : GoVal} : NotPointer t → Left t o v x → Left (.ptr t) (.ptr (some o)) v (.ptr (some x))
  | ptrPtrNil {t : Ty} {v : Bencode} : Left (.ptr (.ptr t)) (.ptr none) v (.ptr (some (.ptr none)))
  | ptrPtr {t : Ty} {o : GoVal} {v : Bencode} : Left (.ptr (.ptr t)) (.ptr (some o)) v (.ptr (some o))
/-- The fields of a struct: up to one field everything is stored, that one fails, and the later ones are as they were. -/
inductive LeftFields : List ((Bytes × Bytes × Bool) × Ty) → List GoVal → Bencode → List GoVal → Prop
  | notDict {f : (Bytes × Bytes × Bool) × Ty} {fs : List ((Bytes × Bytes × Bool) × Ty)} {olds : List GoVal} {v : Bencode} :
      Active f → NotDict v → LeftFields (f :: fs) olds v olds
  | missing {f : (Bytes × Bytes × Bool) × Ty} {fs : List ((Bytes × Bytes × Bool) × Ty)} {olds : List GoVal} {v : Bencode} {key : Bytes} :
      Active f → TagNames f.1.2.1 key → ¬ TagOptional f.1.2.1 → LacksKey v key → LeftFields (f :: fs) olds v olds
  | wrong {f : (Bytes × Bytes × Bool) × Ty} {fs : List ((Bytes × Bytes × Bool) × Ty)} {o x : GoVal} {olds : List GoVal} {v w : Bencode}
      {key : Bytes} : Active f → TagNames f.1.2.1 key → HasEntry v key w → (∀ y, ¬ Stored f.2 o w y) → Left f.2 o w x →
      LeftFields (f :: fs) (o :: olds) v (x :: olds)
  | skip {f : (Bytes × Bytes × Bool) × Ty} {fs : List ((Bytes × Bytes × Bool) × Ty)} {o : GoVal} {olds : List GoVal} {v : Bencode}
      {xs : List GoVal} : ¬ Active f → LeftFields fs olds v xs → LeftFields (f :: fs) (o :: olds) v (o :: xs)
  | absent {f : (Bytes × Bytes × Bool) × Ty} {fs : List ((Bytes × Bytes × Bool) × Ty)} {o : GoVal} {olds : List GoVal} {v : Bencode}
      {xs : List GoVal} {key : Bytes} : Active f → TagNames f.1.2.1 key → TagOptional f.1.2.1 → LacksKey v key →
      LeftFields fs olds v xs → LeftFields (f :: fs) (o :: olds) v (o :: xs)
  | present {f : (Bytes × Bytes × Bool) × Ty} {fs : List ((Bytes × Bytes × Bool) × Ty)} {o x : GoVal} {olds : List GoVal} {v w : Bencode}
      {xs : List GoVal} {key : Bytes} : Active f → TagNames f.1.2.1 key → HasEntry v key w → Stored f.2 o w x →
      LeftFields fs olds v xs → LeftFields (f :: fs) (o :: olds) v (x :: xs)
end

end Gotit.Spec
