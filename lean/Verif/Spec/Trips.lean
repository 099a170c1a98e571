import Verif.Spec.Stored
/-
  C12: the elements on which Unmarshal trips: something before was stored, and then a map whose keys are not strings gets a value.
-/
namespace Gotit.Spec
open Gotit

mutual
/-- `Trips t old v`: reading `v` into a variable of type `t` that holds `old` gets to the point where a value is to be put into a map whose
key type is not `string`. -/
inductive Trips : Ty → GoVal → Bencode → Prop
  | slice {t : Ty} {old : GoVal} {p : Bool} {vs : List Bencode} {raw : Bytes} : t ≠ .uint 8 → TripsSeq t vs → Trips (.slice t) old (.list p vs raw)
  | struct {fs : List ((Bytes × Bytes × Bool) × Ty)} {olds : List GoVal} {p : Bool} {kvs : List (Bytes × Bencode)} {raw : Bytes} :
      TripsFields fs olds (.dict p kvs raw) → Trips (.struct fs) (.struct olds) (.dict p kvs raw)
  | map {t : Ty} {sk : Bool} {old : GoVal} {p : Bool} {kvs : List (Bytes × Bencode)} {raw : Bytes} :
      TripsEntries sk t kvs → Trips (.map sk t) old (.dict p kvs raw)
  | ptrNil {t : Ty} {v : Bencode} : NotPointer t → Trips t (zero t) v → Trips (.ptr t) (.ptr none) v
  | ptr {t : Ty} {o : GoVal} {v : Bencode} : NotPointer t → Trips t o v → Trips (.ptr t) (.ptr (some o)) v
/-- The elements of a list, one after the other. -/
inductive TripsSeq : Ty → List Bencode → Prop
  | here {t : Ty} {v : Bencode} {vs : List Bencode} : Trips t (zero t) v → TripsSeq t (v :: vs)
  | later {t : Ty} {v : Bencode} {x : GoVal} {vs : List Bencode} : Stored t (zero t) v x → TripsSeq t vs → TripsSeq t (v :: vs)
/-- The entries of a dictionary, one after the other; the first value that can be stored is too much if the keys are not strings. -/
inductive TripsEntries : Bool → Ty → List (Bytes × Bencode) → Prop
  | key {t : Ty} {e : Bytes × Bencode} {x : GoVal} {es : List (Bytes × Bencode)} : Stored t (zero t) e.2 x → TripsEntries false t (e :: es)
  | here {sk : Bool} {t : Ty} {e : Bytes × Bencode} {es : List (Bytes × Bencode)} : Trips t (zero t) e.2 → TripsEntries sk t (e :: es)
  | later {t : Ty} {e : Bytes × Bencode} {x : GoVal} {es : List (Bytes × Bencode)} : Stored t (zero t) e.2 x → TripsEntries true t es →
      TripsEntries true t (e :: es)
/-- The fields of a struct, one after the other. -/
inductive TripsFields : List ((Bytes × Bytes × Bool) × Ty) → List GoVal → Bencode → Prop
  | skip {f : (Bytes × Bytes × Bool) × Ty} {fs : List ((Bytes × Bytes × Bool) × Ty)} {o : GoVal} {olds : List GoVal} {v : Bencode} :
      ¬ Active f → TripsFields fs olds v → TripsFields (f :: fs) (o :: olds) v
  | absent {f : (Bytes × Bytes × Bool) × Ty} {fs : List ((Bytes × Bytes × Bool) × Ty)} {o : GoVal} {olds : List GoVal} {v : Bencode}
      {key : Bytes} : Active f → TagNames f.1.2.1 key → TagOptional f.1.2.1 → LacksKey v key → TripsFields fs olds v →
      TripsFields (f :: fs) (o :: olds) v
  | here {f : (Bytes × Bytes × Bool) × Ty} {fs : List ((Bytes × Bytes × Bool) × Ty)} {o : GoVal} {olds : List GoVal} {v w : Bencode}
      {key : Bytes} : Active f → TagNames f.1.2.1 key → HasEntry v key w → Trips f.2 o w → TripsFields (f :: fs) (o :: olds) v
  | later {f : (Bytes × Bytes × Bool) × Ty} {fs : List ((Bytes × Bytes × Bool) × Ty)} {o x : GoVal} {olds : List GoVal} {v w : Bencode}
      {key : Bytes} : Active f → TagNames f.1.2.1 key → HasEntry v key w → Stored f.2 o w x → TripsFields fs olds v →
      TripsFields (f :: fs) (o :: olds) v
end

end Gotit.Spec
