import Verif.Spec.Canonical
/-
  Texts that need no normalising: what an encoder would have written itself.
-/
namespace Gotit.Spec
open Gotit

/-- A number as one writes it: at least one digit, and no leading zero. -/
def Minimal (ds : Bytes) : Prop := IsDigits ds ∧ ds ≠ [] ∧ (ds.head? = some 48 → ds = [48])

mutual
/-- `Plain b`: `b` is the text of an element in which every number is written without leading zeros and is at most
`maxNumber`, and in which no dictionary has a key twice. The order of the keys does not matter. -/
inductive Plain : Bytes → Prop where
  | int (ds : Bytes) : Minimal ds → decimal ds ≤ maxNumber → Plain (105 :: ds ++ [101])
  | str (ds s : Bytes) : Minimal ds → decimal ds = s.length → s.length ≤ maxNumber → Plain (ds ++ 58 :: s)
  | list (body : Bytes) : PlainSeq body → Plain (108 :: body ++ [101])
  | dict (body : Bytes) (ks : List Bytes) : PlainEntries body ks → ks.Nodup → Plain (100 :: body ++ [101])
/-- The concatenation of plain texts. -/
inductive PlainSeq : Bytes → Prop where
  | nil : PlainSeq []
  | cons (b bs : Bytes) : Plain b → PlainSeq bs → PlainSeq (b ++ bs)
/-- The concatenation of plain texts of keys (`ks`) and values. -/
inductive PlainEntries : Bytes → List Bytes → Prop where
  | nil : PlainEntries [] []
  | cons (ds k vb bs : Bytes) (ks : List Bytes) : Minimal ds → decimal ds = k.length → k.length ≤ maxNumber → Plain vb →
      PlainEntries bs ks → PlainEntries ((ds ++ 58 :: k) ++ (vb ++ bs)) (k :: ks)
end

end Gotit.Spec
