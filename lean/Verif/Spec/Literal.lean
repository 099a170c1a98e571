import Verif.Spec.Bencode
/-
  Which texts are integers for Go's `strconv` with base 0: the integer literals of the Go language.
-/
namespace Gotit.Spec
open Gotit

/-- `c` is a digit in the given base, with the value `d`. -/
inductive IsDigitIn (base : Nat) : UInt8 → Nat → Prop
  | num (c : UInt8) : 48 ≤ c.toNat → c.toNat ≤ 57 → c.toNat - 48 < base → IsDigitIn base c (c.toNat - 48)
  | lower (c : UInt8) : 97 ≤ c.toNat → c.toNat ≤ 122 → c.toNat - 87 < base → IsDigitIn base c (c.toNat - 87)
  | upper (c : UInt8) : 65 ≤ c.toNat → c.toNat ≤ 90 → c.toNat - 55 < base → IsDigitIn base c (c.toNat - 55)

/-- Digits (at least one), with single underscores between some of them; `ds` are their values. -/
inductive DigitRun (base : Nat) : Bytes → List Nat → Prop
  | one {c : UInt8} {d : Nat} : IsDigitIn base c d → DigitRun base [c] [d]
  | next {c : UInt8} {d : Nat} {s : Bytes} {ds : List Nat} : IsDigitIn base c d → DigitRun base s ds → DigitRun base (c :: s) (d :: ds)
  | under {c : UInt8} {d : Nat} {s : Bytes} {ds : List Nat} : IsDigitIn base c d → DigitRun base s ds →
      DigitRun base (c :: 95 :: s) (d :: ds)

/-- The number written with the digits `ds`. -/
def digitsValue (base : Nat) (ds : List Nat) : Nat := ds.foldl (fun n d => n * base + d) 0

/-- The letter after the leading 0 that selects a base: b or B, o or O, x or X. -/
def BaseLetter (c : UInt8) (base : Nat) : Prop :=
  ((c = 98 ∨ c = 66) ∧ base = 2) ∨ ((c = 111 ∨ c = 79) ∧ base = 8) ∨ ((c = 120 ∨ c = 88) ∧ base = 16)

/-- An integer literal of Go: decimal, or with a leading 0 octal, or with a base letter after the 0; underscores between digits and
after the base. -/
inductive Literal : Bytes → Nat → Prop
  | zero : Literal [48] 0
  | decimal {s : Bytes} {ds : List Nat} : DigitRun 10 s ds → s.head? ≠ some 48 → Literal s (digitsValue 10 ds)
  | octal {s : Bytes} {ds : List Nat} : DigitRun 8 s ds → Literal (48 :: s) (digitsValue 8 ds)
  | octalUnder {s : Bytes} {ds : List Nat} : DigitRun 8 s ds → Literal (48 :: 95 :: s) (digitsValue 8 ds)
  | based {c : UInt8} {base : Nat} {s : Bytes} {ds : List Nat} : BaseLetter c base → DigitRun base s ds →
      Literal (48 :: c :: s) (digitsValue base ds)
  | basedUnder {c : UInt8} {base : Nat} {s : Bytes} {ds : List Nat} : BaseLetter c base → DigitRun base s ds →
      Literal (48 :: c :: 95 :: s) (digitsValue base ds)

/-- A literal with an optional sign. -/
inductive SignedLiteral : Bytes → Int → Prop
  | plain {s : Bytes} {n : Nat} : Literal s n → SignedLiteral s n
  | plus {s : Bytes} {n : Nat} : Literal s n → SignedLiteral (43 :: s) n
  | minus {s : Bytes} {n : Nat} : Literal s n → SignedLiteral (45 :: s) (-n)

/-- The element gives a number: it is an integer, or a string that is a literal with an optional sign. -/
inductive GivesInt : Bencode → Int → Prop
  | int (n : Int) : GivesInt (.int n) n
  | str {s : Bytes} {n : Int} : SignedLiteral s n → GivesInt (.str s) n

/-- The element gives a natural number: it is an integer that is not negative, or a string that is a literal without sign. -/
inductive GivesNat : Bencode → Nat → Prop
  | int (n : Nat) : GivesNat (.int n) n
  | str {s : Bytes} {n : Nat} : Literal s n → GivesNat (.str s) n

end Gotit.Spec
