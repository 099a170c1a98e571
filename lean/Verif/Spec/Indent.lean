import Verif.Spec.Bencode
/-
  C95: how a value is laid out when it is printed, as a list of lines with their depth.
-/
namespace Gotit.Spec
open Gotit

/-- A line of printed text: how deep it stands, and what it says. -/
abbrev Line := Nat × Bytes

/-- The lines of what is inside something stand one deeper. -/
def deeper (ls : List Line) : List Line := ls.map (fun l => (l.1 + 1, l.2))

/-- A comma after the last line. -/
def comma : List Line → List Line
  | [] => []
  | [l] => [(l.1, l.2 ++ [44])]
  | l :: l' :: ls => l :: comma (l' :: ls)

/-- `key: ` in front of the first line. -/
def labelled (k : Bytes) : List Line → List Line
  | [] => []
  | l :: ls => (l.1, k ++ [58, 32] ++ l.2) :: ls

/-- Brackets around lines: on lines of their own, unless there is nothing between them. -/
def bracket (o c : UInt8) (inside : List Line) : List Line :=
  if inside = [] then [(0, [o, c])] else (0, [o]) :: inside ++ [(0, [c])]

mutual
/-- The lines of a value: one for an integer or a string; for a list or dictionary the brackets, and between them, one deeper, the
lines of the elements, each followed by a comma. -/
def linesOf : Bencode → List Line
  | .nil => [(0, [])]
  | .int n => [(0, itoa n)]
  | .str s => [(0, s)]
  | .list _ vs _ => bracket 91 93 (deeper (itemLines vs))
  | .dict _ kvs _ => bracket 123 125 (deeper (entryLines kvs))
/-- Nil elements are left out. -/
def itemLines : List Bencode → List Line
  | [] => []
  | .nil :: vs => itemLines vs
  | v :: vs => comma (linesOf v) ++ itemLines vs
def entryLines : List (Bytes × Bencode) → List Line
  | [] => []
  | (_, .nil) :: kvs => entryLines kvs
  | (k, v) :: kvs => comma (labelled k (linesOf v)) ++ entryLines kvs
end

/-- The first line one deeper, the others where they are. -/
def firstDeeper : List Line → List Line
  | [] => []
  | l :: ls => (l.1 + 1, l.2) :: ls

mutual
/-- The lines of a value when nested elements forget how deep they stand: only the first line of an element is put deeper. -/
def flatLines : Bencode → List Line
  | .nil => [(0, [])]
  | .int n => [(0, itoa n)]
  | .str s => [(0, s)]
  | .list _ vs _ => bracket 91 93 (flatItems vs)
  | .dict _ kvs _ => bracket 123 125 (flatEntries kvs)
def flatItems : List Bencode → List Line
  | [] => []
  | .nil :: vs => flatItems vs
  | v :: vs => firstDeeper (comma (flatLines v)) ++ flatItems vs
def flatEntries : List (Bytes × Bencode) → List Line
  | [] => []
  | (_, .nil) :: kvs => flatEntries kvs
  | (k, v) :: kvs => firstDeeper (comma (labelled k (flatLines v))) ++ flatEntries kvs
end

/-- The text of lines: a tab for each step of depth, a line break between lines. `n` is added to every depth. -/
def pageOf (n : Nat) : List Line → Bytes
  | [] => []
  | [l] => List.replicate (n + l.1) 9 ++ l.2
  | l :: l' :: ls => List.replicate (n + l.1) 9 ++ l.2 ++ 10 :: pageOf n (l' :: ls)

/-- A list or dictionary obtained from Parse that has at least one element. -/
def ParsedNonEmpty : Bencode → Prop
  | .list ptr vs _ => ptr = true ∧ ∃ v ∈ vs, v ≠ .nil
  | .dict ptr kvs _ => ptr = true ∧ ∃ e ∈ kvs, e.2 ≠ .nil
  | _ => False

/-- Inside a list or dictionary there is one that came from Parse and is not empty. -/
def ParsedInside : Bencode → Prop
  | .list _ vs _ => ∃ v ∈ vs, ∃ c, Sub c v ∧ ParsedNonEmpty c
  | .dict _ kvs _ => ∃ e ∈ kvs, ∃ c, Sub c e.2 ∧ ParsedNonEmpty c
  | _ => False

end Gotit.Spec
