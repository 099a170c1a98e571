import Verif.Model.Go
/-
  path/filepath on Unix: Clean and Join, written over path components instead of a byte buffer. The result is the same
  (documented behaviour of Clean: multiple slashes, `.`, inner `..`, and `/..` at the root are eliminated).
-/
namespace Gotit

/-- The byte `/`. -/
def slash : UInt8 := 47
/-- The element `.`. -/
def dot : Bytes := ascii "."
/-- The element `..`. -/
def dotdot : Bytes := ascii ".."

/-- The elements between slashes. -/
def splitSlash : Bytes → List Bytes
  | [] => [[]]
  | c :: cs =>
    if c = slash then [] :: splitSlash cs
    else match splitSlash cs with
      | [] => [[c]]
      | h :: t => (c :: h) :: t

/-- Elements joined with slashes. -/
def joinSlash : List Bytes → Bytes
  | [] => []
  | [c] => c
  | c :: cs => c ++ slash :: joinSlash cs

/-- `filepath.IsAbs`. -/
def isAbs (p : Bytes) : Bool := p.head? == some slash

/-- One element in `filepath.Clean`; `st` holds the elements so far, the last one first. -/
def cleanStep (abs : Bool) (st : List Bytes) (c : Bytes) : List Bytes :=
  if c = [] ∨ c = dot then st
  else if c = dotdot then
    match st with
    | [] => if abs then [] else [dotdot]
    | t :: rest => if t = dotdot then dotdot :: st else rest
  else c :: st

/-- The elements of `filepath.Clean(p)`. -/
def cleanElems (p : Bytes) : List Bytes := ((splitSlash p).foldl (cleanStep (isAbs p)) []).reverse

/-- `filepath.Clean`. -/
def clean (p : Bytes) : Bytes :=
  match cleanElems p with
  | [] => if isAbs p then [slash] else dot
  | es => if isAbs p then slash :: joinSlash es else joinSlash es

/-- `filepath.Join(a, b)`: leading empty elements are skipped. -/
def join (a b : Bytes) : Bytes :=
  if a ≠ [] then clean (a ++ slash :: b)
  else if b ≠ [] then clean b
  else []

end Gotit
