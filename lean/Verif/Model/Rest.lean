import Verif.Model.Files
import Verif.Model.Describe
/-
  The small functions of pkg/torrent and pkg/util that nothing else in the program calls: Piece.String and Piece.Index (piece.go:26-32),
  StringSet.Contains (set.go:24-27), Torrent.Close (torrent.go:251-258).
-/
namespace Gotit

/-- `Piece.Index` (piece.go:26-28). -/
def Piece.getIndex (p : Piece) : Nat := p.index

/-- `Piece.String` (piece.go:30-32). -/
def Piece.string (p : Piece) : Bytes := ascii "[" ++ itoa p.index ++ ascii ":" ++ base64Url p.sha1 ++ ascii "]"

/-- `Contains` (set.go:24-27). -/
def StringSet.has (s : StringSet) (x : Bytes) : Bool := List.contains s x

/-- What can be done with a set: `Add`, `AddAll` with a set of the given elements, `Contains`. -/
inductive SetOp where
  | add (x : Bytes)
  | addAll (xs : List Bytes)
  | contains (x : Bytes)

/-- One call on a set (set.go:9-27) and what it returns; `AddAll` returns nothing. -/
def StringSet.call (s : StringSet) : SetOp → StringSet × Option Bool
  | .add x => ((s.add x).1, some (s.add x).2)
  | .addAll xs => (s.addAll xs, none)
  | .contains x => (s, some (s.has x))

/-- Calls one after the other on a set made by `NewStringSet` (set.go:5-7). -/
def StringSet.calls : StringSet → List SetOp → List (Option Bool)
  | _, [] => []
  | s, op :: ops => (s.call op).2 :: StringSet.calls (s.call op).1 ops

/-- `multierr.Append` on errors that are collections: nil is the empty one. -/
def multierrAppend (left right : List String) : List String := left ++ right

/-- `Torrent.Close` (torrent.go:251-258): `close` is what `f.Close()` does with each file; an error is a list of one. Returns the combined error
and the files `Close` was called on, in order. -/
def Torrent.close (closeFile : Bytes → Option String) (t : Torrent) : List String × List Bytes :=
  t.osFiles.foldl (fun acc f => (multierrAppend acc.1 (closeFile f).toList, acc.2 ++ [f])) ([], [])

end Gotit
