import Verif.Spec.Path
import Verif.Model.Files
/-
  Path names that lead to something below the directory they are read in, whatever that directory is.
-/
namespace Gotit.Spec
open Gotit

/-- The depth reached by following path elements from depth `d`; `none` if the way leads above depth 0. -/
def depthAfter : Nat → List Bytes → Option Nat
  | d, [] => some d
  | d, c :: cs =>
    if c = [] ∨ c = ascii "." then depthAfter d cs
    else if c = ascii ".." then (if d = 0 then none else depthAfter (d - 1) cs)
    else depthAfter (d + 1) cs

/-- The way never leads above its start and ends below it. -/
def StaysBelow (p : Bytes) : Prop := ∃ d, depthAfter 0 (splitAt 47 p) = some (d + 1)

/-- The path under which the torrent's files are stored, relative to the download directory: the name, and for several files the
first element of the file's path below it. -/
def relativePaths (m : Metainfo) : List Bytes :=
  if m.infoLength = 0 then m.files.map (fun f => m.name ++ 47 :: f.path.headD []) else [m.name]

end Gotit.Spec
