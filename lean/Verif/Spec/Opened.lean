import Verif.Model.Torrent
/-
  C36, C38, C39, C40: the size of what a metainfo describes, and the number of its pieces.
-/
namespace Gotit.Spec
open Gotit

/-- The number of bytes a metainfo describes: the length of the single file, or that of all files together. -/
def contentSize (m : Metainfo) : Int :=
  if m.infoLength = 0 then (m.files.map (·.length)).sum else m.infoLength

/-- A metainfo whose pieces can be counted: no negative lengths, at least one byte, not more than 2^51 bytes. -/
structure Countable (m : Metainfo) : Prop where
  files : m.infoLength = 0 → ∀ f ∈ m.files, 0 ≤ f.length
  some : 0 < contentSize m
  bound : contentSize m ≤ 2 ^ 51
  pieces : 0 < m.pieceLength ∧ m.pieceLength ≤ 2 ^ 53

/-- `k` pieces of `m.pieceLength` bytes are just enough for the content. -/
def JustEnough (m : Metainfo) (k : Nat) : Prop :=
  (k - 1 : Int) * m.pieceLength < contentSize m ∧ contentSize m ≤ k * m.pieceLength

end Gotit.Spec
