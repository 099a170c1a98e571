import Verif.Model.Files
import Verif.Spec.Files
/-
  The true content of a torrent.
-/
namespace Gotit.Spec
open Gotit

/-- Piece `i` of the content. -/
def pieceOf (content : Bytes) (pieceLength i : Nat) : Bytes := (content.drop (i * pieceLength)).take pieceLength

/-- The torrent's hashes are those of `content`. -/
structure ContentOf (sha1 : Bytes → Bytes) (t : Torrent) (content : Bytes) (pl : Nat) : Prop where
  pieceLength : t.pieceLength = pl
  positive : 0 < pl
  size : content.length = total (extents t)
  bound : content.length + pl < 2 ^ 63
  hashes : ∀ i p, t.pieces[i]? = some p → i * pl < 2 ^ 63 ∧ p.sha1 = sha1 (pieceOf content pl i)

/-- Every stored byte is the old one or the right one. -/
def OldOrRight (content old new : Bytes) : Prop :=
  new.length = content.length ∧ ∀ i, i < content.length → new[i]? = old[i]? ∨ new[i]? = content[i]?

end Gotit.Spec
