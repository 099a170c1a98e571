import Verif.Model.World
/-
  C107: verified data cannot crash the writer.
-/
namespace Gotit.Spec
open Gotit

/-- C107: whatever torrent was opened and whatever the peers send, the writer never panics. -/
def WriterSafe : Prop :=
  ∀ (sha1 : Bytes → Bytes) (os : Os) (mi : Metainfo) (root : Bytes) (disk disk' : Disk) (t : Torrent) (W : World),
    newTorrent sha1 os mi root disk = (.ok t, disk') → World.Reachable sha1 t (newPeer t) disk' W → W.dead = false

/-- A metainfo whose numbers can be measured in bytes: no file has a negative length, and every place in a piece that a message can name is
a number of 63 bits. (A message names a place in a piece with 32 bits.) -/
structure Measured (mi : Metainfo) : Prop where
  files : ∀ f ∈ mi.files, 0 ≤ f.length ∧ f.length < 2 ^ 63
  pieceLength : 0 ≤ mi.pieceLength
  places : (mi.pieces.length / 20 : Nat) * mi.pieceLength + 2 ^ 32 ≤ 2 ^ 63

end Gotit.Spec
