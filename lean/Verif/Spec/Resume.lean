import Verif.Model.World
import Verif.Spec.Content
import Verif.Spec.Wire
/-
  What can still become of a download.
-/
namespace Gotit.Spec
open Gotit

/-- The program can get from one state to the other. -/
inductive Leads (sha1 : Bytes → Bytes) (t : Torrent) (p0 : Peer) (W : World) : World → Prop
  | refl : Leads sha1 t p0 W W
  | step {W' W''} : Leads sha1 t p0 W W' → World.Step sha1 t p0 W' W'' → Leads sha1 t p0 W W''

/-- All blocks heard began at offset 0, and those with the hash of a piece were that piece. -/
def HonestBlocks (sha1 : Bytes → Bytes) (content : Bytes) (pl : Nat) (trace : List (Nat × RunEv)) : Prop :=
  ∀ i f index b d, (i, RunEv.received f) ∈ trace → hear f = .piece index b d →
    b = 0 ∧ (sha1 d = sha1 (pieceOf content pl index) → d = pieceOf content pl index)

end Gotit.Spec
