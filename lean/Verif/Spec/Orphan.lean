import Verif.Model.World
/-
  What can still happen in a download.
-/
namespace Gotit.Spec
open Gotit

/-- `W'` comes after `W`: any number of steps of the program, the remote peers, the disk and the caller doing as they like. -/
inductive Continues (sha1 : Bytes → Bytes) (t : Torrent) (p0 : Peer) : World → World → Prop
  | here {W} : Continues sha1 t p0 W W
  | step {W W' W''} : Continues sha1 t p0 W W' → World.Step sha1 t p0 W' W'' → Continues sha1 t p0 W W''

/-- `Next` has given piece `j` to a peer of the retry queue `q`. -/
def Owns (W : World) (q j : Nat) : Prop := ∃ i r, W.peers[i]? = some (q, r) ∧ (i, RunEv.req (.next (some j))) ∈ W.trace

end Gotit.Spec
