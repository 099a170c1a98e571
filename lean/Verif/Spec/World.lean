import Verif.Model.World
import Verif.Spec.Wire
import Verif.Spec.Content
/-
  What a whole download promises, in terms of what the remote peers sent and what is on the disk.
-/
namespace Gotit.Spec
open Gotit

/-- A peer sent the block `d` for position `pos` of the torrent, in a piece message whose block has the SHA-1 the metainfo lists for
the piece. -/
def Checked (sha1 : Bytes → Bytes) (t : Torrent) (pl : Nat) (trace : List (Nat × RunEv)) (pos : Nat) (d : Bytes) : Prop :=
  ∃ i f index begin_ p, (i, RunEv.received f) ∈ trace ∧ hear f = .piece index begin_ d ∧ t.pieces[index]? = some p ∧ p.sha1 = sha1 d ∧
    pos = index * pl + begin_

/-- Every byte of `new` is that of `old` or comes from a block that is `Allowed` at its position. -/
def OldOrFrom (Allowed : Nat → Bytes → Prop) (old new : Bytes) : Prop :=
  new.length = old.length ∧ ∀ i, i < new.length →
    new[i]? = old[i]? ∨ ∃ pos d, Allowed pos d ∧ pos ≤ i ∧ i < pos + d.length ∧ new[i]? = d[i - pos]?

/-- The answers of `Next`, over all peers. -/
def piecesGiven (trace : List (Nat × RunEv)) : List Nat :=
  trace.filterMap fun | (_, .req (.next r)) => r | _ => none

/-- Peer `i` sends blocks only if a request was sent to it before. -/
def AnswersOnly (trace : List (Nat × RunEv)) : Prop :=
  ∀ i f index begin_ d a b, trace = a ++ (i, RunEv.received f) :: b → hear f = .piece index begin_ d →
    ∃ m, (i, RunEv.sent m) ∈ a ∧ m.type = 6

end Gotit.Spec
