import Verif.Spec.Wire
import Verif.Spec.RunState
import Verif.Model.World
/-
  Which pieces a remote peer has said it has.
-/
namespace Gotit.Spec
open Gotit

/-- The events of peer `i` among those of a whole download. -/
def logOf (i : Nat) (trace : List (Nat × RunEv)) : List RunEv := trace.filterMap fun x => if x.1 = i then some x.2 else none

/-- The frames that peer `i` sent. -/
def framesOf (i : Nat) (trace : List (Nat × RunEv)) : List Bytes := framesRead (logOf i trace)

/-- The place in a bitfield where the program looks for piece `j`: the pieces of each group of 64 are taken in reverse order (see
C31). BEP 3 has `j` itself here. -/
def lookedUp (j : Nat) : Nat := 64 * (j / 64) + (63 - j % 64)

/-- Piece `j` is announced by the frames, if piece `j` is to be found at `place j` of a bitfield: a bitfield has its bit, or a have
message names it, or a block of it with the right hash came; and no bitfield came afterwards. -/
def Announced (place : Nat → Nat) (sha1 : Bytes → Bytes) (t : Torrent) (frames : List Bytes) (j : Nat) : Prop :=
  ∃ a f b, frames = a ++ f :: b ∧ (∀ g ∈ b, g.head? ≠ some 5) ∧
    ((∃ bits, hear f = .bitfield bits ∧ wireBit bits (place j) = true) ∨
     (∃ p, f = 4 :: p ∧ 4 ≤ p.length ∧ num4 p 0 = j) ∨
     (∃ begin_ d p, hear f = .piece j begin_ d ∧ t.pieces[j]? = some p ∧ p.sha1 = sha1 d))

/-- The peer as `NewPeer` makes it, but interested. `NewPeer` leaves the flag off and nothing ever sets it, so that no request is
ever sent (C52); what follows is about the requests that would be. -/
def willing (t : Torrent) : Peer := { newPeer t with clientInterested := true }

end Gotit.Spec
