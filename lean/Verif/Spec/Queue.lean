import Verif.Model.PiecesQueue
/-
  What the queue holds after a history of completed calls.
-/
namespace Gotit.Spec
open Gotit

/-- The requests put in and not yet handed out, the newest last; the answers are not looked at. -/
def held (h : List (QueueOp × Option PeerMessage)) : List PeerMessage :=
  h.foldl (fun s x => match x.1 with
    | .requestFailed m => s ++ [m]
    | .failedPieceMessage => s.dropLast) []

/-- The requests put in. -/
def putIn (h : List (QueueOp × Option PeerMessage)) : List PeerMessage :=
  h.filterMap (fun x => match x.1 with | .requestFailed m => some m | .failedPieceMessage => none)

/-- The requests handed out. -/
def takenOut (h : List (QueueOp × Option PeerMessage)) : List PeerMessage := h.filterMap (·.2)

end Gotit.Spec
