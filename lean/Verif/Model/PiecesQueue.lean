import Verif.Model.Mutex
import Verif.Model.PeerMessage
/-
  pkg/torrent/pieces_queue.go
-/
namespace Gotit

/-- The two methods. -/
inductive QueueOp where
  | requestFailed (m : PeerMessage)
  | failedPieceMessage

/-- Local state between the operations of a body. -/
inductive QueueLoc where
  | start
  /-- `append` has read the slice, the field is not yet assigned (line 23) -/
  | appended (s : List PeerMessage)
  /-- `req` has been read (line 34) -/
  | read (req : PeerMessage)

/-- `RequestFailed` (pieces_queue.go:21-25) and `FailedPieceMessage` (pieces_queue.go:27-37). The last element of the list
is the top of the stack. `NewPiecesQueue` (14-19) starts with an empty list. -/
def queueMethods : Methods (List PeerMessage) QueueOp QueueLoc (Option PeerMessage) where
  start := fun _ => .start
  step := fun op l s =>
    match op, l with
    | .requestFailed m, .start => (s, .inl (.appended (s ++ [m])))
    | .requestFailed _, .appended s' => (s', .inr none)
    | .failedPieceMessage, .start =>
      match s.getLast? with
      | none => (s, .inr none)
      | some req => (s, .inl (.read req))
    | .failedPieceMessage, .read req => (s.dropLast, .inr (some req))
    | _, _ => (s, .inr none)

end Gotit
