import Verif.Spec.Content
/-
  Which of several messages decides a byte of the files.
-/
namespace Gotit.Spec
open Gotit

/-- Piece `m.index`, put down at the offset the message names, lies over position `j`. -/
def LiesOver (content : Bytes) (pl j : Nat) (m : PeerMessage) : Prop :=
  m.index * pl + m.offset ≤ j ∧ j < m.index * pl + m.offset + (pieceOf content pl m.index).length

instance (content : Bytes) (pl j : Nat) (m : PeerMessage) : Decidable (LiesOver content pl j m) := by
  unfold LiesOver; exact inferInstance

/-- The last of the messages that lies over position `j`. -/
def lastOver (content : Bytes) (pl j : Nat) (ms : List PeerMessage) : Option PeerMessage :=
  (ms.filter (fun m => decide (LiesOver content pl j m))).getLast?

end Gotit.Spec
