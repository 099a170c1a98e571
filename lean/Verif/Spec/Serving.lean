import Verif.Model.World
import Verif.Spec.Wire
/-
  C96: what the client gives to other peers.
-/
namespace Gotit.Spec
open Gotit

/-- What peer `i` hears from the client after the handshake, in order. -/
def toldTo (i : Nat) (trace : List (Nat × RunEv)) : List Heard :=
  trace.filterMap fun x => match x.2 with
    | .sent m => if x.1 = i then some (hearWire m.wire) else none
    | _ => none

/-- What peer `i` said to the client. -/
def saidBy (i : Nat) (trace : List (Nat × RunEv)) : List Heard :=
  trace.filterMap fun x => match x.2 with
    | .received f => if x.1 = i then some (hear f) else none
    | _ => none

/-- The client has let the peer download (unchoke), has given it a block, or has told it about a piece it could ask for. -/
def Served (i : Nat) (trace : List (Nat × RunEv)) : Prop :=
  ∃ h ∈ toldTo i trace, h = .signal 1 ∨ (∃ index begin_ d, h = .piece index begin_ d) ∨ (∃ index, h = .have index) ∨ ∃ b, h = .bitfield b

end Gotit.Spec
