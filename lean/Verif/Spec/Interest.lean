import Verif.Model.PeerRun
import Verif.Spec.Wire
/-
  Interest, as the other side of a connection sees it (BEP 3: a connection starts out not interested; message 2 is interested, message 3 not
  interested).
-/
namespace Gotit.Spec
open Gotit

/-- Whether the other side takes the client to be interested. -/
def takenInterested (log : List RunEv) : Bool :=
  log.foldl (fun b e => match e with
    | .sent m => match hearWire m.wire with
      | .signal id => if id = 2 then true else if id = 3 then false else b
      | _ => b
    | _ => b) false

/-- The other side has said that it has a piece. -/
def Offers (log : List RunEv) : Prop :=
  ∃ f, RunEv.received f ∈ log ∧ ((∃ bits i, hear f = .bitfield bits ∧ wireBit bits i = true) ∨ ∃ i, hear f = .have i)

end Gotit.Spec
