import Verif.Model.Outgoing
import Verif.Spec.Stream
/-
  The other side of a connection, taking messages out of the bytes that arrive.
-/
namespace Gotit.Spec
open Gotit

/-- No message is complete yet. -/
def Incomplete (w : Bytes) : Prop := w.length < 4 ∨ w.length < 4 + bigEndian (w.take 4)

/-- From the bytes `w` the other side has taken the messages `hs`, and now it waits for more. -/
def Hears (w : Bytes) (hs : List Heard) : Prop :=
  ∃ bodies whole rest, w = whole ++ rest ∧ Sent bodies whole ∧ Incomplete rest ∧ hs = bodies.map hear

/-- The messages whose sending succeeded. -/
def said (log : List RunEv) : List Heard :=
  log.filterMap fun
    | .sent m => some (hearWire m.wire)
    | _ => none

end Gotit.Spec
