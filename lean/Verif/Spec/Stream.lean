import Verif.Model.Go
import Verif.Model.Net
import Verif.Spec.Wire
/-
  What a peer puts on a TCP stream, and how the network may deliver it.
-/
namespace Gotit.Spec
open Gotit

/-- `wire` is the bytes of the messages `bodies`, one frame after the other. -/
inductive Sent : List Bytes → Bytes → Prop
  | nil : Sent [] []
  | cons {body rest hdr wire} : hdr.length = 4 → bigEndian hdr = body.length → Sent rest wire →
      Sent (body :: rest) (hdr ++ (body ++ wire))

/-- The network delivers `segs`, segment by segment, without error. -/
def deliver (segs : List Bytes) : List Ev := segs.map Ev.data

/-- The bytes that arrive in a list of events. -/
def arriving (evs : List Ev) : Bytes := evs.flatMap (fun | .data d => d | _ => [])

/-- Number of read errors still to come. -/
def errors (evs : List Ev) : List Ev := evs.filter (fun | .data _ => false | _ => true)

/-- Calling a reader `n` times in a row. -/
def callTimes (f : List Ev → Res Bytes × List Ev) : Nat → List Ev → List (Res Bytes) × List Ev
  | 0, evs => ([], evs)
  | n + 1, evs =>
    let (r, evs') := f evs
    let (rs, evs'') := callTimes f n evs'
    (r :: rs, evs'')

end Gotit.Spec
