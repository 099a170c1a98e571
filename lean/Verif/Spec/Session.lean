import Verif.Spec.Stream
import Verif.Model.PeerRun
/-
  What it means that a client understands a peer.
-/
namespace Gotit.Spec
open Gotit

/-- The messages a client acted on, in order. -/
def heard (log : List RunEv) : List Bytes := log.filterMap (fun | .received f => some f | _ => none)

/-- The messages `fs` are cut out of the bytes `wire`, in order and without overlap: each is preceded by four bytes that give its length. Bytes may
be skipped before the length. -/
inductive CutFrom : List Bytes → Bytes → Prop
  | nil {wire} : CutFrom [] wire
  | cons {skipped hdr f fs wire} : hdr.length = 4 → bigEndian hdr = f.length → CutFrom fs wire → CutFrom (f :: fs) (skipped ++ (hdr ++ (f ++ wire)))

/-- `tail` is the beginning of a message. -/
def Unfinished (tail : Bytes) : Prop :=
  ∀ hdr f more, hdr.length = 4 → bigEndian hdr = f.length → tail ≠ hdr ++ (f ++ more)

/-- The messages `fs` arrive, cut into segments in any way; no error happens in the middle of a message, except that the last message may stay
unfinished for ever. -/
inductive Unbroken : List Bytes → List Ev → Prop
  | last {fs wire tail segs} : Sent fs wire → Unfinished tail → segs.flatten = wire ++ tail → Unbroken fs (deliver segs)
  | closed {fs wire tail segs rest} : Sent fs wire → Unfinished tail → segs.flatten = wire ++ tail → Unbroken fs (deliver segs ++ .eof :: rest)
  | timeout {fs fs' wire segs rest} : Sent fs wire → segs.flatten = wire → Unbroken fs' rest → Unbroken (fs ++ fs') (deliver segs ++ .timeout :: rest)
  | fail {fs fs' wire segs rest} (e : String) : Sent fs wire → segs.flatten = wire → Unbroken fs' rest → Unbroken (fs ++ fs') (deliver segs ++ .fail e :: rest)

end Gotit.Spec
