import Verif.Model.PeerRun
/-
  What the log of a `Run` says was received and given to the writer.
-/
namespace Gotit.Spec
open Gotit

/-- The frames read, in order. -/
def framesRead (log : List RunEv) : List Bytes := log.filterMap fun | .received f => some f | _ => none

/-- The messages the writer took, in order. -/
def givenToWriter (log : List RunEv) : List PeerMessage := log.filterMap fun | .accepted m => some m | _ => none

/-- The message the writer has not taken yet. -/
def offered (s : Run) : List PeerMessage := match s.loc with | .deliver m _ => [m] | _ => []

end Gotit.Spec
