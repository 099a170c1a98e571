import Verif.Spec.HttpTracker
/-
  C100: the event a tracker is told.
-/
namespace Gotit.Spec
open Gotit

/-- The values of the parameter `event` that a tracker finds in a URL; `none` if the query cannot be decoded. -/
def eventsIn (url : Bytes) : Option (List Bytes) :=
  match queryOf url with
  | none => none
  | some q => (formParams q).map fun ps => (ps.filter fun e => e.1 == ascii "event").map Prod.snd

/-- C100 for the requests to one tracker, in order (BEP 3): only the first successful announce says that the download starts; the
regular ones later have no event. `announced` are the rounds, each with the URLs requested in it. -/
def StartedOnce (announced : List (List Bytes)) : Prop :=
  ∀ i, 0 < i → ∀ urls, announced[i]? = some urls → ∀ u ∈ urls, eventsIn u ≠ some [ascii "started"]

end Gotit.Spec
