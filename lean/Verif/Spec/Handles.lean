import Verif.Model.Handles
/-
  What it means that something is still open: it was opened more often than it was closed.
-/
namespace Gotit.Spec

/-- Open after these calls. -/
def LeftOpen (calls : List HandleEv) (h : Held) : Prop := calls.count (.closed h) < calls.count (.opened h)

/-- Nothing is open after these calls, and nothing was closed that was not open. -/
def Settled (calls : List HandleEv) : Prop :=
  (∀ h, calls.count (.opened h) = calls.count (.closed h)) ∧
  ∀ pre h post, calls = pre ++ .closed h :: post → LeftOpen pre h

/-- The reply as the rest of the program sees it. -/
def replyOf : HttpDone → HttpReply
  | .error e => .fail e
  | .ok (_, .error e) => .fail e
  | .ok (s, .ok b) => .reply s b

/-- Those files of a list that can be created before the first that cannot. -/
inductive CreatedBefore (os : Os) : (all made : List Bytes) → Prop
  | all {ps} : (∀ p ∈ ps, os.createError p = none) → CreatedBefore os ps ps
  | stopped {made p rest} : (∀ q ∈ made, os.createError q = none) → os.createError p ≠ none → CreatedBefore os (made ++ p :: rest) made

end Gotit.Spec
