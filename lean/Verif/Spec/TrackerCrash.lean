import Verif.Spec.Bencode
import Verif.Model.HttpTracker
/-
  Replies of trackers that end the program.
-/
namespace Gotit.Spec
open Gotit

/-- A reply that is taken for a success, whose body is read up to a string with a length that gotit takes for negative, or begins with an element that
is not a dictionary. -/
def DeadlyReply (r : HttpReply) : Prop :=
  ∃ body, r = .reply 200 body ∧ (Crashes body ∨ ∃ b x v, body = b ++ x ∧ Denotes b v ∧ ∀ p kvs raw, v ≠ .dict p kvs raw)

end Gotit.Spec
