import Verif.Model.TrackerClock
import Verif.Model.Parse
/-
  C119: a tracker is not asked more often than it wants.
-/
namespace Gotit.Spec
open Gotit

/-- The reply is a dictionary with the given interval (in seconds). -/
def AsksFor (r : HttpReply) (n : Nat) : Prop :=
  ∃ body kvs, r = .reply 200 body ∧ (∃ p raw, parse body = .ok (.dict p kvs raw)) ∧ lookupKey (ascii "interval") kvs = .int n

/-- After a reply that asks for an interval of `n` seconds the next request comes no earlier than that. -/
def Respected (parseAddr : Bytes → Option Addr) (s : TrackerClock) (replies : Nat → TimedReply) : Prop :=
  ∀ k a b n, TrackerClock.at parseAddr s replies k = some a → TrackerClock.at parseAddr s replies (k + 1) = some b →
    AsksFor (replies k).reply n → a.now + (replies k).took + n * 1000000000 ≤ b.now

end Gotit.Spec
