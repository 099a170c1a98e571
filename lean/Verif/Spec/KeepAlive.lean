/-
  C108 and C109: time without a message. Times are nanoseconds.
-/
namespace Gotit.Spec

/-- The time after which a peer may take a silent connection for dead (BEP 3: keep-alives are sent once every two minutes). -/
def twoMinutes : Nat := 120000000000

/-- Messages were sent at the given times, in this order, the first of them being where the connection starts; until `now` there was never
more than `g` between one and the next, nor since the last. -/
def NeverSilent (g : Nat) : List Nat → Nat → Prop
  | [], _ => True
  | [t], now => now ≤ t + g
  | t :: t' :: ts, now => t' ≤ t + g ∧ NeverSilent g (t' :: ts) now

end Gotit.Spec
