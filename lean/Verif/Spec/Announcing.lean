import Verif.Model.Manager
/-
  C141: executions that go on and on, and which goroutine moves in them.
-/
namespace Gotit.Spec
open Gotit

/-- An execution without end. -/
def Endless (n limit : Nat) (f : Nat → Mgr) : Prop := Mgr.Reachable n limit (f 0) ∧ ∀ k, Mgr.Step (f k) (f (k + 1))

/-- Where the goroutine of tracker `i` is. -/
def placeOf (σ : Mgr) (i : Nat) : Option TrackerLoc := σ.trackers[i]?

/-- The goroutine of tracker `i` gets on at step `k`: it leaves the call it is in. -/
def GetsOn (f : Nat → Mgr) (i k : Nat) : Prop := placeOf (f k) i ≠ placeOf (f (k + 1)) i

/-- The URL of tracker `i` was accepted by `tracker.New`, and its loop goes on. -/
def InLoop (σ : Mgr) (i : Nat) : Prop := ∃ l, placeOf σ i = some l ∧ l ≠ .start ∧ l ≠ .ended

end Gotit.Spec
