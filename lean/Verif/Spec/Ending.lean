import Verif.Model.Ending
/-
  C149: the end of the program after an interrupt.
-/
namespace Gotit.Spec

/-- What can follow. -/
inductive Follows (lim : Limits) : TMgr → TMgr → Prop
  | refl {s} : Follows lim s s
  | step {s s' s''} : Follows lim s s' → TMgr.Step lim s' s'' → Follows lim s s''

/-- `Stop` has returned, or a goroutine has panicked. -/
def IsOver (m : Mgr) : Prop := m.main = .stopped ∨ m.panicked ≠ none

/-- The peers in the pool. -/
def inPool (m : Mgr) : Nat :=
  match m.pool with
  | some l => l.length
  | none => 0

/-- C149: with `n` trackers, whenever the context is cancelled, the program is over at most `g m` later, `m` being its state then. -/
def EndsWithin (lim : Limits) (n : Nat) (g : Mgr → Nat) : Prop :=
  ∀ s s', TMgr.Reachable lim n s → s.m.panicked = none → s.m.cancelled = false →
    ∀ si, TMgr.Step lim s si → si.m.cancelled = true → Follows lim si s' → IsOver s'.m ∨ s'.now ≤ s.now + g s'.m

end Gotit.Spec
