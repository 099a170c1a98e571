import Verif.Model.Shared
/-
  Holding and releasing mutexes, told from the trace.
-/
namespace Gotit.Spec
open Gotit.Shared

/-- `g` has locked `m` and not unlocked it since. -/
def HoldsMutex (tr : Trace) (g : Gid) (m : Mtx) : Prop :=
  ∃ i : Nat, tr[i]? = some (g, Act.lock m) ∧ ∀ j, i < j → tr[j]? ≠ some (g, Act.unlock m)

/-- A step in which only `g` moves. -/
def StepOf (g : Gid) (σ σ' : State) : Prop := Step σ σ' ∧ ∀ h, h ≠ g → σ'.todo h = σ.todo h ∧ σ'.cont h = σ.cont h

/-- Steps in which only `g` moves. -/
inductive StepsOf (g : Gid) : State → State → Prop
  | none {σ} : StepsOf g σ σ
  | some {σ σ' σ''} : StepOf g σ σ' → StepsOf g σ' σ'' → StepsOf g σ σ''

/-- Actions that wait for other goroutines or the environment: a mutex, the channel, the wait group, the context. -/
def Waits : Act → Prop
  | .lock _ | .send _ | .recvAny | .wait | .observe => True
  | _ => False

end Gotit.Spec
