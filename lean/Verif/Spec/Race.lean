import Verif.Model.Shared
/-
  Data races according to the Go memory model.
-/
namespace Gotit.Spec
open Gotit.Shared

/-- What an action does to a variable: the variable, and whether it writes. -/
def access : Act → Option (Loc × Bool)
  | .init x => some (x, true)
  | .wr x => some (x, true)
  | .rd x => some (x, false)
  | .insert _ => some (.poolMap, true)
  | .push q _ => some (.failed q, true)
  | .pop q _ => some (.failed q, true)
  | _ => none

/-- Of two events, the earlier is synchronised before the later: same goroutine; go statement and goroutine; unlock and lock; send and
receive of one message. -/
inductive Before : Event → Event → Prop
  | sameGoroutine {g a b} : Before (g, a) (g, b)
  | goStatement {g h c b} : Before (g, .go h c) (h, b)
  | mutex {g h m} : Before (g, .unlock m) (h, .lock m)
  | channel {g h k} : Before (g, .send k) (h, .recv k)

/-- With the other rules of the memory model: atomics, wait groups, cancelled contexts, room in a channel. Operations on one counter are all
taken to synchronise, every Done with every later Wait, and every receive with every later send. -/
inductive BeforeAll : Event → Event → Prop
  | of {e f} : Before e f → BeforeAll e f
  | atomic {g h a} : BeforeAll (g, .atomic a) (h, .atomic a)
  | waitGroup {g h} : BeforeAll (g, .done) (h, .wait)
  | context {g h} : BeforeAll (g, .cancel) (h, .observe)
  | room {g h k l} : BeforeAll (g, .recv k) (h, .send l)

/-- Happens before, as positions in the trace. -/
inductive HB (r : Event → Event → Prop) (tr : Trace) : Nat → Nat → Prop
  | sync {i j e f} : i < j → tr[i]? = some e → tr[j]? = some f → r e f → HB r tr i j
  | trans {i j k} : HB r tr i j → HB r tr j k → HB r tr i k

/-- The events at `i` and `j` race: they access one variable, one of them writes, and neither happens before the other. -/
def Race (r : Event → Event → Prop) (tr : Trace) (i j : Nat) (e f : Event) : Prop :=
  tr[i]? = some e ∧ tr[j]? = some f ∧ ¬ HB r tr i j ∧ ¬ HB r tr j i ∧ i ≠ j ∧
    ∃ x v w, access e.2 = some (x, v) ∧ access f.2 = some (x, w) ∧ (v = true ∨ w = true)

end Gotit.Spec
