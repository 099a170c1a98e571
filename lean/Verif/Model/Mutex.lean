/-
  Goroutines that call methods whose whole body runs between `mu.Lock()` and `mu.Unlock()`
  (torrent.go:113-118, 120-134, 136-140; pieces_queue.go:21-37; manager.go:181-192, 216-227).

  The model is fine grained: taking the lock, every single operation of the body on the shared data, and releasing the
  lock are separate steps, and any number of goroutines (one per natural number) may be anywhere in between. Which
  goroutine moves next is arbitrary. Go's mutex is assumed to give mutual exclusion and the happens-before order of the
  Go memory model; a goroutine stopped inside a body is just one that is never chosen again.
-/
namespace Gotit

/-- A family of methods with bodies made of atomic operations on the shared data `S`.
`step op l s`: the operation done in local state `l`; `.inl l'` continues, `.inr r` is the return value. -/
structure Methods (S Op L R : Type) where
  start : Op → L
  step : Op → L → S → S × (L ⊕ R)

/-- Where a goroutine is. -/
inductive Pc (Op L R : Type) where
  | idle
  | waiting (op : Op)
  | running (op : Op) (l : L)
  | leaving (op : Op) (r : R)

/-- The whole program: the shared data, the holder of the mutex, every goroutine, and the calls completed so far (in the
order in which they released the mutex). -/
structure Sys (S Op L R : Type) where
  shared : S
  owner : Option Nat
  pc : Nat → Pc Op L R
  history : List (Op × R)

def setPc {Op L R : Type} (pc : Nat → Pc Op L R) (g : Nat) (p : Pc Op L R) : Nat → Pc Op L R :=
  fun h => if h = g then p else pc h

/-- One step of one goroutine. -/
inductive Sys.Step {S Op L R : Type} (M : Methods S Op L R) : Sys S Op L R → Sys S Op L R → Prop
  /-- goroutine `g` calls a method -/
  | call {σ g op} : σ.pc g = .idle → Step M σ { σ with pc := setPc σ.pc g (.waiting op) }
  /-- `mu.Lock()` succeeds: possible only when nobody holds the mutex -/
  | lock {σ g op} : σ.pc g = .waiting op → σ.owner = none →
      Step M σ { σ with owner := some g, pc := setPc σ.pc g (.running op (M.start op)) }
  /-- an operation of the body -/
  | work {σ g op l l' s'} : σ.pc g = .running op l → M.step op l σ.shared = (s', .inl l') →
      Step M σ { σ with shared := s', pc := setPc σ.pc g (.running op l') }
  /-- the last operation of the body -/
  | last {σ g op l r s'} : σ.pc g = .running op l → M.step op l σ.shared = (s', .inr r) →
      Step M σ { σ with shared := s', pc := setPc σ.pc g (.leaving op r) }
  /-- `mu.Unlock()` and return -/
  | unlock {σ g op r} : σ.pc g = .leaving op r →
      Step M σ { σ with owner := none, pc := setPc σ.pc g .idle, history := σ.history ++ [(op, r)] }

/-- States reachable from the initial shared data `s0`. -/
inductive Sys.Reachable {S Op L R : Type} (M : Methods S Op L R) (s0 : S) : Sys S Op L R → Prop
  | init : Reachable M s0 { shared := s0, owner := none, pc := fun _ => .idle, history := [] }
  | step {σ σ'} : Reachable M s0 σ → Sys.Step M σ σ' → Reachable M s0 σ'

/-- A body executed without interruption: from local state `l` and shared data `s` to the shared data `s'`, with the
return value `r`. -/
inductive Methods.Runs {S Op L R : Type} (M : Methods S Op L R) (op : Op) : L → S → S → R → Prop
  | last {l s s' r} : M.step op l s = (s', .inr r) → Runs M op l s s' r
  | work {l l' s s' s'' r} : M.step op l s = (s', .inl l') → Runs M op l' s' s'' r → Runs M op l s s'' r

/-- The calls of a history executed one after the other, without any overlap. -/
inductive Methods.Seq {S Op L R : Type} (M : Methods S Op L R) (s0 : S) : List (Op × R) → S → Prop
  | nil : Seq M s0 [] s0
  | snoc {h s op s' r} : Seq M s0 h s → M.Runs op (M.start op) s s' r → Seq M s0 (h ++ [(op, r)]) s'

end Gotit
