import Verif.Model.Manager
/-
  C61–C65, C70: the vocabulary of the claims.
-/
namespace Gotit.Spec
open Gotit

/-- The answers of the calls of `AddPeer` with address `a`. -/
def answersFor (a : Bytes) (h : List (PoolOp × PoolRes)) : List Bool :=
  h.filterMap fun x => match x with
    | (.add b _, .added r) => if b = a then some r else none
    | _ => none

/-- The addresses for which `AddPeer` said true. -/
def wasAdded (adds : List (Bytes × Bool)) : List Bytes := (adds.filter fun x => x.2).map Prod.fst

/-- The addresses with a handshake in progress. -/
def handshaking (ts : List TrackerLoc) : List Bytes :=
  ts.filterMap fun t => match t with | .connecting a _ => some a | _ => none

/-- `Download` has returned. -/
def hasReturned : MainLoc → Prop
  | .returned | .stopLock | .stopClose _ | .stopped => True
  | _ => False

/-- A continuation of an execution in which nobody cancels the context from outside: the context goes from not cancelled to
cancelled only by `Stop`, that is, after `Download` has returned. -/
inductive Undisturbed : Mgr → Mgr → Prop
  | here {σ} : Undisturbed σ σ
  | step {σ σ' σ''} : Undisturbed σ σ' → Mgr.Step σ' σ'' → (σ'.cancelled = false → σ''.cancelled = true → hasReturned σ'.main) →
      Undisturbed σ σ''

/-- Any continuation. -/
inductive Later : Mgr → Mgr → Prop
  | here {σ} : Later σ σ
  | step {σ σ' σ''} : Later σ σ' → Mgr.Step σ' σ'' → Later σ σ''

end Gotit.Spec
