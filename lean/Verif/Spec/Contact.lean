import Verif.Model.Contact
/-
  C118: the peers of a response are contacted promptly.
-/
namespace Gotit.Spec
open Gotit

/-- The timeouts (connection.go:14-16) hold: dialling takes at most two seconds, writing and reading at most one second each. -/
def TimedAttempt.InTime (a : TimedAttempt) : Prop :=
  a.dialTook ≤ 2000000000 ∧ a.writeTook ≤ 1000000000 ∧ a.readTook ≤ 1000000000

/-- All attempts keep to the timeouts and timers are at most `s` late. -/
def Candidate.InTime (s : Nat) (c : Candidate) : Prop := (∀ n, TimedAttempt.InTime (c.tries n)) ∧ ∀ n, c.slack n ≤ s

/-- Every peer of the response is contacted within `limit` of the response, whatever the other peers do. -/
def Prompt (limit : Nat) (cs : List Candidate) : Prop :=
  ∀ now t, some t ∈ (initPeersTimes cs now).1 → t ≤ now + limit

/-- What an attempt costs: dialling; if that succeeds, writing; if that succeeds, reading. -/
def spent (a : TimedAttempt) : Nat :=
  a.dialTook + (if a.dialOk = true then a.writeTook + (if a.writeOk = true then a.readTook else 0) else 0)

/-- All three steps succeeded. -/
def answered (a : TimedAttempt) : Prop := a.dialOk = true ∧ a.writeOk = true ∧ a.readOk = true

/-- The number of the last attempt: the first that succeeds, or the fifth. -/
def LastTry (c : Candidate) (n : Nat) : Prop :=
  n ≤ 4 ∧ (∀ i, i < n → ¬ answered (c.tries i)) ∧ (answered (c.tries n) ∨ n = 4)

end Gotit.Spec
