import Verif.Model.Go
/-
  C66: what a bounded retry may do, as a relation between the outcomes of the attempts made and the result.
-/
namespace Gotit.Spec
open Gotit

/-- What the caller is told. -/
inductive Told (α : Type) where
  | success (v : α)
  | failure (e : String)
  | canceled
  | crash (e : String)

/-- A run of at most `limit` attempts with outcomes `outs`; `before`: cancelled before the start; `during n`: cancelled while
waiting after attempt number `n`. -/
inductive RetryRun {α : Type} (limit : Nat) (before : Prop) (during : Nat → Prop) : List (Res α) → Told α → Prop
  /-- nothing is tried if cancelled before -/
  | notTried : before → RetryRun limit before during [] .canceled
  /-- some failures, then a success -/
  | success (es : List String) (v : α) : ¬ before → es.length < limit → (∀ n, n < es.length → ¬ during n) →
      RetryRun limit before during (es.map .err ++ [.ok v]) (.success v)
  /-- a crash of an attempt -/
  | crash (es : List String) (e : String) : ¬ before → es.length < limit → (∀ n, n < es.length → ¬ during n) →
      RetryRun limit before during (es.map .err ++ [.panic e]) (.crash e)
  /-- `limit` failures: the last error -/
  | failure (es : List String) (e : String) : ¬ before → es.length + 1 = limit → (∀ n, n < es.length → ¬ during n) →
      RetryRun limit before during (es.map .err ++ [.err e]) (.failure e)
  /-- cancelled in a wait, which there is after every attempt but the last possible one -/
  | canceled (es : List String) (e : String) : ¬ before → es.length + 1 < limit → (∀ n, n < es.length → ¬ during n) →
      during es.length → RetryRun limit before during (es.map .err ++ [.err e]) .canceled

end Gotit.Spec
