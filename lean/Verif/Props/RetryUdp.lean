import Verif.Props.Retry
import Verif.Model.UdpTracker
/-
  C66 for UDP trackers: the attempts of an announce to a UDP tracker (`udpTries`, used in C21) are those of `retry.Do`.
-/
namespace Gotit.Props
open Gotit Spec

/-- The outcome of one call of the UDP tracker's `Announce`, with its error as `text` gives it. -/
def udpOutcome (text : UdpErr → String) : UdpRes (List AddrPort) → Res (List AddrPort)
  | .ok v => .ok v
  | .err e => .err (text e)
  | .panic => .panic "index out of range"

/-- Attempt number `n` on a UDP tracker. -/
def udpAttempt (text : UdpErr → String) (clientId hash : Bytes) (xs : List UdpTry) (n : Nat) (t : UdpTracker) :
    UdpTracker × Res (List AddrPort) :=
  match xs[n]? with
  | some x =>
    ((udpAnnounce clientId t hash x.data x.random x.writeErr x.evs x.spare).2.1,
      udpOutcome text (udpAnnounce clientId t hash x.data x.random x.writeErr x.evs x.spare).2.2)
  | none => (t, .err "no attempt")

/-- C66: an announce to a UDP tracker that is not cancelled leaves the tracker object, and gives the result, that `retry.Do` does
with as many attempts: a failed attempt is repeated on the object it left, unless it was the last; anything else ends it. -/
theorem C66_udp (text : UdpErr → String) (clientId hash : Bytes) (t : UdpTracker) (tries : List UdpTry) (hn : tries ≠ []) :
    (retryDo tries.length (udpAttempt text clientId hash tries) false (fun _ => false) [] t).1
      = (udpTries clientId hash t tries).1 ∧
    told (retryDo tries.length (udpAttempt text clientId hash tries) false (fun _ => false) [] t).2.2
      = (match (udpTries clientId hash t tries).2 with
        | .ok v => .success v | .err e => .failure (text e) | .panic => .crash "index out of range") := by
  have go : ∀ (xs : List UdpTry) (n : Nat) (t : UdpTracker), xs ≠ [] → tries.drop n = xs →
      (retryLoop (udpAttempt text clientId hash tries) (fun _ => false) [] xs.length n t).1 = (udpTries clientId hash t xs).1 ∧
      told (retryLoop (udpAttempt text clientId hash tries) (fun _ => false) [] xs.length n t).2.2
        = (match (udpTries clientId hash t xs).2 with
          | .ok v => .success v | .err e => .failure (text e) | .panic => .crash "index out of range") := by
    intro xs
    induction xs with
    | nil => intro n t h; exact absurd rfl h
    | cons x xs ih =>
      intro n t _ hd
      have hr : tries[n]? = some x := by
        have : (tries.drop n)[0]? = some x := by rw [hd]; rfl
        simpa using this
      rw [retryLoop.eq_def, udpTries.eq_def]
      simp only [List.length_cons, udpAttempt, hr]
      rcases ha : udpAnnounce clientId t hash x.data x.random x.writeErr x.evs x.spare with ⟨ws, t', v | e | _⟩
      · exact ⟨rfl, rfl⟩
      · simp only [udpOutcome]
        by_cases hz : xs = []
        · subst hz; exact ⟨rfl, rfl⟩
        · have hl : ¬ xs.length = 0 := by simpa using hz
          rw [if_neg hl, if_neg hz]
          exact ih (n + 1) t' hz (by rw [← List.drop_drop, hd]; rfl)
      · exact ⟨rfl, rfl⟩
  exact go tries 0 t hn rfl

/-- Two attempts: the first datagram cannot be written; then the handshake succeeds (the tracker keeps the connection id 77) and no
answer to the announce ever ends. The second attempt's error is the result. -/
example :
    let tries : List UdpTry := [⟨⟨0, 8, 0, 6881⟩, ⟨1, 2, 0⟩, some "refused", [], []⟩,
      ⟨⟨0, 8, 0, 6881⟩, ⟨5, 6, 0⟩, none, [.data (putBE 4 0 ++ putBE 4 5 ++ putBE 8 77), .timeout], []⟩]
    (udpTries [] [] newUdpTracker tries).1 = { newUdpTracker with connectionId := 77 } ∧
    (udpTries [] [] newUdpTracker tries).2 ≠ .err (.conn "refused") := by
  decide +kernel

end Gotit.Props
