import Verif.Spec.Announcing
import Verif.Spec.Manager
/-
  C141: a tracker is announced to for as long as the download runs.
-/
namespace Gotit.Props
open Gotit Gotit.Spec

/-- One element of a list is replaced. -/
theorem replaced {α : Type} (a b : List α) (x y : α) (i : Nat) :
    (i = a.length ∧ (a ++ x :: b)[i]? = some x ∧ (a ++ y :: b)[i]? = some y) ∨ (a ++ x :: b)[i]? = (a ++ y :: b)[i]? := by
  by_cases h : i = a.length
  · subst h; exact .inl ⟨rfl, by simp, by simp⟩
  · refine .inr ?_
    by_cases h1 : i < a.length
    · rw [List.getElem?_append_left h1, List.getElem?_append_left h1]
    · rw [List.getElem?_append_right (by omega), List.getElem?_append_right (by omega)]
      obtain ⟨k, hk⟩ : ∃ k, i - a.length = k + 1 := ⟨i - a.length - 1, by omega⟩
      rw [hk]; rfl

/-- How the goroutine of a tracker moves. -/
inductive Moves (cancelled : Bool) : TrackerLoc → TrackerLoc → Prop
  | bad : Moves cancelled .start .ended
  | new : Moves cancelled .start .announcing
  | announced (ips) : Moves cancelled .announcing (.adding ips)
  | failed : Moves cancelled .announcing .waiting
  | canceled : cancelled = true → Moves cancelled .announcing .ended
  | known {ip ips} : Moves cancelled (.adding (ip :: ips)) (.adding ips)
  | fresh {ip ips} : Moves cancelled (.adding (ip :: ips)) (.connecting ip ips)
  | done : Moves cancelled (.adding []) .waiting
  | next {ip ips} : Moves cancelled (.connecting ip ips) (.adding ips)
  | over : Moves cancelled .waiting .announcing
  | stopped : cancelled = true → Moves cancelled .waiting .ended

theorem tracker_moves {σ σ' : Mgr} (h : Mgr.Step σ σ') (i : Nat) :
    placeOf σ i = placeOf σ' i ∨ ∃ x y, placeOf σ i = some x ∧ placeOf σ' i = some y ∧ Moves σ.cancelled x y := by
  unfold placeOf
  have go : ∀ (a b : List TrackerLoc) (x y : TrackerLoc), σ.trackers = a ++ x :: b → Moves σ.cancelled x y →
      σ.trackers[i]? = (a ++ y :: b)[i]? ∨
        ∃ x y', σ.trackers[i]? = some x ∧ (a ++ y :: b)[i]? = some y' ∧ Moves σ.cancelled x y' := by
    intro a b x y he hm
    rw [he]
    rcases replaced a b x y i with ⟨_, h1, h2⟩ | h
    · exact .inr ⟨x, y, h1, h2, hm⟩
    · exact .inl h
  cases h with
  | trackerBad _ he => exact go _ _ _ _ he .bad
  | trackerNew _ he => exact go _ _ _ _ he .new
  | announced ips _ he => exact go _ _ _ _ he (.announced ips)
  | announceFailed _ he => exact go _ _ _ _ he .failed
  | announceCanceled _ he hc => exact go _ _ _ _ he (.canceled hc)
  | addKnown _ he => exact go _ _ _ _ he .known
  | addNew _ he => exact go _ _ _ _ he .fresh
  | addedAll _ he => exact go _ _ _ _ he .done
  | connectFailed _ he => exact go _ _ _ _ he .next
  | connected _ he => exact go _ _ _ _ he .next
  | intervalOver _ he => exact go _ _ _ _ he .over
  | intervalCanceled _ he hc => exact go _ _ _ _ he (.stopped hc)
  | _ => exact .inl rfl

/-- Cancellation is for good. -/
theorem cancelled_stays {σ σ' : Mgr} (h : Mgr.Step σ σ') (hc : σ.cancelled = true) : σ'.cancelled = true := by
  cases h <;> first | exact hc | rfl

/-- **C141.** The loop of a tracker whose URL was accepted is left only after the context was cancelled, whatever the tracker, the peers and the other
goroutines do. -/
theorem C141_goes_on {σ σ' : Mgr} (h : Later σ σ') (i : Nat) (hi : InLoop σ i) (hc : σ'.cancelled = false) : InLoop σ' i := by
  induction h with
  | here => exact hi
  | @step τ τ' _ hs ih =>
    have hc' : τ.cancelled = false := by
      cases hb : τ.cancelled with
      | false => rfl
      | true => rw [cancelled_stays hs hb] at hc; cases hc
    obtain ⟨l, hl, h1, h2⟩ := ih hc'
    rcases tracker_moves hs i with he | ⟨x, y, hx, hy, hm⟩
    · exact ⟨l, by rw [← he]; exact hl, h1, h2⟩
    · rw [hl] at hx; cases hx
      refine ⟨y, hy, ?_, ?_⟩
      · rintro rfl; cases hm
      · rintro rfl; rw [hc'] at hm; cases hm with
        | bad => exact h1 rfl
        | canceled h => cases h
        | stopped h => cases h

/-- The calls left until the next announce. -/
def callsLeft : TrackerLoc → Nat
  | .announcing => 0
  | .waiting => 1
  | .adding ips => 2 * ips.length + 2
  | .connecting _ ips => 2 * ips.length + 3
  | _ => 0

theorem moves_down {c : Bool} {x y : TrackerLoc} (hm : Moves c x y) (h1 : x ≠ .start) (h2 : y ≠ .ended) (h3 : x ≠ .announcing) :
    callsLeft y < callsLeft x := by
  cases hm with
  | bad => exact absurd rfl h1
  | new => exact absurd rfl h1
  | announced => exact absurd rfl h3
  | failed => exact absurd rfl h3
  | canceled => exact absurd rfl h2
  | stopped => exact absurd rfl h2
  | known => simp [callsLeft] <;> omega
  | fresh => simp [callsLeft] <;> omega
  | done => simp [callsLeft]
  | next => simp [callsLeft]
  | over => simp [callsLeft]

/-- From step `k` on tracker `i` announces again. -/
theorem announces_again {f : Nat → Mgr} (hf : ∀ k, Mgr.Step (f k) (f (k + 1))) (i : Nat) (hloop : ∀ k, InLoop (f k) i)
    (hmove : ∀ k, ∃ m, k ≤ m ∧ GetsOn f i m) :
    ∀ (c k : Nat), (∀ l, placeOf (f k) i = some l → callsLeft l ≤ c) → ∃ m, k ≤ m ∧ placeOf (f m) i = some .announcing := by
  -- the place does not change until the next move
  have still : ∀ d k, (∀ j, k ≤ j → j < k + d → ¬ GetsOn f i j) → placeOf (f (k + d)) i = placeOf (f k) i := by
    intro d
    induction d with
    | zero => intro k _; rfl
    | succ d ih =>
      intro k h
      have := h (k + d) (by omega) (by omega)
      rw [← ih k (fun j h1 h2 => h j h1 (by omega))]
      exact (Classical.not_not.mp this).symm
  have first : ∀ k, ∃ m, k ≤ m ∧ GetsOn f i m ∧ placeOf (f m) i = placeOf (f k) i := by
    intro k
    obtain ⟨m, hm, hg⟩ := hmove k
    have : ∀ d, ∀ m, m = k + d → GetsOn f i m → ∃ m, k ≤ m ∧ GetsOn f i m ∧ placeOf (f m) i = placeOf (f k) i := by
      intro d
      induction d using Nat.strongRecOn with
      | _ d ih =>
        intro m hm hg
        by_cases h : ∃ j, k ≤ j ∧ j < k + d ∧ GetsOn f i j
        · obtain ⟨j, hj1, hj2, hj3⟩ := h
          exact ih (j - k) (by omega) j (by omega) hj3
        · refine ⟨m, by omega, hg, ?_⟩
          subst hm
          exact still d k (fun j h1 h2 h3 => h ⟨j, h1, h2, h3⟩)
    exact this (m - k) m (by omega) hg
  intro c
  induction c with
  | zero =>
    intro k hk
    obtain ⟨l, hl, h1, h2⟩ := hloop k
    have := hk l hl
    cases l with
    | announcing => exact ⟨k, Nat.le_refl _, hl⟩
    | start => exact absurd rfl h1
    | ended => exact absurd rfl h2
    | waiting => simp [callsLeft] at this
    | adding => simp [callsLeft] at this
    | connecting => simp [callsLeft] at this
  | succ c ih =>
    intro k hk
    obtain ⟨m, hm, hg, he⟩ := first k
    obtain ⟨l, hl, h1, h2⟩ := hloop k
    by_cases ha : l = .announcing
    · subst ha; exact ⟨k, Nat.le_refl _, hl⟩
    · rcases tracker_moves (hf m) i with he' | ⟨x, y, hx, hy, hmv⟩
      · exact absurd he' hg
      · rw [he, hl] at hx; cases hx
        have hye : y ≠ .ended := by
          obtain ⟨l', hl', _, h2'⟩ := hloop (m + 1)
          rw [hy] at hl'; cases hl'; exact h2'
        have hd := moves_down hmv h1 hye ha
        have := hk l hl
        obtain ⟨m', hm', hr⟩ := ih (m + 1) (fun l' hl' => by rw [hy] at hl'; cases hl'; omega)
        exact ⟨m', by omega, hr⟩

theorem endless_later {f : Nat → Mgr} (hf : ∀ k, Mgr.Step (f k) (f (k + 1))) (k : Nat) : ∀ d, Later (f k) (f (k + d))
  | 0 => .here
  | d + 1 => .step (endless_later hf k d) (hf (k + d))

/-- **C141.** As long as the context is not cancelled, a tracker whose URL was accepted is announced to again and again: if the calls its goroutine makes
return (announce, handshakes, the wait for the interval), it announces infinitely often, whatever the answers are. -/
theorem C141_again {n limit : Nat} {f : Nat → Mgr} (hf : Endless n limit f) (i k₀ : Nat) (hi : InLoop (f k₀) i)
    (hc : ∀ k, (f k).cancelled = false) (hmove : ∀ k, ∃ m, k ≤ m ∧ GetsOn f i m) :
    ∀ k, ∃ m, k ≤ m ∧ placeOf (f m) i = some .announcing := by
  intro k
  let g : Nat → Mgr := fun j => f (k₀ + k + j)
  have hg : ∀ j, Mgr.Step (g j) (g (j + 1)) := fun j => hf.2 (k₀ + k + j)
  have hloop : ∀ j, InLoop (g j) i := by
    intro j
    have := endless_later hf.2 k₀ (k + j)
    rw [← Nat.add_assoc] at this
    exact C141_goes_on this i hi (hc _)
  have hmv : ∀ j, ∃ m, j ≤ m ∧ GetsOn g i m := by
    intro j
    obtain ⟨m, hm, hgm⟩ := hmove (k₀ + k + j)
    refine ⟨m - (k₀ + k), by omega, ?_⟩
    unfold GetsOn at hgm ⊢
    show placeOf (f (k₀ + k + (m - (k₀ + k)))) i ≠ placeOf (f (k₀ + k + (m - (k₀ + k) + 1))) i
    rw [show k₀ + k + (m - (k₀ + k)) = m by omega, show k₀ + k + (m - (k₀ + k) + 1) = m + 1 by omega]
    exact hgm
  obtain ⟨l, hl, _, _⟩ := hloop 0
  obtain ⟨m, _, hm⟩ := announces_again hg i hloop hmv (callsLeft l) 0 (fun l' hl' => by rw [hl] at hl'; cases hl'; exact Nat.le_refl _)
  exact ⟨k₀ + k + m, by omega, hm⟩

/-! A case: one tracker that always fails. -/

/-- The tracker's goroutine at each moment. -/
def failingPlace (k : Nat) : TrackerLoc := if k = 0 then .start else if k % 2 = 1 then .announcing else .waiting

def failing (k : Nat) : Mgr := { Mgr.start 1 with trackers := [failingPlace k] }

theorem failing_step (k : Nat) : Mgr.Step (failing k) (failing (k + 1)) := by
  by_cases h0 : k = 0
  · subst h0; exact Mgr.Step.trackerNew (a := []) (b := []) rfl rfl
  · by_cases h1 : k % 2 = 1
    · have e1 : failing k = { Mgr.start 1 with trackers := [.announcing] } := by simp [failing, failingPlace, h0, h1]
      have e2 : failing (k + 1) = { Mgr.start 1 with trackers := [.waiting] } := by
        have : ¬ (k + 1) % 2 = 1 := by omega
        simp [failing, failingPlace, this]
      rw [e1, e2]; exact Mgr.Step.announceFailed (a := []) (b := []) rfl rfl
    · have e1 : failing k = { Mgr.start 1 with trackers := [.waiting] } := by simp [failing, failingPlace, h0, h1]
      have e2 : failing (k + 1) = { Mgr.start 1 with trackers := [.announcing] } := by
        have : (k + 1) % 2 = 1 := by omega
        simp [failing, failingPlace, this]
      rw [e1, e2]; exact Mgr.Step.intervalOver (a := []) (b := []) rfl rfl

example : ∀ k, ∃ m, k ≤ m ∧ placeOf (failing m) 0 = some .announcing := by
  have hr : Endless 1 30 failing := ⟨Mgr.Reachable.start, failing_step⟩
  refine C141_again hr 0 1 ⟨.announcing, rfl, by simp, by simp⟩ (fun _ => rfl) ?_
  intro k
  refine ⟨k + 1, by omega, ?_⟩
  have hp : ∀ j, placeOf (failing j) 0 = some (failingPlace j) := fun _ => rfl
  rw [GetsOn, hp, hp]
  unfold failingPlace
  by_cases h : (k + 1) % 2 = 1
  · have : ¬ (k + 1 + 1) % 2 = 1 := by omega
    simp [h, this]
  · have : (k + 1 + 1) % 2 = 1 := by omega
    simp [h, this]

end Gotit.Props
