import Verif.Spec.Queue
import Verif.Lemmas.Mutex
/-
  C49: the retry queue.
-/
namespace Gotit.Props
open Gotit Spec

theorem queue_put {m : PeerMessage} {s s' : List PeerMessage} {r : Option PeerMessage}
    (h : queueMethods.Runs (.requestFailed m) .start s s' r) : s' = s ++ [m] ∧ r = none := by
  cases h with
  | last h => simp [queueMethods] at h
  | work h h2 =>
    simp only [queueMethods, Prod.mk.injEq, Sum.inl.injEq] at h
    obtain ⟨rfl, rfl⟩ := h
    cases h2 with
    | last h => simp only [queueMethods, Prod.mk.injEq, Sum.inr.injEq] at h; exact ⟨h.1.symm, h.2.symm⟩
    | work h _ => simp [queueMethods] at h

theorem queue_take {s s' : List PeerMessage} {r : Option PeerMessage}
    (h : queueMethods.Runs .failedPieceMessage .start s s' r) : s' = s.dropLast ∧ r = s.getLast? := by
  cases hl : s.getLast? with
  | none =>
    have hs : s = [] := by simpa using hl
    subst hs
    cases h with
    | last h => simp [queueMethods] at h; exact ⟨by simp [h.1], h.2.symm⟩
    | work h _ => simp [queueMethods] at h
  | some req =>
    cases h with
    | last h => simp [queueMethods, hl] at h
    | work h h2 =>
      simp only [queueMethods, hl, Prod.mk.injEq, Sum.inl.injEq] at h
      obtain ⟨rfl, rfl⟩ := h
      cases h2 with
      | last h => simp only [queueMethods, Prod.mk.injEq, Sum.inr.injEq] at h; exact ⟨h.1.symm, h.2.symm⟩
      | work h _ => simp [queueMethods] at h

theorem held_snoc (h : List (QueueOp × Option PeerMessage)) (x : QueueOp × Option PeerMessage) :
    held (h ++ [x]) = match x.1 with | .requestFailed m => held h ++ [m] | .failedPieceMessage => (held h).dropLast := by
  unfold held; rw [List.foldl_append]; rfl

theorem seq_held {h : List (QueueOp × Option PeerMessage)} {s : List PeerMessage} (hs : queueMethods.Seq [] h s) : s = held h := by
  induction hs with
  | nil => rfl
  | @snoc h s op s' r _ hr ih =>
    subst ih
    rw [held_snoc]
    cases op with
    | requestFailed m => exact (queue_put hr).1
    | failedPieceMessage => exact (queue_take hr).1

theorem seq_answer {h1 h2 : List (QueueOp × Option PeerMessage)} {op : QueueOp} {r : Option PeerMessage} {s : List PeerMessage}
    (hs : queueMethods.Seq [] (h1 ++ (op, r) :: h2) s) :
    r = match op with | .requestFailed _ => none | .failedPieceMessage => (held h1).getLast? := by
  rw [show h1 ++ (op, r) :: h2 = (h1 ++ [(op, r)]) ++ h2 from by simp] at hs
  obtain ⟨s1, hs1⟩ := hs.prefix
  obtain ⟨s2, k1, k2⟩ := hs1.snoc_inv
  have := seq_held k1
  subst this
  cases op with
  | requestFailed m => exact (queue_put k2).2
  | failedPieceMessage => exact (queue_take k2).2

/-- C49: in every schedule, a call to take a request gets the most recently failed request that is still in the queue,
and nothing only if the queue is empty. -/
theorem C49_lifo {σ : Sys (List PeerMessage) QueueOp QueueLoc (Option PeerMessage)} (h : Sys.Reachable queueMethods [] σ)
    (h1 h2 : List (QueueOp × Option PeerMessage)) (r : Option PeerMessage)
    (he : σ.history = h1 ++ (.failedPieceMessage, r) :: h2) : r = (held h1).getLast? := by
  obtain ⟨s, hs⟩ := Sys.linearizable h
  rw [he] at hs
  exact seq_answer hs

/-- C49: nothing is lost or duplicated. In every schedule, at every time, each request was put in exactly as often as it
was handed out or is still held; in particular it was handed out at most as often as it was put in before. -/
theorem C49_conservation {σ : Sys (List PeerMessage) QueueOp QueueLoc (Option PeerMessage)} (h : Sys.Reachable queueMethods [] σ)
    (m : PeerMessage) :
    (putIn σ.history).count m = (takenOut σ.history).count m + (held σ.history).count m := by
  obtain ⟨s, hs⟩ := Sys.linearizable h
  generalize σ.history = hist at hs
  clear h
  induction hs with
  | nil => rfl
  | @snoc h s op s' r h1 hr ih =>
    have hh := seq_held h1
    subst hh
    have hp : putIn (h ++ [(op, r)]) = putIn h ++ putIn [(op, r)] := by unfold putIn; rw [List.filterMap_append]
    have ht : takenOut (h ++ [(op, r)]) = takenOut h ++ takenOut [(op, r)] := by unfold takenOut; rw [List.filterMap_append]
    rw [hp, ht, held_snoc, List.count_append, List.count_append, ih]
    cases op with
    | requestFailed x =>
      rw [(queue_put hr).2]
      simp only [putIn, takenOut, List.filterMap_cons, List.filterMap_nil, List.count_nil, List.count_append]
      omega
    | failedPieceMessage =>
      rw [(queue_take hr).2]
      simp only [putIn, takenOut, List.filterMap_cons, List.filterMap_nil, List.count_nil]
      rcases List.eq_nil_or_concat (held h) with e | ⟨t, x, e⟩
      · rw [e]; simp
      · rw [List.concat_eq_append] at e
        rw [e]
        simp only [List.getLast?_concat, List.dropLast_concat, List.count_append, List.count_singleton, List.count_cons, List.count_nil]
        omega

/-- C49: when no call is in progress, the queue really holds those requests. -/
theorem C49_holds {σ : Sys (List PeerMessage) QueueOp QueueLoc (Option PeerMessage)} (h : Sys.Reachable queueMethods [] σ)
    (ho : σ.owner = none) : σ.shared = held σ.history := by
  have := Sys.inv_reachable h
  unfold Sys.Inv at this
  rw [ho] at this
  exact seq_held this.1

/-- Every sequential use is one of the schedules: put a, put b, take, take, take gives b, a, nothing. -/
example (a b : PeerMessage) : ∃ σ, Sys.Reachable queueMethods [] σ ∧
    σ.history = [(.requestFailed a, none), (.requestFailed b, none), (.failedPieceMessage, some b), (.failedPieceMessage, some a),
      (.failedPieceMessage, none)] := by
  have put : ∀ (m : PeerMessage) s, queueMethods.Runs (.requestFailed m) (queueMethods.start (.requestFailed m)) s (s ++ [m]) none :=
    fun m s => .work rfl (.last rfl)
  have take : ∀ (m : PeerMessage) s, queueMethods.Runs .failedPieceMessage (queueMethods.start .failedPieceMessage) (s ++ [m]) s (some m) := by
    intro m s
    refine .work (l' := .read m) (s' := s ++ [m]) ?_ (.last ?_)
    · simp [queueMethods]
    · simp [queueMethods]
  have none_ : queueMethods.Runs .failedPieceMessage (queueMethods.start .failedPieceMessage) [] [] none := .last rfl
  have s1 := Methods.Seq.snoc (Methods.Seq.nil (M := queueMethods) (s0 := [])) (put a [])
  have s2 := s1.snoc (put b _)
  have s3 := s2.snoc (take b _)
  have s4 := s3.snoc (take a [])
  have s5 := s4.snoc none_
  obtain ⟨σ, h1, h2, -⟩ := Sys.of_seq s5
  exact ⟨σ, h1, by rw [h2]; simp⟩

end Gotit.Props
