import Verif.Spec.Manager
import Verif.Lemmas.Mutex
import Verif.Props.Requests
/-
  C61–C65, C70: the manager.
-/
namespace Gotit.Props
open Gotit Spec

/-! ### C61 on the level of the mutex -/

theorem pool_add {a : Bytes} {id : Nat} {s s' : Pool} {r : PoolRes} (h : poolMethods.Runs (.add a id) .start s s' r) :
    (∃ v, poolLookup s.peers a = some v ∧ s' = s ∧ r = .added false) ∨
    (poolLookup s.peers a = none ∧ s.peers = none ∧ s' = s ∧ r = .panicked) ∨
    (∃ l, poolLookup s.peers a = none ∧ s.peers = some l ∧ s' = ⟨some ((a, id) :: l), s.peerNum + 1⟩ ∧ r = .added true) := by
  cases hl : poolLookup s.peers a with
  | some v =>
    cases h with
    | last h => simp only [poolMethods, hl, Prod.mk.injEq, Sum.inr.injEq] at h; exact .inl ⟨v, rfl, h.1.symm, h.2.symm⟩
    | work h _ => simp [poolMethods, hl] at h
  | none =>
    cases h with
    | last h => simp [poolMethods, hl] at h
    | work h h2 =>
      simp only [poolMethods, hl, Prod.mk.injEq, Sum.inl.injEq] at h
      obtain ⟨rfl, rfl⟩ := h
      cases hp : s.peers with
      | none =>
        cases h2 with
        | last h => simp only [poolMethods, hp, Prod.mk.injEq, Sum.inr.injEq] at h; exact .inr (.inl ⟨rfl, rfl, h.1.symm, h.2.symm⟩)
        | work h _ => simp [poolMethods, hp] at h
      | some l =>
        cases h2 with
        | last h => simp [poolMethods, hp] at h
        | work h h3 =>
          simp only [poolMethods, hp, Prod.mk.injEq, Sum.inl.injEq] at h
          obtain ⟨rfl, rfl⟩ := h
          cases h3 with
          | last h =>
            simp only [poolMethods, Prod.mk.injEq, Sum.inr.injEq] at h
            exact .inr (.inr ⟨l, rfl, rfl, h.1.symm, h.2.symm⟩)
          | work h _ => simp [poolMethods] at h

theorem pool_stop {b : Bool} {s s' : Pool} {r : PoolRes} (h : poolMethods.Runs (.stop b) .start s s' r) :
    (b = true ∧ s' = s ∧ r = .panicked) ∨ (b = false ∧ s' = { s with peers := none } ∧ r = .stopped) := by
  cases b with
  | true =>
    cases h with
    | last h => simp only [poolMethods, Prod.mk.injEq, Sum.inr.injEq] at h; exact .inl ⟨rfl, h.1.symm, h.2.symm⟩
    | work h _ => simp [poolMethods] at h
  | false =>
    cases h with
    | last h => simp [poolMethods] at h
    | work h h2 =>
      simp only [poolMethods, Prod.mk.injEq, Sum.inl.injEq] at h
      obtain ⟨rfl, rfl⟩ := h
      cases h2 with
      | last h => simp only [poolMethods, Prod.mk.injEq, Sum.inr.injEq] at h; exact .inr ⟨rfl, h.1.symm, h.2.symm⟩
      | work h _ => simp [poolMethods] at h

theorem answersFor_append (a : Bytes) (h h' : List (PoolOp × PoolRes)) :
    answersFor a (h ++ h') = answersFor a h ++ answersFor a h' := by
  unfold answersFor; rw [List.filterMap_append]

theorem poolLookup_cons (a b : Bytes) (id : Nat) (l : List (Bytes × Nat)) :
    poolLookup (some ((b, id) :: l)) a = if b = a then some id else poolLookup (some l) a := by
  unfold poolLookup
  by_cases h : b = a
  · simp [h]
  · simp [h]

/-- While the map is not nil, an address is in it exactly if some call with it was answered. -/
theorem pool_seq {h : List (PoolOp × PoolRes)} {s : Pool} (hs : poolMethods.Seq newPool h s) (l : List (Bytes × Nat))
    (hl : s.peers = some l) (a : Bytes) : poolLookup s.peers a = none ↔ answersFor a h = [] := by
  induction hs generalizing l with
  | nil => simp [newPool, poolLookup, answersFor]
  | @snoc h s op s' r h1 hr ih =>
    rw [answersFor_append]
    cases op with
    | add b id =>
      rcases pool_add hr with ⟨v, k1, rfl, rfl⟩ | ⟨k1, k2, rfl, rfl⟩ | ⟨l', k1, k2, rfl, rfl⟩
      · have := ih l hl
        by_cases hb : b = a
        · subst hb
          rw [k1] at this
          simp [answersFor, k1]
        · simp [answersFor, hb] at this ⊢; exact this
      · rw [hl] at k2; exact absurd k2 (by simp)
      · have := ih l' k2
        rw [k2] at this
        simp only [poolLookup_cons]
        by_cases hb : b = a
        · subst hb
          simp [answersFor]
        · simp [answersFor, hb] at this ⊢; exact this
    | stop b =>
      rcases pool_stop hr with ⟨rfl, rfl, rfl⟩ | ⟨rfl, rfl, rfl⟩
      · have := ih l hl
        simpa [answersFor] using this
      · exact absurd hl (by simp)

/-- C61: in every schedule of any number of goroutines calling `AddPeer` and `Stop`, a call of `AddPeer` that is answered is
answered with true exactly if no call with the same address was answered before. -/
theorem C61_first {σ : Sys Pool PoolOp PoolLoc PoolRes} (h : Sys.Reachable poolMethods newPool σ)
    (h1 h2 : List (PoolOp × PoolRes)) (a : Bytes) (id : Nat) (b : Bool)
    (he : σ.history = h1 ++ (.add a id, .added b) :: h2) : b = true ↔ answersFor a h1 = [] := by
  obtain ⟨s, hs⟩ := Sys.linearizable h
  rw [he, show h1 ++ (.add a id, .added b) :: h2 = (h1 ++ [(.add a id, .added b)]) ++ h2 from by simp] at hs
  obtain ⟨s1, hs1⟩ := hs.prefix
  obtain ⟨s2, k1, k2⟩ := hs1.snoc_inv
  rcases pool_add k2 with ⟨v, j1, _, j2⟩ | ⟨_, _, _, j2⟩ | ⟨l, j1, j3, _, j2⟩
  · cases hp : s2.peers with
    | none => rw [hp] at j1; simp [poolLookup] at j1
    | some l =>
      have := pool_seq k1 l hp a
      rw [j1] at this
      simp only [PoolRes.added.injEq] at j2
      subst j2
      simpa using this
  · exact absurd j2 (by simp)
  · have := pool_seq k1 l j3 a
    rw [j1] at this
    simp only [PoolRes.added.injEq] at j2
    subst j2
    simpa using this

/-- C61: so at most one peer per address is ever added. -/
theorem C61_once {σ : Sys Pool PoolOp PoolLoc PoolRes} (h : Sys.Reachable poolMethods newPool σ) (a : Bytes) :
    (answersFor a σ.history).count true ≤ 1 := by
  have key : ∀ h1 h2 : List (PoolOp × PoolRes), σ.history = h1 ++ h2 → (answersFor a h1).count true ≤ 1 := by
    intro h1
    induction h1 using snoc_induction with
    | h0 => intro h2 _; simp [answersFor]
    | h1 h1 x ih =>
      intro h2 he
      have ih := ih (x :: h2) (by rw [he]; simp)
      rw [answersFor_append, List.count_append]
      rcases x with ⟨op, r⟩
      cases op with
      | stop b => simpa [answersFor] using ih
      | add b id =>
        cases r with
        | stopped => simpa [answersFor] using ih
        | panicked => simpa [answersFor] using ih
        | added r =>
          by_cases hb : b = a
          · subst hb
            cases r with
            | false => simpa [answersFor] using ih
            | true =>
              have := (C61_first h h1 h2 b id true (by rw [he]; simp)).1 rfl
              rw [this]; simp [answersFor]
          · simpa [answersFor, hb] using ih
  exact key σ.history [] (by simp)

theorem pool_count {h : List (PoolOp × PoolRes)} {s : Pool} (hs : poolMethods.Seq newPool h s) :
    s.peerNum = (h.filter fun x => x.2 = .added true).length ∧ ∀ l, s.peers = some l → s.peerNum = l.length := by
  induction hs with
  | nil => simp [newPool]
  | @snoc h s op s' r h1 hr ih =>
    rw [List.filter_append, List.length_append, ← ih.1]
    cases op with
    | add b id =>
      rcases pool_add hr with ⟨v, k1, rfl, rfl⟩ | ⟨k1, k2, rfl, rfl⟩ | ⟨l', k1, k2, rfl, rfl⟩
      · exact ⟨by simp, ih.2⟩
      · exact ⟨by simp, ih.2⟩
      · refine ⟨by simp, fun l hl => ?_⟩
        simp only [Option.some.injEq] at hl
        subst hl
        simp [ih.2 l' k2]
    | stop b =>
      rcases pool_stop hr with ⟨rfl, rfl, rfl⟩ | ⟨rfl, rfl, rfl⟩
      · exact ⟨by simp, ih.2⟩
      · exact ⟨by simp, fun l hl => by simp at hl⟩

/-- C61: whenever nobody is inside `AddPeer` or `Stop`, the counter of peers is the number of calls that were answered with true, and as long
as the map is there it is the number of peers in it. -/
theorem C61_counted {σ : Sys Pool PoolOp PoolLoc PoolRes} (h : Sys.Reachable poolMethods newPool σ) (ho : σ.owner = none) :
    σ.shared.peerNum = (σ.history.filter fun x => x.2 = .added true).length ∧ ∀ l, σ.shared.peers = some l → σ.shared.peerNum = l.length := by
  have := Sys.inv_reachable h
  unfold Sys.Inv at this
  rw [ho] at this
  exact pool_count this.1

/-- Two goroutines with the same address, one with another: true, false, true. -/
example (a b : Bytes) (hab : a ≠ b) : ∃ σ, Sys.Reachable poolMethods newPool σ ∧
    σ.history = [(.add a 1, .added true), (.add a 2, .added false), (.add b 3, .added true)] := by
  have s1 : poolMethods.Seq newPool [(.add a 1, .added true)] ⟨some [(a, 1)], 1⟩ :=
    .snoc (h := []) .nil (.work rfl (.work rfl (.last rfl)))
  have s2 : poolMethods.Seq newPool [(.add a 1, .added true), (.add a 2, .added false)] ⟨some [(a, 1)], 1⟩ :=
    .snoc (h := [_]) s1 (.last (by simp [poolMethods, poolLookup]))
  have s3 : poolMethods.Seq newPool [(.add a 1, .added true), (.add a 2, .added false), (.add b 3, .added true)]
      ⟨some [(b, 3), (a, 1)], 2⟩ :=
    .snoc (h := [_, _]) s2 (.work (l' := .insert) (s' := ⟨some [(a, 1)], 1⟩) (by simp [poolMethods, poolLookup, hab]) (.work rfl (.last rfl)))
  obtain ⟨σ, k1, k2, _⟩ := Sys.of_seq s3
  exact ⟨σ, k1, k2⟩

end Gotit.Props
