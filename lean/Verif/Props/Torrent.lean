import Verif.Model.Torrent
import Verif.Spec.Torrent
import Verif.Lemmas.Mutex
import Verif.Lemmas.BitSet
/-
  C35–C39: the piece table, handing out pieces, and Done.
-/
namespace Gotit.Props
open Gotit Spec

/-! ## C35 -/

theorem newPiecesLoop_length : ∀ k i bs, (newPiecesLoop k i bs).length = k := by
  intro k
  induction k with
  | zero => intros; rfl
  | succ k ih => intros; simp [newPiecesLoop, ih]

theorem newPiecesLoop_get : ∀ k i bs j, j < k →
    (newPiecesLoop k i bs)[j]? = some ⟨i + j, (bs.drop (20 * j)).take 20⟩ := by
  intro k
  induction k with
  | zero => intro i bs j h; omega
  | succ k ih =>
    intro i bs j h
    cases j with
    | zero => simp [newPiecesLoop]
    | succ j =>
      rw [newPiecesLoop, List.getElem?_cons_succ, ih _ _ _ (by omega), List.drop_drop]
      simp only [Option.some.injEq, Piece.mk.injEq]
      refine ⟨by omega, ?_⟩
      congr 2; omega

/-- C35: success exactly for multiples of 20, one piece per 20 bytes. -/
theorem C35_success_iff (bs : Bytes) :
    (∃ ps, newPieces bs = .ok ps) ↔ bs.length % 20 = 0 := by
  unfold newPieces
  by_cases h : bs.length % 20 = 0 <;> simp [h]

/-- C35: piece `i` has index `i` and the `i`-th 20-byte hash, and `CheckHash` accepts exactly that hash; together the
pieces are the whole table. -/
theorem C35_table (bs : Bytes) (ps : List Piece) (h : newPieces bs = .ok ps) :
    20 * ps.length = bs.length ∧
    (∀ i, i < ps.length → ∃ p, ps[i]? = some p ∧ p.index = i ∧ p.sha1 = (bs.drop (20 * i)).take 20 ∧ p.sha1.length = 20 ∧
      ∀ hash, p.checkHash hash = true ↔ hash = (bs.drop (20 * i)).take 20) ∧
    ps.flatMap (·.sha1) = bs := by
  unfold newPieces at h
  split at h
  · cases h
  · rename_i hm
    simp only [ne_eq, Decidable.not_not] at hm
    simp only [Res.ok.injEq] at h
    subst h
    rw [newPiecesLoop_length]
    refine ⟨by omega, ?_, ?_⟩
    · intro i hi
      refine ⟨_, newPiecesLoop_get _ _ _ i hi, by simp, rfl, ?_, ?_⟩
      · simp; omega
      · intro hash
        simp only [Piece.checkHash, beq_iff_eq]
        exact eq_comm
    · have key : ∀ k i (bs : Bytes), bs.length = 20 * k → (newPiecesLoop k i bs).flatMap (·.sha1) = bs := by
        intro k
        induction k with
        | zero => intro i bs hb; simp at hb; subst hb; rfl
        | succ k ih =>
          intro i bs hb
          rw [newPiecesLoop, List.flatMap_cons, ih _ _ (by simp; omega), List.take_append_drop]
      exact key _ _ _ (by omega)

example : newPieces (List.replicate 40 7) = .ok [⟨0, List.replicate 20 7⟩, ⟨1, List.replicate 20 7⟩] := by decide
example : newPieces (List.replicate 21 7) = .err "invalid pieces len" := by decide

/-! ## C36 -/

/-- A run of the body of `Next` from `NextClear(i)`. -/
theorem next_runs {have_ s s' : BitSet} {r : Option Nat} {l : NextLoc} (h : nextMethod.Runs have_ l s s' r) :
    match l with
    | .find i =>
      match r with
      | some j => i ≤ j ∧ j < s.len ∧ s.bit j = false ∧ have_.test j = true ∧ s' = s.set j ∧
          ∀ k, i ≤ k → k < j → have_.test k = true → s.bit k = true
      | none => s' = s ∧ ∀ k, i ≤ k → k < s.len → have_.test k = true → s.bit k = true
    | .test i => i < s.len → s.bit i = false →
      match r with
      | some j => i ≤ j ∧ j < s.len ∧ s.bit j = false ∧ have_.test j = true ∧ s' = s.set j ∧
          ∀ k, i ≤ k → k < j → have_.test k = true → s.bit k = true
      | none => s' = s ∧ ∀ k, i ≤ k → k < s.len → have_.test k = true → s.bit k = true
    | .mark i => r = some i ∧ s' = s.set i := by
  induction h with
  | @last l s s' r hs =>
    cases l with
    | find i =>
      simp only [nextMethod] at hs
      cases hn : s.nextClear i with
      | none =>
        simp only [hn, Prod.mk.injEq, Sum.inr.injEq] at hs
        obtain ⟨rfl, rfl⟩ := hs
        exact ⟨rfl, fun k h1 h2 _ => BitSet.nextClear_none hn k h1 h2⟩
      | some j => simp [hn] at hs
    | test i =>
      simp only [nextMethod] at hs
      split at hs <;> simp at hs
    | mark i =>
      simp only [nextMethod, Prod.mk.injEq, Sum.inr.injEq] at hs
      exact ⟨hs.2.symm, hs.1.symm⟩
  | @work l l' s s1 s' r hs hr ih =>
    cases l with
    | find i =>
      simp only [nextMethod] at hs
      cases hn : s.nextClear i with
      | none => simp [hn] at hs
      | some j =>
        simp only [hn, Prod.mk.injEq, Sum.inl.injEq] at hs
        obtain ⟨rfl, rfl⟩ := hs
        obtain ⟨h1, h2, h3, h4⟩ := BitSet.nextClear_some hn
        simp only at ih ⊢
        have ih := ih h2 h3
        cases r with
        | some m =>
          simp only at ih ⊢
          obtain ⟨a1, a2, a3, a4, a5, a6⟩ := ih
          refine ⟨by omega, a2, a3, a4, a5, ?_⟩
          intro k k1 k2 k3
          by_cases hk : k < j
          · exact h4 k k1 hk
          · exact a6 k (by omega) k2 k3
        | none =>
          simp only at ih ⊢
          refine ⟨ih.1, ?_⟩
          intro k k1 k2 k3
          by_cases hk : k < j
          · exact h4 k k1 hk
          · exact ih.2 k (by omega) k2 k3
    | test i =>
      simp only
      intro h1 h2
      simp only [nextMethod] at hs
      split at hs
      · rename_i ht
        simp only [Prod.mk.injEq, Sum.inl.injEq] at hs
        obtain ⟨rfl, rfl⟩ := hs
        simp only at ih
        obtain ⟨rfl, rfl⟩ := ih
        exact ⟨by omega, h1, h2, ht, rfl, fun k k1 k2 _ => by omega⟩
      · rename_i ht
        simp only [Prod.mk.injEq, Sum.inl.injEq] at hs
        obtain ⟨rfl, rfl⟩ := hs
        simp only at ih
        cases r with
        | some m =>
          simp only at ih ⊢
          obtain ⟨a1, a2, a3, a4, a5, a6⟩ := ih
          refine ⟨by omega, a2, a3, a4, a5, ?_⟩
          intro k k1 k2 k3
          by_cases hk : k = i
          · subst hk; exact absurd k3 ht
          · exact a6 k (by omega) k2 k3
        | none =>
          simp only at ih ⊢
          refine ⟨ih.1, ?_⟩
          intro k k1 k2 k3
          by_cases hk : k = i
          · subst hk; exact absurd k3 ht
          · exact ih.2 k (by omega) k2 k3
    | mark i =>
      simp [nextMethod] at hs

/-- After any sequential history the requested bits are exactly the pieces handed out. -/
theorem next_seq {n : Nat} {h : List (BitSet × Option Nat)} {s : BitSet} (hs : nextMethod.Seq (BitSet.new n) h s) :
    s.len = n ∧ (∀ i, s.bit i = true ↔ i ∈ handedOut h) := by
  induction hs with
  | nil => simp [BitSet.new, handedOut]
  | @snoc h s op s' r _ hr ih =>
    have := next_runs hr
    simp only [nextMethod] at this
    cases r with
    | none =>
      simp only at this
      rw [this.1]
      simpa [handedOut] using ih
    | some j =>
      simp only at this
      obtain ⟨_, a2, _, _, rfl, _⟩ := this
      constructor
      · simp only [BitSet.set]
        rw [if_neg (by omega)]; exact ih.1
      · intro i
        simp only [BitSet.set, handedOut, List.filterMap_append, List.mem_append, List.filterMap_cons, List.filterMap_nil,
          List.mem_singleton]
        by_cases e : i = j
        · simp [e]
        · simp only [e, if_false, or_false]; exact ih.2 i

/-- C36: in every execution of any number of concurrent callers, each completed call got the correct answer with respect
to the calls completed before it (in the order of the mutex). -/
theorem C36_next (n : Nat) (σ : Sys BitSet BitSet NextLoc (Option Nat))
    (hσ : Sys.Reachable nextMethod (BitSet.new n) σ) (h1 h2 : List (BitSet × Option Nat)) (have_ : BitSet) (r : Option Nat)
    (hh : σ.history = h1 ++ (have_, r) :: h2) :
    NextAnswer n have_.test (handedOut h1) r := by
  obtain ⟨s, hs⟩ := Sys.linearizable hσ
  rw [hh] at hs
  have hh' : h1 ++ (have_, r) :: h2 = (h1 ++ [(have_, r)]) ++ h2 := by simp
  rw [hh'] at hs
  obtain ⟨s1, hs1⟩ := hs.prefix
  obtain ⟨s0, hs0, hr⟩ := hs1.snoc_inv
  obtain ⟨hl, hb⟩ := next_seq hs0
  have := next_runs hr
  simp only [nextMethod] at this
  cases r with
  | none =>
    simp only at this
    intro j hj ht
    exact (hb j).1 (this.2 j (by omega) (by omega) ht)
  | some j =>
    simp only at this
    obtain ⟨_, a2, a3, a4, _, a6⟩ := this
    refine ⟨by omega, a4, ?_, ?_⟩
    · intro hm; rw [(hb j).2 hm] at a3; cases a3
    · intro k hk ht; exact (hb k).1 (a6 k (by omega) hk ht)

/-- C36: no index is returned twice. -/
theorem C36_distinct (n : Nat) (σ : Sys BitSet BitSet NextLoc (Option Nat))
    (hσ : Sys.Reachable nextMethod (BitSet.new n) σ) : (handedOut σ.history).Nodup ∧ ∀ i ∈ handedOut σ.history, i < n := by
  have key : ∀ h1 h2, σ.history = h1 ++ h2 → (handedOut h1).Nodup ∧ ∀ i ∈ handedOut h1, i < n := by
    intro h1
    generalize hk : h1.length = k
    induction k generalizing h1 with
    | zero =>
      intro h2 _
      have : h1 = [] := List.length_eq_zero_iff.1 hk
      subst this
      simp [handedOut]
    | succ k ih =>
      intro h2 hh
      rcases List.eq_nil_or_concat h1 with rfl | ⟨t, x, rfl⟩
      · simp at hk
      · obtain ⟨op, r⟩ := x
        simp only [List.concat_eq_append] at hh hk ⊢
        have hh2 : σ.history = t ++ (op, r) :: h2 := by simpa using hh
        have ht := ih t (by simpa using hk) _ hh2
        have ha := C36_next n σ hσ t h2 op r hh2
        cases r with
        | none => simpa [handedOut] using ht
        | some j =>
          simp only [NextAnswer] at ha
          have e : handedOut (t ++ [(op, some j)]) = handedOut t ++ [j] := by simp [handedOut]
          rw [e, List.nodup_append]
          refine ⟨⟨ht.1, by simp, ?_⟩, ?_⟩
          · intro a ha' b hb
            rw [List.mem_singleton] at hb
            subst hb
            intro e; subst e; exact ha.2.2.1 ha'
          · intro i hi
            rcases List.mem_append.1 hi with hi | hi
            · exact ht.2 i hi
            · rw [List.mem_singleton] at hi; omega
  exact key σ.history [] (by simp)

/-- C36: the body of `Next` always finishes. -/
theorem C36_terminates (have_ s : BitSet) : ∃ s' r, nextMethod.Runs have_ (nextMethod.start have_) s s' r := by
  have key : ∀ k i, s.len - i = k → ∃ s' r, nextMethod.Runs have_ (.find i) s s' r := by
    intro k
    induction k using Nat.strongRecOn with
    | ind k ih =>
      intro i hk
      cases hn : s.nextClear i with
      | none => exact ⟨s, none, .last (by simp [nextMethod, hn])⟩
      | some j =>
        obtain ⟨h1, h2, _, _⟩ := BitSet.nextClear_some hn
        by_cases ht : have_.test j = true
        · exact ⟨s.set j, some j, .work (l' := .test j) (s' := s) (by simp [nextMethod, hn])
            (.work (l' := .mark j) (s' := s) (by simp [nextMethod, ht]) (.last (by simp [nextMethod])))⟩
        · obtain ⟨s', r, hr⟩ := ih (s.len - (j + 1)) (by omega) (j + 1) rfl
          exact ⟨s', r, .work (l' := .test j) (s' := s) (by simp [nextMethod, hn])
            (.work (l' := .find (j + 1)) (s' := s) (by simp [nextMethod, ht]) hr)⟩
  exact key _ 0 rfl

/-! ## C37 -/

/-- C37 is false of the code: in every execution, once a piece was handed out, no later call returns it, whatever
happened to its download in between (`Next` and the marking of downloads do not share any data). -/
theorem C37_again_violated (n : Nat) (σ : Sys BitSet BitSet NextLoc (Option Nat))
    (hσ : Sys.Reachable nextMethod (BitSet.new n) σ) (h1 h2 h3 : List (BitSet × Option Nat)) (have1 have2 : BitSet) (i : Nat)
    (r : Option Nat) (hh : σ.history = h1 ++ (have1, some i) :: (h2 ++ (have2, r) :: h3)) : r ≠ some i := by
  rintro rfl
  have := C36_next n σ hσ (h1 ++ (have1, some i) :: h2) h3 have2 (some i) (by simpa using hh)
  simp only [NextAnswer] at this
  apply this.2.2.1
  simp [handedOut]

/-- C37, the part that holds: a piece that was never handed out is still available to every peer that has it: such a
call never answers "not found" and never answers with a higher piece. -/
theorem C37_available_partial (n : Nat) (σ : Sys BitSet BitSet NextLoc (Option Nat))
    (hσ : Sys.Reachable nextMethod (BitSet.new n) σ) (h1 h2 : List (BitSet × Option Nat)) (have_ : BitSet) (r : Option Nat)
    (hh : σ.history = h1 ++ (have_, r) :: h2) (i : Nat) (hi : i < n) (hhas : have_.test i = true)
    (hfree : i ∉ handedOut h1) : ∃ j, r = some j ∧ j ≤ i := by
  have := C36_next n σ hσ h1 h2 have_ r hh
  cases r with
  | none => exact absurd (this i hi hhas) hfree
  | some j =>
    simp only [NextAnswer] at this
    refine ⟨j, rfl, ?_⟩
    apply Classical.byContradiction
    intro hlt
    exact hfree (this.2.2.2 i (by omega) hhas)

/-! A concrete interleaving: goroutine 7 calls first, goroutine 3 second; both want piece 0. -/

/-- Two overlapping calls; goroutine 3 gets the lock first. -/
theorem twoCallers : ∃ σ, Sys.Reachable nextMethod (BitSet.new 2) σ ∧ ∃ b : BitSet, b.test 0 = true ∧ b.test 1 = true ∧
    σ.history = [(b, some 0), (b, some 1)] := by
  let b : BitSet := ⟨2, fun _ => true⟩
  have r0 := Sys.Reachable.init (M := nextMethod) (s0 := BitSet.new 2)
  have r1 := Sys.Reachable.step r0 (Sys.Step.call (g := 7) (op := b) rfl)
  have r2 := Sys.Reachable.step r1 (Sys.Step.call (g := 3) (op := b) rfl)
  have r3 := Sys.Reachable.step r2 (Sys.Step.lock (g := 3) (op := b) rfl rfl)
  have r4 := Sys.Reachable.step r3 (Sys.Step.work (g := 3) (op := b) (l := .find 0) (l' := .test 0) (s' := BitSet.new 2) rfl rfl)
  have r5 := Sys.Reachable.step r4 (Sys.Step.work (g := 3) (op := b) (l := .test 0) (l' := .mark 0) (s' := BitSet.new 2) rfl rfl)
  have r6 := Sys.Reachable.step r5 (Sys.Step.last (g := 3) (op := b) (l := .mark 0) (r := some 0) (s' := (BitSet.new 2).set 0) rfl rfl)
  have r7 := Sys.Reachable.step r6 (Sys.Step.unlock (g := 3) (op := b) (r := some 0) rfl)
  have r8 := Sys.Reachable.step r7 (Sys.Step.lock (g := 7) (op := b) rfl rfl)
  have r9 := Sys.Reachable.step r8 (Sys.Step.work (g := 7) (op := b) (l := .find 0) (l' := .test 1) (s' := (BitSet.new 2).set 0) rfl rfl)
  have r10 := Sys.Reachable.step r9 (Sys.Step.work (g := 7) (op := b) (l := .test 1) (l' := .mark 1) (s' := (BitSet.new 2).set 0) rfl rfl)
  have r11 := Sys.Reachable.step r10 (Sys.Step.last (g := 7) (op := b) (l := .mark 1) (r := some 1) (s' := ((BitSet.new 2).set 0).set 1) rfl rfl)
  have r12 := Sys.Reachable.step r11 (Sys.Step.unlock (g := 7) (op := b) (r := some 1) rfl)
  exact ⟨_, r12, b, rfl, rfl, rfl⟩

/-! ## C38 -/

/-- The pieces marked in a list of calls. -/
def marked {R : Type} (h : List (DownOp × R)) : List Nat :=
  h.filterMap (fun c => match c.1 with | .setDownloaded i => some i | .done => none)

theorem down_runs {op : DownOp} {s s' : BitSet} {r : Option Bool} (h : downMethods.Runs op () s s' r) :
    match op with
    | .setDownloaded i => s' = s.set i ∧ r = none
    | .done => s' = s ∧ r = some s.all := by
  cases h with
  | last hs =>
    cases op <;> simp only [downMethods, Prod.mk.injEq, Sum.inr.injEq] at hs <;> exact ⟨hs.1.symm, hs.2.symm⟩
  | work hs _ => cases op <;> simp [downMethods] at hs

/-- The length and the bits after any sequential history, valid indexes or not. -/
theorem down_seq {n : Nat} {h : List (DownOp × Option Bool)} {s : BitSet} (hs : downMethods.Seq (BitSet.new n) h s) :
    (∀ i, s.bit i = true ↔ i ∈ marked h) ∧ n ≤ s.len ∧ (∀ i ∈ marked h, i < s.len) ∧
    (s.len = n ∨ ∃ i ∈ marked h, s.len = i + 1) := by
  induction hs with
  | nil => simp [BitSet.new, marked]
  | @snoc h s op s' r _ hr ih =>
    have := down_runs hr
    cases op with
    | done =>
      simp only at this
      rw [this.1]
      simpa [marked] using ih
    | setDownloaded j =>
      simp only at this
      rw [this.1]
      have e : marked (h ++ [(DownOp.setDownloaded j, r)]) = marked h ++ [j] := by simp [marked]
      rw [e]
      obtain ⟨a1, a2, a3, a4⟩ := ih
      refine ⟨?_, ?_, ?_, ?_⟩
      · intro i
        simp only [BitSet.set, List.mem_append, List.mem_singleton]
        by_cases ei : i = j
        · simp [ei]
        · simp only [ei, if_false, or_false]; exact a1 i
      · simp only [BitSet.set]; split <;> omega
      · intro i hi
        simp only [BitSet.set]
        rcases List.mem_append.1 hi with hi | hi
        · have := a3 i hi; split <;> omega
        · rw [List.mem_singleton] at hi; split <;> omega
      · simp only [BitSet.set]
        split
        · right; exact ⟨j, by simp, rfl⟩
        · rcases a4 with h | ⟨i, hi, h⟩
          · left; exact h
          · right; exact ⟨i, by simp [hi], h⟩

/-- C38: as long as only valid indexes were marked before, `Done` answers true iff every piece was marked before. -/
theorem C38_done (n : Nat) (σ : Sys BitSet DownOp Unit (Option Bool)) (hσ : Sys.Reachable downMethods (BitSet.new n) σ)
    (h1 h2 : List (DownOp × Option Bool)) (r : Option Bool) (hh : σ.history = h1 ++ (.done, r) :: h2)
    (hvalid : ∀ i ∈ marked h1, i < n) :
    ∃ b, r = some b ∧ (b = true ↔ ∀ i, i < n → i ∈ marked h1) := by
  obtain ⟨s, hs⟩ := Sys.linearizable hσ
  rw [hh] at hs
  have hh' : h1 ++ (DownOp.done, r) :: h2 = (h1 ++ [(DownOp.done, r)]) ++ h2 := by simp
  rw [hh'] at hs
  obtain ⟨s1, hs1⟩ := hs.prefix
  obtain ⟨s0, hs0, hr⟩ := hs1.snoc_inv
  obtain ⟨hb, hl, _, hl2⟩ := down_seq hs0
  have hlen : s0.len = n := by
    rcases hl2 with h | ⟨i, hi, h⟩
    · exact h
    · have := hvalid i hi; omega
  have := down_runs hr
  simp only at this
  refine ⟨s0.all, this.2, ?_⟩
  rw [BitSet.all_iff, hlen]
  constructor
  · intro h i hi; exact (hb i).1 (h i hi)
  · intro h i hi; exact (hb i).2 (h i hi)

/-- C38: once true it stays true. -/
theorem C38_stable (n : Nat) (σ : Sys BitSet DownOp Unit (Option Bool)) (hσ : Sys.Reachable downMethods (BitSet.new n) σ)
    (h1 h2 h3 : List (DownOp × Option Bool)) (r : Option Bool)
    (hh : σ.history = h1 ++ (.done, some true) :: (h2 ++ (.done, r) :: h3))
    (hvalid : ∀ i ∈ marked (h1 ++ h2), i < n) : r = some true := by
  have hm : ∀ i, i ∈ marked (h1 ++ (DownOp.done, some true) :: h2) ↔ i ∈ marked (h1 ++ h2) := by
    intro i; simp [marked]
  obtain ⟨b1, e1, f1⟩ := C38_done n σ hσ h1 _ _ hh (fun i hi => hvalid i (by simp [marked] at hi ⊢; exact .inl hi))
  obtain ⟨b2, e2, f2⟩ := C38_done n σ hσ (h1 ++ (DownOp.done, some true) :: h2) h3 r (by simpa using hh)
    (fun i hi => hvalid i ((hm i).1 hi))
  cases e1
  rw [e2, f2.2]
  intro i hi
  rw [hm]
  have := f1.1 rfl i hi
  simp only [marked, List.filterMap_append, List.mem_append]
  left; exact this

/-- Why C38 needs valid indexes: marking a piece that does not exist makes a finished download unfinished again. -/
theorem C38_invalid_index : ∃ σ, Sys.Reachable downMethods (BitSet.new 1) σ ∧
    σ.history = [(.setDownloaded 0, none), (.done, some true), (.setDownloaded 2, none), (.done, some false)] := by
  have hs : downMethods.Seq (BitSet.new 1) ((((([] ++ [(.setDownloaded 0, none)]) ++ [(.done, some true)]) ++
      [(.setDownloaded 2, none)]) ++ [(.done, some false)])) _ :=
    .snoc (.snoc (.snoc (.snoc .nil (.last rfl)) (.last rfl)) (.last rfl)) (.last rfl)
  obtain ⟨σ, h1, h2, _⟩ := Sys.of_seq hs
  exact ⟨σ, h1, h2⟩

/-- Two pieces marked in the wrong order and one of them twice. -/
example : ∃ σ, Sys.Reachable downMethods (BitSet.new 2) σ ∧
    σ.history = [(.setDownloaded 1, none), (.done, some false), (.setDownloaded 1, none), (.setDownloaded 0, none),
      (.done, some true)] := by
  have hs : downMethods.Seq (BitSet.new 2) (((((([] ++ [(.setDownloaded 1, none)]) ++ [(.done, some false)]) ++
      [(.setDownloaded 1, none)]) ++ [(.setDownloaded 0, none)]) ++ [(.done, some true)])) _ :=
    .snoc (.snoc (.snoc (.snoc (.snoc .nil (.last rfl)) (.last rfl)) (.last rfl)) (.last rfl)) (.last rfl)
  obtain ⟨σ, h1, h2, _⟩ := Sys.of_seq hs
  exact ⟨σ, h1, h2⟩

end Gotit.Props
