import Verif.Model.Mutex
/-
  Methods under one mutex are atomic: every history is a sequential history.
-/
namespace Gotit

variable {S Op L R : Type} {M : Methods S Op L R} {s0 : S}

/-- A body under way. -/
inductive Methods.Going (M : Methods S Op L R) (op : Op) (s : S) : L → S → Prop
  | start : Going M op s (M.start op) s
  | work {l l' s' s''} : Going M op s l s' → M.step op l s' = (s'', .inl l') → Going M op s l' s''

theorem Methods.Going.runs {op : Op} {s s' s'' : S} {l : L} {r : R} (h : M.Going op s l s') (h2 : M.Runs op l s' s'' r) :
    M.Runs op (M.start op) s s'' r := by
  induction h with
  | start => exact h2
  | work _ hs ih => exact ih (.work hs h2)

/-- The invariant: apart from the goroutine inside the critical section, the shared data is the result of the history. -/
def Sys.Inv (M : Methods S Op L R) (s0 : S) (σ : Sys S Op L R) : Prop :=
  match σ.owner with
  | none => M.Seq s0 σ.history σ.shared ∧ ∀ g, (σ.pc g = .idle ∨ ∃ op, σ.pc g = .waiting op)
  | some o => (∃ s op, M.Seq s0 σ.history s ∧
      ((∃ l, σ.pc o = .running op l ∧ M.Going op s l σ.shared) ∨
       (∃ r, σ.pc o = .leaving op r ∧ M.Runs op (M.start op) s σ.shared r))) ∧
      ∀ g, g ≠ o → (σ.pc g = .idle ∨ ∃ op, σ.pc g = .waiting op)

theorem setPc_self (pc : Nat → Pc Op L R) (g : Nat) (p : Pc Op L R) : setPc pc g p g = p := by simp [setPc]
theorem setPc_ne (pc : Nat → Pc Op L R) {g h : Nat} (p : Pc Op L R) (hn : h ≠ g) : setPc pc g p h = pc h := by
  simp [setPc, hn]

theorem Sys.inv_step {σ σ' : Sys S Op L R} (hi : Sys.Inv M s0 σ) (hs : Sys.Step M σ σ') : Sys.Inv M s0 σ' := by
  have own : ∀ g, (∃ op l, σ.pc g = .running op l) ∨ (∃ op r, σ.pc g = .leaving op r) → σ.owner = some g := by
    intro g hg
    unfold Sys.Inv at hi
    split at hi
    · rename_i ho
      rcases hi.2 g with h | ⟨_, h⟩ <;> rcases hg with ⟨_, _, h'⟩ | ⟨_, _, h'⟩ <;> simp [h] at h'
    · rename_i o ho
      by_cases he : g = o
      · rw [he]; exact ho
      · rcases hi.2 g he with h | ⟨_, h⟩ <;> rcases hg with ⟨_, _, h'⟩ | ⟨_, _, h'⟩ <;> simp [h] at h'
  cases hs with
  | @call g op hg =>
    unfold Sys.Inv at hi ⊢
    cases ho : σ.owner with
    | none =>
      simp only [ho] at hi ⊢
      refine ⟨hi.1, fun h => ?_⟩
      by_cases e : h = g
      · subst e; right; exact ⟨op, setPc_self ..⟩
      · rw [setPc_ne _ _ e]; exact hi.2 h
    | some o =>
      simp only [ho] at hi ⊢
      have hne : o ≠ g := by
        rintro rfl
        obtain ⟨⟨s, op', _, h⟩, _⟩ := hi
        rcases h with ⟨l, h, _⟩ | ⟨r, h, _⟩ <;> simp [h] at hg
      rw [setPc_ne _ _ hne]
      refine ⟨hi.1, fun h hh => ?_⟩
      by_cases e : h = g
      · subst e; right; exact ⟨op, setPc_self ..⟩
      · rw [setPc_ne _ _ e]; exact hi.2 h hh
  | @lock g op hg ho =>
    unfold Sys.Inv at hi ⊢
    simp only [ho] at hi ⊢
    refine ⟨⟨σ.shared, op, hi.1, .inl ⟨_, setPc_self .., .start⟩⟩, fun h hh => ?_⟩
    rw [setPc_ne _ _ hh]; exact hi.2 h
  | @work g op l l' s' hg hstep =>
    have ho := own g (.inl ⟨_, _, hg⟩)
    unfold Sys.Inv at hi ⊢
    simp only [ho] at hi ⊢
    obtain ⟨⟨s, op', hseq, h⟩, hoth⟩ := hi
    refine ⟨?_, fun h hh => by rw [setPc_ne _ _ hh]; exact hoth h hh⟩
    rcases h with ⟨l0, h, hgo⟩ | ⟨r, h, _⟩
    · rw [h] at hg; cases hg
      exact ⟨s, op, hseq, .inl ⟨l', setPc_self .., .work hgo hstep⟩⟩
    · rw [h] at hg; cases hg
  | @last g op l r s' hg hstep =>
    have ho := own g (.inl ⟨_, _, hg⟩)
    unfold Sys.Inv at hi ⊢
    simp only [ho] at hi ⊢
    obtain ⟨⟨s, op', hseq, h⟩, hoth⟩ := hi
    refine ⟨?_, fun h hh => by rw [setPc_ne _ _ hh]; exact hoth h hh⟩
    rcases h with ⟨l0, h, hgo⟩ | ⟨r, h, _⟩
    · rw [h] at hg; cases hg
      exact ⟨s, op, hseq, .inr ⟨r, setPc_self .., hgo.runs (.last hstep)⟩⟩
    · rw [h] at hg; cases hg
  | @unlock g op r hg =>
    have ho := own g (.inr ⟨_, _, hg⟩)
    unfold Sys.Inv at hi ⊢
    simp only [ho] at hi ⊢
    obtain ⟨⟨s, op', hseq, h⟩, hoth⟩ := hi
    rcases h with ⟨l0, h, hgo⟩ | ⟨r', h, hr⟩
    · rw [h] at hg; cases hg
    · rw [h] at hg; cases hg
      refine ⟨.snoc hseq hr, fun h => ?_⟩
      by_cases e : h = g
      · subst e; left; exact setPc_self ..
      · rw [setPc_ne _ _ e]; exact hoth h e

theorem Sys.inv_reachable {σ : Sys S Op L R} (h : Sys.Reachable M s0 σ) : Sys.Inv M s0 σ := by
  induction h with
  | init => exact ⟨.nil, fun _ => .inl rfl⟩
  | step _ hs ih => exact Sys.inv_step ih hs

/-- Every reachable history is a sequential one. -/
theorem Sys.linearizable {σ : Sys S Op L R} (h : Sys.Reachable M s0 σ) : ∃ s, M.Seq s0 σ.history s := by
  have := Sys.inv_reachable h
  unfold Sys.Inv at this
  split at this
  · exact ⟨_, this.1⟩
  · obtain ⟨⟨s, _, hs, _⟩, _⟩ := this; exact ⟨s, hs⟩

/-- Mutual exclusion. -/
theorem Sys.exclusive {σ : Sys S Op L R} (h : Sys.Reachable M s0 σ) {g g' : Nat} {op op' : Op} {l l' : L}
    (hg : σ.pc g = .running op l) (hg' : σ.pc g' = .running op' l') : g = g' := by
  have hi := Sys.inv_reachable h
  unfold Sys.Inv at hi
  split at hi
  · rcases hi.2 g with h | ⟨_, h⟩ <;> simp [h] at hg
  · rename_i o _
    have e : ∀ x op l, σ.pc x = .running op l → x = o := by
      intro x op l hx
      apply Classical.byContradiction
      intro hne
      rcases hi.2 x hne with h | ⟨_, h⟩ <;> simp [h] at hx
    rw [e g _ _ hg, e g' _ _ hg']

/-- Splitting a sequential history. -/
theorem Methods.Seq.snoc_inv {h : List (Op × R)} {op : Op} {r : R} {s' : S} (hs : M.Seq s0 (h ++ [(op, r)]) s') :
    ∃ s, M.Seq s0 h s ∧ M.Runs op (M.start op) s s' r := by
  generalize hh : h ++ [(op, r)] = hist at hs
  cases hs with
  | nil => simp at hh
  | @snoc h2 s op2 _ r2 h1 h2r =>
    have := List.append_inj' hh rfl
    obtain ⟨rfl, e⟩ := this
    simp only [List.cons.injEq, Prod.mk.injEq, and_true] at e
    obtain ⟨rfl, rfl⟩ := e
    exact ⟨s, h1, h2r⟩

theorem Methods.Seq.prefix {h1 h2 : List (Op × R)} {s : S} (hs : M.Seq s0 (h1 ++ h2) s) : ∃ s', M.Seq s0 h1 s' := by
  generalize hh : h1 ++ h2 = hist at hs
  induction hs generalizing h2 with
  | nil => simp at hh; rw [hh.1]; exact ⟨_, .nil⟩
  | @snoc h s op s' r h3 h4 ih =>
    rcases List.eq_nil_or_concat h2 with rfl | ⟨t, x, rfl⟩
    · rw [List.append_nil] at hh; rw [hh]; exact ⟨_, .snoc h3 h4⟩
    · rw [List.concat_eq_append, ← List.append_assoc] at hh
      exact ih (List.append_inj' hh rfl).1

/-- Conversely every sequential history can happen (one goroutine doing all the calls). -/
theorem Sys.of_seq {h : List (Op × R)} {s : S} (hs : M.Seq s0 h s) :
    ∃ σ, Sys.Reachable M s0 σ ∧ σ.history = h ∧ σ.shared = s ∧ σ.owner = none ∧ ∀ g, σ.pc g = .idle := by
  induction hs with
  | nil => exact ⟨_, .init, rfl, rfl, rfl, fun _ => rfl⟩
  | @snoc h s op s' r _ hr ih =>
    obtain ⟨σ, h1, h2, h3, h4, h5⟩ := ih
    have run : ∀ {l s s' r}, M.Runs op l s s' r → ∀ σ : Sys S Op L R, Sys.Reachable M s0 σ → σ.pc 0 = .running op l →
        σ.shared = s → (∀ g, g ≠ 0 → σ.pc g = .idle) →
        ∃ σ', Sys.Reachable M s0 σ' ∧ σ'.history = σ.history ∧ σ'.shared = s' ∧ σ'.pc 0 = .leaving op r ∧
          ∀ g, g ≠ 0 → σ'.pc g = .idle := by
      intro l s s' r hr
      induction hr with
      | last hs =>
        intro σ a1 a2 a3 a4
        subst a3
        exact ⟨_, .step a1 (.last a2 hs), rfl, rfl, by simp [setPc_self], fun g hg => by simp [setPc_ne _ _ hg, a4 g hg]⟩
      | work hs _ ih =>
        intro σ a1 a2 a3 a4
        subst a3
        obtain ⟨σ', b1, b2, b3⟩ := ih _ (.step a1 (.work a2 hs)) (by simp [setPc_self]) rfl
          (fun g hg => by simp [setPc_ne _ _ hg, a4 g hg])
        exact ⟨σ', b1, b2, b3⟩
    have r1 := Sys.Reachable.step h1 (.call (g := 0) (op := op) (h5 0))
    have r2 := Sys.Reachable.step r1 (.lock (g := 0) (op := op) (by simp [setPc_self]) h4)
    obtain ⟨σ', b1, b2, b3, b4, b5⟩ := run hr _ r2 (by simp [setPc_self]) h3
      (fun g hg => by simp [setPc_ne _ _ hg, h5 g])
    refine ⟨_, .step b1 (.unlock b4), ?_, b3, rfl, ?_⟩
    · simp only [b2, h2]
    · intro g
      by_cases e : g = 0
      · subst e; simp [setPc_self]
      · simp [setPc_ne _ _ e, b5 g e]

end Gotit
