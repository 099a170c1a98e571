import Verif.Spec.Deadlock
import Verif.Props.Race
/-
  C84: mutexes and deadlock.
-/
namespace Gotit.Props
open Gotit.Shared Gotit.Spec

theorem holds_append {tr : Trace} {g h : Gid} {e : Act} {m : Mtx} :
    HoldsMutex (tr ++ [(g, e)]) h m ↔ (h = g ∧ e = .lock m) ∨ (HoldsMutex tr h m ∧ ¬ (h = g ∧ e = .unlock m)) := by
  constructor
  · rintro ⟨i, h1, h2⟩
    rcases at_append h1 with h3 | ⟨-, h3⟩
    · right
      refine ⟨⟨i, h3, fun j hj h4 => h2 j hj (at_old h4)⟩, ?_⟩
      rintro ⟨rfl, rfl⟩
      exact h2 tr.length (at_lt h3) at_new
    · cases h3; exact .inl ⟨rfl, rfl⟩
  · rintro (⟨rfl, rfl⟩ | ⟨⟨i, h1, h2⟩, h3⟩)
    · refine ⟨tr.length, at_new, fun j hj h4 => ?_⟩
      have := at_lt h4
      simp at this
      omega
    · refine ⟨i, at_old h1, fun j hj h4 => ?_⟩
      rcases at_append h4 with h5 | ⟨-, h5⟩
      · exact h2 j hj h5
      · cases h5; exact h3 ⟨rfl, rfl⟩

theorem holds_iff {ts : List Nat} (hn : ts.Nodup) {σ : State} (hr : Reachable ts σ) (g : Gid) (m : Mtx) :
    HoldsMutex σ.trace g m ↔ σ.held g = some m := by
  induction hr generalizing g m with
  | start => simp [HoldsMutex, State.start]
  | @step σ σ' hr st ih =>
    have S := static_reachable hn hr
    cases st with
    | next h0 hc => exact ih g m
    | close h0 hc => exact ih g m
    | @act g' a e rest h0 hc =>
      have ok := S.ok g'
      rw [h0] at ok
      have ok := ok.1
      simp only [State.after]
      rw [holds_append, ih]
      cases hc <;> simp only [heldAfter, reduceCtorEq, and_false, false_or, not_false_eq_true, and_true, Act.lock.injEq, Act.unlock.injEq]
      · rename_i m' hf
        simp only [okAct] at ok
        by_cases e : g = g'
        · subst e
          rw [put_same, ok]
          simp
        · rw [put_other _ _ e]; simp [e]
      · rename_i m'
        simp only [okAct] at ok
        by_cases e : g = g'
        · subst e
          rw [put_same, ok]
          simp
        · rw [put_other _ _ e]; simp [e]

/-- C84: no goroutine locks a mutex while it holds one, and no mutex is held twice. -/
theorem C84_one {ts : List Nat} (hn : ts.Nodup) {σ : State} (hr : Reachable ts σ) {g h : Gid} {m m' : Mtx} :
    (HoldsMutex σ.trace g m → HoldsMutex σ.trace g m' → m = m') ∧ (HoldsMutex σ.trace g m → HoldsMutex σ.trace h m → g = h) := by
  rw [holds_iff hn hr, holds_iff hn hr, holds_iff hn hr]
  refine ⟨fun h1 h2 => ?_, (static_reachable hn hr).excl g h m⟩
  rw [h1] at h2
  exact Option.some.inj h2

/-- C84: whoever holds a mutex is not waiting for anything: not for another mutex, nor for the channel, the wait group or the context. -/
theorem C84_blocked {ts : List Nat} (hn : ts.Nodup) {σ : State} (hr : Reachable ts σ) {g : Gid} {m : Mtx} (hh : HoldsMutex σ.trace g m)
    {a : Act} {rest : List Act} (h0 : σ.todo g = a :: rest) : ¬ Waits a := by
  rw [holds_iff hn hr] at hh
  have ok := (static_reachable hn hr).ok g
  rw [h0] at ok
  have ok := ok.1
  intro hw
  cases a <;> simp only [Waits] at hw <;> simp only [okAct] at ok <;> rw [ok] at hh <;> cases hh

theorem StepsOf_trans {g : Gid} {a b c : State} (h1 : StepsOf g a b) (h2 : StepsOf g b c) : StepsOf g a c := by
  induction h1 with
  | none => exact h2
  | some s _ ih => exact .some s (ih h2)

/-- A goroutine holding a mutex works through its actions. -/
theorem run_held {ts : List Nat} (hn : ts.Nodup) {g : Gid} {m : Mtx} : ∀ (l : List Act) {σ : State}, Reachable ts σ → σ.todo g = l → σ.held g = some m →
    ∃ σ', StepsOf g σ σ' ∧ Reachable ts σ' ∧
      (σ'.held g = none ∨ (σ'.todo g = [] ∧ σ'.held g = some m ∧ endHeld (σ'.cont g) = endHeld (σ.cont g) ∧ (σ.cont g = σ'.cont g ∨ l ≠ []))) := by
  intro l
  induction l with
  | nil => exact fun {σ} hr h0 hh => ⟨σ, .none, hr, .inr ⟨h0, hh, rfl, .inl rfl⟩⟩
  | cons a l ih =>
    intro σ hr h0 hh
    have S := static_reachable hn hr
    have ok := S.ok g
    rw [h0] at ok
    have oka : okAct g (σ.held g) a := ok.1
    have can : ∃ e, Can σ a e := by
      cases a with
      | popAny q =>
        cases hq : (σ.queue q).getLast? with
        | none => exact ⟨_, .popNone (List.getLast?_eq_none_iff.1 hq)⟩
        | some k => exact ⟨_, .pop hq⟩
      | lock m' => simp only [okAct] at oka; rw [oka] at hh; cases hh
      | recvAny => simp only [okAct] at oka; rw [oka] at hh; cases hh
      | init => exact ⟨_, .init⟩
      | rd => exact ⟨_, .rd⟩
      | wr => exact ⟨_, .wr⟩
      | insert => exact ⟨_, .insert⟩
      | push => exact ⟨_, .push⟩
      | pop => exact oka.elim
      | recv => exact oka.elim
      | unlock => exact ⟨_, .unlock⟩
      | go => exact ⟨_, .go⟩
      | send => exact ⟨_, .send⟩
      | atomic => exact ⟨_, .atomic⟩
      | done => exact ⟨_, .done⟩
      | wait => exact ⟨_, .wait⟩
      | cancel => exact ⟨_, .cancel⟩
      | observe => exact ⟨_, .observe⟩
    obtain ⟨e, hc⟩ := can
    have notgo : ∀ h c, e ≠ .go h c := by
      intro h c he
      have := (can_go hc).1 he
      subst this
      simp only [okAct] at oka; rw [oka] at hh; cases hh
    have A := after_view h0 hc (fun c he => notgo g c he)
    have st : StepOf g σ (σ.after g e l) := by
      refine ⟨.act h0 hc, fun h hne => ?_⟩
      constructor
      · rcases A.todo h with h1 | ⟨⟨c, h1⟩, -⟩
        · rw [h1, if_neg hne]
        · exact absurd h1 (notgo h c)
      · rcases A.cont h with ⟨h1, -⟩ | ⟨c, h1, -⟩ | ⟨h1, -⟩
        · exact h1
        · exact absurd h1 (notgo h c)
        · exact absurd h1 hne
    have hr' : Reachable ts (σ.after g e l) := .step hr st.1
    have todo' : (σ.after g e l).todo g = l := by
      rcases A.todo g with h1 | ⟨⟨c, h1⟩, -⟩
      · rw [h1, if_pos rfl]
      · exact absurd h1 (notgo g c)
    have cont' : endHeld ((σ.after g e l).cont g) = endHeld (σ.cont g) := by
      rcases A.cont g with ⟨h1, -⟩ | ⟨c, h1, -⟩ | ⟨-, k, h1, -⟩
      · rw [h1]
      · exact absurd h1 (notgo g c)
      · rw [h1, hold_end]
    have held' : (σ.after g e l).held g = heldStep (σ.held g) e := by rw [A.held, if_pos rfl]
    by_cases hu : ∃ m', e = .unlock m'
    · obtain ⟨m', rfl⟩ := hu
      exact ⟨_, .some st .none, hr', .inl held'⟩
    · have hl : ∀ m', e ≠ .lock m' := by
        intro m' he
        subst he
        cases hc
        simp only [okAct] at oka; rw [oka] at hh; cases hh
      have held'' : (σ.after g e l).held g = some m := by
        rw [held']
        cases e <;> first | exact hh | exact absurd rfl (hl _) | exact absurd ⟨_, rfl⟩ hu
      obtain ⟨σ', h1, h2, h3⟩ := ih hr' todo' held''
      refine ⟨σ', .some st h1, h2, ?_⟩
      rcases h3 with h3 | ⟨h3, h4, h5, -⟩
      · exact .inl h3
      · exact .inr ⟨h3, h4, h5.trans cont', .inr (by simp)⟩

/-- C84: the holder of a mutex can release it by its own steps, whatever the others do not do. -/
theorem C84_release {ts : List Nat} (hn : ts.Nodup) {σ : State} (hr : Reachable ts σ) {g : Gid} {m : Mtx} (hh : HoldsMutex σ.trace g m) :
    ∃ σ', StepsOf g σ σ' ∧ Reachable ts σ' ∧ ¬ HoldsMutex σ'.trace g m := by
  rw [holds_iff hn hr] at hh
  obtain ⟨σ₁, s₁, r₁, h₁⟩ := run_held hn _ hr rfl hh
  rcases h₁ with h₁ | ⟨t₁, h₁, -, -⟩
  · exact ⟨σ₁, s₁, r₁, by rw [holds_iff hn r₁, h₁]; simp⟩
  have S := static_reachable hn r₁
  have ok := S.ok g
  rw [t₁, h₁] at ok
  have ok : some m = endHeld (σ₁.cont g) := ok
  have role := S.role g
  -- one more fragment
  have more : ∃ σ₂, StepOf g σ₁ σ₂ ∧ σ₂.held g = some m ∧ endHeld (σ₂.cont g) = none := by
    cases hc : σ₁.cont g <;> rw [hc] at ok role <;> simp only [endHeld, reduceCtorEq] at ok
    · have hg : g = .main := by
        cases g <;> simp [Role] at role
        rfl
      subst hg
      refine ⟨_, ⟨.close t₁ hc, fun h hne => ⟨put_other _ _ hne, put_other _ _ hne⟩⟩, h₁, ?_⟩
      simp only [put_same]; rfl
    · rename_i q p
      refine ⟨_, ⟨.next (g := g) (acts := [.unlock .pool]) (c' := .peers q) t₁ (by rw [hc]; exact .known), fun h hne => ⟨put_other _ _ hne, put_other _ _ hne⟩⟩, h₁, ?_⟩
      simp only [put_same]; rfl
  obtain ⟨σ₂, st, h₂, e₂⟩ := more
  have r₂ : Reachable ts σ₂ := .step r₁ st.1
  obtain ⟨σ₃, s₃, r₃, h₃⟩ := run_held hn _ r₂ rfl h₂
  rcases h₃ with h₃ | ⟨t₃, h₃, e₃, -⟩
  · exact ⟨σ₃, StepsOf_trans s₁ (.some st s₃), r₃, by rw [holds_iff hn r₃, h₃]; simp⟩
  · have ok := (static_reachable hn r₃).ok g
    rw [t₃, h₃] at ok
    have ok : some m = endHeld (σ₃.cont g) := ok
    rw [e₃, e₂] at ok
    cases ok

/-- C84: no deadlock on mutexes. A goroutine that waits for a mutex waits for another one that holds it, is not waiting itself, and can
release it by its own steps. -/
theorem C84_no_deadlock {ts : List Nat} (hn : ts.Nodup) {σ : State} (hr : Reachable ts σ) {g : Gid} {m : Mtx} {rest : List Act}
    (h0 : σ.todo g = .lock m :: rest) (hw : ∀ σ', ¬ StepOf g σ σ') :
    ∃ h, h ≠ g ∧ HoldsMutex σ.trace h m ∧ (∀ a l, σ.todo h = a :: l → ¬ Waits a) ∧ ∃ σ', StepsOf h σ σ' ∧ ¬ HoldsMutex σ'.trace h m := by
  have S := static_reachable hn hr
  have ok := S.ok g
  rw [h0] at ok
  have ok : σ.held g = none := ok.1
  have : ∃ h, σ.held h = some m := by
    apply Classical.byContradiction
    intro hne
    have hc : Can σ (.lock m) (.lock m) := .lock (fun h hh => hne ⟨h, hh⟩)
    have A := after_view h0 hc (fun c he => by cases he)
    refine hw _ ⟨.act h0 hc, fun h hne => ?_⟩
    constructor
    · rcases A.todo h with h1 | ⟨⟨c, h1⟩, -⟩
      · rw [h1, if_neg hne]
      · cases h1
    · rcases A.cont h with ⟨h1, -⟩ | ⟨c, h1, -⟩ | ⟨h1, -⟩
      · exact h1
      · cases h1
      · exact absurd h1 hne
  obtain ⟨h, hh⟩ := this
  have hH := (holds_iff hn hr h m).2 hh
  refine ⟨h, (fun e => by rw [e, ok] at hh; cases hh), hH, fun a l ha => C84_blocked hn hr hH ha, ?_⟩
  obtain ⟨σ', h1, -, h2⟩ := C84_release hn hr hH
  exact ⟨σ', h1, h2⟩

theorem waits_held {σ : State} {g h : Gid} {m : Mtx} {rest : List Act} (h0 : σ.todo g = .lock m :: rest) (hh : σ.held h = some m)
    (hgo : ∀ g' h' c l, σ.todo g' = .go h' c :: l → h' ≠ g') : ∀ σ', ¬ StepOf g σ σ' := by
  rintro σ' ⟨st, ho⟩
  cases st with
  | @act g' a e l h1 hc =>
    by_cases e' : g' = g
    · subst e'
      rw [h0] at h1
      cases h1
      cases hc with
      | lock hf => exact hf h hh
    · have := (ho g' e').1
      have A := after_view h1 hc (fun c he => by
        rw [can_go hc] at he
        subst he
        exact hgo g' g' c l h1 rfl)
      have hl := congrArg List.length this
      rcases A.todo g' with h2 | ⟨-, h2⟩
      · rw [h2, if_pos rfl, h1] at hl; simp at hl
      · rw [h2, h1] at hl; simp at hl
  | @next g' acts c' h1 hc =>
    have hne : g' ≠ g := by intro e; subst e; rw [h0] at h1; cases h1
    obtain ⟨h2, h3⟩ := ho g' hne
    simp only [put_same] at h2 h3
    rw [h1] at h2
    subst h2
    rw [← h3] at hc
    cases hx : c' <;> rw [hx] at hc <;> cases hc
  | close h1 hc =>
    have hne : Gid.main ≠ g := by intro e; subst e; rw [h0] at h1; cases h1
    have h2 := (ho _ hne).1
    simp only [put_same] at h2
    rw [h1] at h2
    simp at h2

theorem head_mem {l r : List Act} {a : Act} (h : l = a :: r) : a ∈ l := h ▸ List.mem_cons_self

/-- Stop waits for the pool while a tracker goroutine adds a peer. -/
example : ∃ σ rest, Reachable [0] σ ∧ σ.todo .main = .lock .pool :: rest ∧ (∀ σ', ¬ StepOf .main σ σ') ∧ HoldsMutex σ.trace (.tracker 0) .pool := by
  have r0 : Reachable [0] _ := .start
  have r1 := Reachable.step r0 (.act (g := .main) rfl .init)
  have r2 := Reachable.step r1 (.act (g := .main) rfl .init)
  have r3 := Reachable.step r2 (.act (g := .main) rfl .init)
  have r4 := Reachable.step r3 (.act (g := .main) rfl .init)
  have r5 := Reachable.step r4 (.act (g := .main) rfl .init)
  have r6 := Reachable.step r5 (.act (g := .main) rfl .wr)
  have r7 := Reachable.step r6 (.act (g := .main) rfl .go)
  have r8 := Reachable.step r7 (.act (g := .main) rfl .go)
  have r9 := Reachable.step r8 (.next (g := .tracker 0) rfl .announced)
  have r10 := Reachable.step r9 (.act (g := .tracker 0) rfl .atomic)
  have r11 := Reachable.step r10 (.act (g := .tracker 0) rfl .atomic)
  have r12 := Reachable.step r11 (.act (g := .tracker 0) rfl .atomic)
  have r13 := Reachable.step r12 (.act (g := .tracker 0) rfl .init)
  have r14 := Reachable.step r13 (.next (g := .tracker 0) rfl .newPeer)
  have r15 := Reachable.step r14 (.act (g := .tracker 0) rfl .wr)
  have r16 := Reachable.step r15 (.act (g := .tracker 0) rfl .wr)
  have r17 := Reachable.step r16 (.act (g := .tracker 0) rfl (.lock (fun h e => nomatch e)))
  have r18 := Reachable.step r17 (.act (g := .main) rfl .go)
  have r19 := Reachable.step r18 (.act (g := .main) rfl .wait)
  have r20 := Reachable.step r19 (.act (g := .main) rfl .observe)
  have r21 := Reachable.step r20 (.act (g := .main) rfl .rd)
  have r22 := Reachable.step r21 (.act (g := .main) rfl .rd)
  have r23 := Reachable.step r22 (.act (g := .main) rfl .cancel)
  have hn : ([0] : List Nat).Nodup := by decide
  refine ⟨_, _, r23, rfl, waits_held (h := .tracker 0) rfl rfl ?_, ?_⟩
  · intro g' h' c l hl
    exact (go_off (static_reachable hn r23) (head_mem hl)).2
  · exact (holds_iff hn r23 _ _).2 rfl

end Gotit.Props
