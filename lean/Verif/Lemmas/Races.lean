import Verif.Lemmas.Shared
/-
  The trace of a reachable state: what the later actions of a goroutine are ordered after.
-/
namespace Gotit.Shared
open Gotit.Spec

/-! ## Happens before in a growing trace -/

theorem at_append {tr : Trace} {x y : Event} {i : Nat} (h : (tr ++ [x])[i]? = some y) : tr[i]? = some y ∨ (i = tr.length ∧ y = x) := by
  rw [List.getElem?_append] at h
  split at h
  · exact .inl h
  · rename_i hn
    have hl := (List.getElem?_eq_some_iff.1 h).1
    simp at hl
    have : i = tr.length := by omega
    subst this
    simp at h
    exact .inr ⟨rfl, h.symm⟩

theorem at_old {tr : Trace} {x y : Event} {i : Nat} (h : tr[i]? = some y) : (tr ++ [x])[i]? = some y := by
  have hl := (List.getElem?_eq_some_iff.1 h).1
  rw [List.getElem?_append_left hl]
  exact h

theorem at_new {tr : Trace} {x : Event} : (tr ++ [x])[tr.length]? = some x := by simp

theorem at_lt {tr : Trace} {y : Event} {i : Nat} (h : tr[i]? = some y) : i < tr.length := (List.getElem?_eq_some_iff.1 h).1

theorem hb_old {r : Event → Event → Prop} {tr : Trace} {x : Event} {i j : Nat} (h : HB r tr i j) : HB r (tr ++ [x]) i j := by
  induction h with
  | sync h1 h2 h3 h4 => exact .sync h1 (at_old h2) (at_old h3) h4
  | trans _ _ ih1 ih2 => exact .trans ih1 ih2

/-- Whatever `g` does next is ordered after the event at `i`. -/
def Knows (tr : Trace) (g : Gid) (i : Nat) : Prop :=
  ∃ j e, tr[j]? = some e ∧ (i = j ∨ HB Before tr i j) ∧ (e.1 = g ∨ ∃ c, e.2 = .go g c)

/-- So is the next lock of `m`. -/
def KnowsM (tr : Trace) (m : Mtx) (i : Nat) : Prop := ∃ j g, tr[j]? = some (g, .unlock m) ∧ (i = j ∨ HB Before tr i j)

/-- So is the receive of `k`. -/
def KnowsC (tr : Trace) (k : Nat) (i : Nat) : Prop := ∃ j g, tr[j]? = some (g, .send k) ∧ (i = j ∨ HB Before tr i j)

section
variable {tr : Trace} {x : Event} {g h : Gid} {i k : Nat} {m : Mtx} {e : Act}

theorem knows_old (h1 : Knows tr g i) : Knows (tr ++ [x]) g i := by
  obtain ⟨j, e, h1, h2, h3⟩ := h1
  exact ⟨j, e, at_old h1, h2.imp_right hb_old, h3⟩

theorem knowsM_old (h1 : KnowsM tr m i) : KnowsM (tr ++ [x]) m i := by
  obtain ⟨j, e, h1, h2⟩ := h1
  exact ⟨j, e, at_old h1, h2.imp_right hb_old⟩

theorem knowsC_old (h1 : KnowsC tr k i) : KnowsC (tr ++ [x]) k i := by
  obtain ⟨j, e, h1, h2⟩ := h1
  exact ⟨j, e, at_old h1, h2.imp_right hb_old⟩

theorem hb_step {j : Nat} {f : Event} (h1 : tr[j]? = some f) (h2 : i = j ∨ HB Before tr i j) (h3 : Before f x) : HB Before (tr ++ [x]) i tr.length := by
  have h4 : HB Before (tr ++ [x]) j tr.length := .sync (at_lt h1) (at_old h1) at_new h3
  rcases h2 with rfl | h2
  · exact h4
  · exact .trans (hb_old h2) h4

theorem knows_hb (h1 : Knows tr g i) : HB Before (tr ++ [(g, e)]) i tr.length := by
  obtain ⟨j, ⟨f1, f2⟩, h1, h2, h3⟩ := h1
  refine hb_step h1 h2 ?_
  rcases h3 with h3 | ⟨c, h3⟩
  · cases h3; exact .sameGoroutine
  · cases h3; exact .goStatement

theorem knowsM_hb (h1 : KnowsM tr m i) : HB Before (tr ++ [(g, .lock m)]) i tr.length := by
  obtain ⟨j, f, h1, h2⟩ := h1
  exact hb_step h1 h2 .mutex

theorem knowsC_hb (h1 : KnowsC tr k i) : HB Before (tr ++ [(g, .recv k)]) i tr.length := by
  obtain ⟨j, f, h1, h2⟩ := h1
  exact hb_step h1 h2 .channel

theorem knows_of_hb (h1 : i = tr.length ∨ HB Before (tr ++ [(g, e)]) i tr.length) : Knows (tr ++ [(g, e)]) g i :=
  ⟨_, _, at_new, h1, .inl rfl⟩

theorem knows_go {c : Cont} (h1 : Knows tr g i) : Knows (tr ++ [(g, .go h c)]) h i := ⟨_, _, at_new, .inr (knows_hb h1), .inr ⟨c, rfl⟩⟩

theorem knows_lock (h1 : KnowsM tr m i) : Knows (tr ++ [(g, .lock m)]) g i := knows_of_hb (.inr (knowsM_hb h1))

theorem knows_recv (h1 : KnowsC tr k i) : Knows (tr ++ [(g, .recv k)]) g i := knows_of_hb (.inr (knowsC_hb h1))

theorem knows_unlock (h1 : Knows tr g i) : KnowsM (tr ++ [(g, .unlock m)]) m i := ⟨_, g, at_new, .inr (knows_hb h1)⟩

theorem knows_send (h1 : Knows tr g i) : KnowsC (tr ++ [(g, .send k)]) k i := ⟨_, g, at_new, .inr (knows_hb h1)⟩

theorem knows_own (h1 : tr[i]? = some (g, e)) : Knows tr g i := ⟨i, _, h1, .inl rfl, .inl rfl⟩

end

theorem access_P {e : Act} {x : Loc} {w : Bool} {p : Nat} (h : access e = some (x, w)) (hp : locP x p) : actP e p := by
  cases e <;> simp [access] at h <;> obtain ⟨rfl, rfl⟩ := h <;> first | exact hp | cases hp

theorem access_Q {e : Act} {x : Loc} {w : Bool} {p : Nat} (h : access e = some (x, w)) (hp : locQ x p) : actQ e p := by
  cases e <;> simp [access] at h <;> obtain ⟨rfl, rfl⟩ := h <;> first | exact hp | cases hp

theorem access_M {e : Act} {x : Loc} {w : Bool} {p : Nat} (h : access e = some (x, w)) (hp : locM x p) : actM e p := by
  cases e <;> simp [access] at h <;> obtain ⟨rfl, rfl⟩ := h <;> first | exact hp | cases hp

theorem can_M {σ : State} {a e : Act} (hc : Can σ a e) (x : Nat) : actM e x ↔ actM a x := by
  cases hc <;> simp [actM, locM]

theorem can_guard {σ : State} {a e : Act} (hc : Can σ a e) (g : Gid) : guard g e = guard g a := by
  cases hc <;> simp [guard]

theorem can_init {σ : State} {a e : Act} (hc : Can σ a e) {x : Loc} : e = .init x ↔ a = .init x := by cases hc <;> simp

theorem can_legal {σ : State} {a e : Act} (hc : Can σ a e) {g : Gid} (h : Legal g a) : Legal g e := by
  cases hc <;> first | exact h | simp [Legal, access, LegalLoc]

/-- The pairs of accesses that may race: Stop reads `Peer.conn` while `connect` sets it. -/
def Excepted (e f : Event) : Prop :=
  ∃ p t, (e = (.main, .rd (.conn p)) ∧ f = (.tracker t, .wr (.conn p))) ∨ (e = (.tracker t, .wr (.conn p)) ∧ f = (.main, .rd (.conn p)))

structure Dyn (σ : State) : Prop where
  legal : ∀ (i : Nat) g e, σ.trace[i]? = some (g, e) → Legal g e
  on : ∀ (i : Nat) g e, σ.trace[i]? = some (g, e) → σ.cont g ≠ .off
  boundP : ∀ (i : Nat) g e p, σ.trace[i]? = some (g, e) → g ≠ .main → actP e p → p < σ.next
  boundQ : ∀ (i : Nat) g e q, σ.trace[i]? = some (g, e) → actQ e q → q < σ.next
  boundM : ∀ (i : Nat) g e k, σ.trace[i]? = some (g, e) → actM e k → k < σ.next
  mainInit : ∀ (i : Nat) g x, σ.trace[i]? = some (g, .init x) → mainLoc x → ∀ h, σ.cont h ≠ .off → Knows σ.trace h i
  locked : ∀ (i : Nat) g e m, σ.trace[i]? = some (g, e) → guard g e = some m →
    (∀ h, σ.held h = some m → Knows σ.trace h i) ∧ ((∀ h, σ.held h ≠ some m) → KnowsM σ.trace m i)
  initQ : ∀ (i : Nat) g q, σ.trace[i]? = some (g, .init (.failed q)) → ∀ h, UsesQ σ h q → Knows σ.trace h i
  freshQ : ∀ g q, Act.init (.failed q) ∈ σ.todo g → ∀ (i : Nat) h e, σ.trace[i]? = some (h, e) → ¬ actQ e q
  initM : ∀ (i : Nat) g k, σ.trace[i]? = some (g, .init (.msg k)) → ∀ h, UsesM σ h k → Knows σ.trace h i
  freshM : ∀ g k, Act.init (.msg k) ∈ σ.todo g → ∀ (i : Nat) h e, σ.trace[i]? = some (h, e) → ¬ actM e k
  queued : ∀ (i : Nat) g k, σ.trace[i]? = some (g, .init (.msg k)) → ∀ q, k ∈ σ.queue q →
    (∀ h, σ.held h = some (.failed q) → Knows σ.trace h i) ∧ ((∀ h, σ.held h ≠ some (.failed q)) → KnowsM σ.trace (.failed q) i)
  sent : ∀ (i : Nat) g k, σ.trace[i]? = some (g, .init (.msg k)) → k ∈ σ.chan → KnowsC σ.trace k i
  peer : ∀ (i : Nat) g e p, σ.trace[i]? = some (g, e) → g ≠ .main → actP e p → ∀ h, h ≠ .main → UsesP σ h p → Knows σ.trace h i
  ordered : ∀ (i j : Nat) e f x v w, i < j → σ.trace[i]? = some e → σ.trace[j]? = some f → access e.2 = some (x, v) → access f.2 = some (x, w) →
    (v = true ∨ w = true) → HB Before σ.trace i j ∨ Excepted e f

theorem dyn_start (ts : List Nat) : Dyn (.start ts) := by
  constructor <;> simp [State.start]

theorem dyn_next {σ : State} (S : Static σ) (D : Dyn σ) {g : Gid} {acts : List Act} {c' : Cont} (h0 : σ.todo g = [])
    (hc : Continue σ.next (σ.cont g) acts c') :
    Dyn { σ with todo := put σ.todo g acts, cont := put σ.cont g c', next := σ.next + 1 } := by
  have on := (continue_on hc)
  have boff : ∀ h, put σ.cont g c' h ≠ .off → σ.cont h ≠ .off := by
    intro h hh
    by_cases e : h = g
    · subst e; exact on.2
    · rw [put_other _ _ e] at hh; exact hh
  have hg : g ≠ .main := by
    intro e; subst e
    exact continue_main hc (S.role _)
  have uP : ∀ h p, UsesP { σ with todo := put σ.todo g acts, cont := put σ.cont g c', next := σ.next + 1 } h p → UsesP σ h p ∨ p = σ.next := by
    intro h p hu
    by_cases e : h = g
    · subst e
      simp only [UsesP, put_same] at hu
      rcases continue_P hc hu with h1 | h1
      · exact .inl (.inr h1)
      · exact .inr h1
    · simp only [UsesP, put_other _ _ e] at hu; exact .inl hu
  have uQ : ∀ h p, UsesQ { σ with todo := put σ.todo g acts, cont := put σ.cont g c', next := σ.next + 1 } h p → UsesQ σ h p ∨ p = σ.next := by
    intro h p hu
    by_cases e : h = g
    · subst e
      simp only [UsesQ, put_same] at hu
      rcases continue_Q hc hu with h1 | h1
      · exact .inl (.inr h1)
      · exact .inr h1
    · simp only [UsesQ, put_other _ _ e] at hu; exact .inl hu
  have uM : ∀ h p, UsesM { σ with todo := put σ.todo g acts, cont := put σ.cont g c', next := σ.next + 1 } h p → UsesM σ h p ∨ p = σ.next := by
    intro h p hu
    by_cases e : h = g
    · subst e
      simp only [UsesM, put_same] at hu
      rcases continue_M hc hu with h1 | h1
      · exact .inl (.inr h1)
      · exact .inr h1
    · simp only [UsesM, put_other _ _ e] at hu; exact .inl hu
  constructor
  · exact D.legal
  · intro i h e hi
    by_cases e : h = g
    · subst e; simp only [put_same]; exact on.1
    · simp only [put_other _ _ e]; exact D.on i h _ hi
  · intro i h e p h1 h2 h3
    have := D.boundP i h e p h1 h2 h3
    simp only; omega
  · intro i h e p h1 h2
    have := D.boundQ i h e p h1 h2
    simp only; omega
  · intro i h e p h1 h2
    have := D.boundM i h e p h1 h2
    simp only; omega
  · intro i g' x h1 h2 h h3
    exact D.mainInit i g' x h1 h2 h (boff h h3)
  · exact D.locked
  · intro i g' q h1 h h2
    rcases uQ h q h2 with h3 | h3
    · exact D.initQ i g' q h1 h h3
    · have := D.boundQ i g' _ q h1 rfl; omega
  · intro g' q h1 i h e h2 h3
    by_cases e' : g' = g
    · subst e'
      simp only [put_same] at h1
      have := D.boundQ i h e q h2 h3
      rcases continue_init hc h1 with h1 | h1
      · cases h1; omega
      · cases h1
    · simp only [put_other _ _ e'] at h1
      exact D.freshQ g' q h1 i h e h2 h3
  · intro i g' q h1 h h2
    rcases uM h q h2 with h3 | h3
    · exact D.initM i g' q h1 h h3
    · have := D.boundM i g' _ q h1 rfl; omega
  · intro g' q h1 i h e h2 h3
    by_cases e' : g' = g
    · subst e'
      simp only [put_same] at h1
      have := D.boundM i h e q h2 h3
      rcases continue_init hc h1 with h1 | h1
      · cases h1
      · cases h1; omega
    · simp only [put_other _ _ e'] at h1
      exact D.freshM g' q h1 i h e h2 h3
  · exact D.queued
  · exact D.sent
  · intro i g' e p h1 h2 h3 h h4 h5
    rcases uP h p h5 with h6 | h6
    · exact D.peer i g' e p h1 h2 h3 h h4 h6
    · have := D.boundP i g' e p h1 h2 h3; omega
  · exact D.ordered

theorem dyn_close {σ : State} (S : Static σ) (D : Dyn σ) (h0 : σ.todo .main = []) (hc : σ.cont .main = .closing) :
    Dyn { σ with todo := put σ.todo .main (σ.pool.map (fun p => .rd (.conn p)) ++ [.wr .poolField, .unlock .pool]), cont := put σ.cont .main .ended } := by
  have boff : ∀ h, put σ.cont .main .ended h ≠ .off → σ.cont h ≠ .off := by
    intro h hh
    by_cases e : h = .main
    · subst e; rw [hc]; simp
    · rw [put_other _ _ e] at hh; exact hh
  have noinit : ∀ g x, Act.init x ∈ put σ.todo .main (σ.pool.map (fun p => Act.rd (.conn p)) ++ [.wr .poolField, .unlock .pool]) g → Act.init x ∈ σ.todo g := by
    intro g x hx
    by_cases e : g = .main
    · subst e; rw [put_same] at hx; simp at hx
    · rw [put_other _ _ e] at hx; exact hx
  have uQ : ∀ h q, UsesQ { σ with todo := put σ.todo .main (σ.pool.map (fun p => .rd (.conn p)) ++ [.wr .poolField, .unlock .pool]), cont := put σ.cont .main .ended } h q → UsesQ σ h q := by
    intro h q hu
    by_cases e : h = .main
    · subst e
      simp only [UsesQ, put_same] at hu
      rcases hu with ⟨a, ha, hq⟩ | hu
      · simp at ha
        rcases ha with ⟨p, h1, rfl⟩ | rfl | rfl <;> simp [actQ, locQ] at hq
      · exact absurd hu (by simp [contQ])
    · simp only [UsesQ, put_other _ _ e] at hu
      exact hu
  have uM : ∀ h q, UsesM { σ with todo := put σ.todo .main (σ.pool.map (fun p => .rd (.conn p)) ++ [.wr .poolField, .unlock .pool]), cont := put σ.cont .main .ended } h q → UsesM σ h q := by
    intro h q hu
    by_cases e : h = .main
    · subst e
      simp only [UsesM, put_same] at hu
      rcases hu with ⟨a, ha, hq⟩ | hu
      · simp at ha
        rcases ha with ⟨p, h1, rfl⟩ | rfl | rfl <;> simp [actM, locM] at hq
      · exact absurd hu (by simp [contM])
    · simp only [UsesM, put_other _ _ e] at hu
      exact hu
  constructor
  · exact D.legal
  · intro i h e hi
    by_cases e : h = .main
    · subst e; simp only [put_same]; simp
    · simp only [put_other _ _ e]; exact D.on i h _ hi
  · exact D.boundP
  · exact D.boundQ
  · exact D.boundM
  · intro i g' x h1 h2 h h3
    exact D.mainInit i g' x h1 h2 h (boff h h3)
  · exact D.locked
  · exact fun i g' q h1 h h2 => D.initQ i g' q h1 h (uQ h q h2)
  · exact fun g' q h1 => D.freshQ g' q (noinit g' _ h1)
  · exact fun i g' q h1 h h2 => D.initM i g' q h1 h (uM h q h2)
  · exact fun g' q h1 => D.freshM g' q (noinit g' _ h1)
  · exact D.queued
  · exact D.sent
  · intro i g' e p h1 h2 h3 h h4 h5
    simp only [UsesP, put_other _ _ h4] at h5
    exact D.peer i g' e p h1 h2 h3 h h4 h5
  · exact D.ordered

/-- The next event of `g` is ordered after all accesses it conflicts with, but for the excepted ones. -/
theorem next_ordered {σ : State} (S : Static σ) (D : Dyn σ) {g : Gid} {a e : Act} (am : a ∈ σ.todo g) (hc : Can σ a e) (hok : okAct g (σ.held g) a)
    {i : Nat} {f : Event} {x : Loc} {v w : Bool} (hi : σ.trace[i]? = some f) (hf : access f.2 = some (x, v)) (he : access e = some (x, w))
    (hw : v = true ∨ w = true) : Knows σ.trace g i ∨ Excepted f (g, e) := by
  obtain ⟨h, b⟩ := f
  simp only at hf
  have gon : σ.cont g ≠ .off := by
    intro h; rw [S.off g h] at am; cases am
  by_cases same : h = g
  · subst same; exact .inl (knows_own hi)
  have Lf := (D.legal i h b hi)
  have Le := can_legal hc (S.legal g a am)
  have lf := Lf.1 _ _ hf
  have le := Le.1 _ _ he
  -- a first write by main
  have main1 : mainLoc x → b = .init x → Knows σ.trace g i := fun h1 h2 => D.mainInit i h x (h2 ▸ hi) h1 g gon
  have main2 : mainLoc x → e = .init x → False := by
    intro h1 h2
    have := Le.2.1 x h2 h1
    subst this
    have h3 := (can_init hc).1 h2
    exact D.on i h b hi (S.initMain x (h3 ▸ am) h same)
  -- both under a mutex
  have both : ∀ m, guard h b = some m → guard g e = some m → Knows σ.trace g i := by
    intro m h1 h2
    have h3 : σ.held g = some m := by
      rw [can_guard hc] at h2
      cases a <;> first | exact hok m h2 | exact hok.elim | simp [guard] at h2
    exact (D.locked i h b m hi h1).1 g h3
  have gd : ∀ (h : Gid) (b : Act) (v : Bool), access b = some (x, v) → b ≠ .init x →
      (x = .poolMap → guard h b = some .pool) ∧ (x = .requested → guard h b = some .requested) ∧ (x = .downloaded → guard h b = some .downloaded) ∧
      (∀ q, x = .failed q → guard h b = some (.failed q)) ∧ (x = .poolField → h ≠ .main ∨ v = true → guard h b = some .pool) := by
    intro h b v hb hn
    cases b <;> simp [access] at hb <;> obtain ⟨rfl, rfl⟩ := hb <;> simp [guard] at hn ⊢
    all_goals
      refine ⟨?_, ?_, ?_, ?_, ?_⟩
      all_goals (intros; try subst_vars; simp_all [guard])
  cases x with
  | cancelCtx => exact absurd (lf.trans le.symm) same
  | poolField =>
    by_cases b1 : b = .init .poolField
    · exact .inl (main1 trivial b1)
    by_cases e1 : e = .init .poolField
    · exact (main2 trivial e1).elim
    left
    have g1 := (gd h b v hf b1).2.2.2.2 rfl
    have g2 := (gd g e w he e1).2.2.2.2 rfl
    rcases hw with rfl | rfl
    · have := lf rfl
      subst this
      exact both _ (g1 (.inr rfl)) (g2 (.inl (fun e => same e.symm)))
    · have := le rfl
      subst this
      exact both _ (g1 (.inl same)) (g2 (.inr rfl))
  | poolMap =>
    by_cases b1 : b = .init .poolMap
    · exact .inl (main1 trivial b1)
    by_cases e1 : e = .init .poolMap
    · exact (main2 trivial e1).elim
    exact .inl (both _ ((gd h b v hf b1).1 rfl) ((gd g e w he e1).1 rfl))
  | requested =>
    by_cases b1 : b = .init .requested
    · exact .inl (main1 trivial b1)
    by_cases e1 : e = .init .requested
    · exact (main2 trivial e1).elim
    exact .inl (both _ ((gd h b v hf b1).2.1 rfl) ((gd g e w he e1).2.1 rfl))
  | downloaded =>
    by_cases b1 : b = .init .downloaded
    · exact .inl (main1 trivial b1)
    by_cases e1 : e = .init .downloaded
    · exact (main2 trivial e1).elim
    exact .inl (both _ ((gd h b v hf b1).2.2.1 rfl) ((gd g e w he e1).2.2.1 rfl))
  | files =>
    rcases lf with b1 | b1
    · exact .inl (main1 trivial b1)
    · rcases le with e1 | e1
      · exact (main2 trivial e1).elim
      · exact absurd (b1.trans e1.symm) same
  | failed q =>
    have aq : actQ a q := ((can_mention hc q).2).1 (access_Q he rfl)
    by_cases b1 : b = .init (.failed q)
    · subst b1
      exact .inl (D.initQ i h q hi g (.inl ⟨a, am, aq⟩))
    by_cases e1 : e = .init (.failed q)
    · have := (can_init hc).1 e1
      subst this
      exact absurd (access_Q hf rfl) (D.freshQ g q am i h b hi)
    exact .inl (both _ ((gd h b v hf b1).2.2.2.1 q rfl) ((gd g e w he e1).2.2.2.1 q rfl))
  | conn p =>
    have ap : actP a p := ((can_mention hc p).1).1 (access_P he rfl)
    by_cases hm : h = .main
    · subst hm
      right
      rcases lf with ⟨-, rfl⟩ | ⟨⟨t, e'⟩, -⟩ | ⟨p', e', -⟩
      · have hw : w = true := by simpa using hw
        subst hw
        rcases le with ⟨-, e'⟩ | ⟨⟨t, rfl⟩, ni⟩ | ⟨p', -, e'⟩
        · cases e'
        · refine ⟨p, t, .inl ⟨?_, ?_⟩⟩
          · cases b <;> simp [access] at hf
            rw [hf]
          · cases e <;> simp [access] at he
            · exfalso
              subst he
              exact ni rfl
            · rw [he]
        · cases e'
      · cases e'
      · cases e'
    · by_cases gm : g = .main
      · subst gm
        right
        rcases le with ⟨-, rfl⟩ | ⟨⟨t, e'⟩, -⟩ | ⟨p', e', -⟩
        · have hw : v = true := by simpa using hw
          subst hw
          rcases lf with ⟨-, e'⟩ | ⟨⟨t, rfl⟩, ni⟩ | ⟨p', -, e'⟩
          · cases e'
          · refine ⟨p, t, .inr ⟨?_, ?_⟩⟩
            · cases b <;> simp [access] at hf
              · exfalso
                subst hf
                exact ni rfl
              · rw [hf]
            · cases e <;> simp [access] at he
              rw [he]
          · cases e'
        · cases e'
        · cases e'
      · exact .inl (D.peer i h b p hi hm (access_P hf rfl) g gm (.inl ⟨a, am, ap⟩))
  | own p =>
    have ap : actP a p := ((can_mention hc p).1).1 (access_P he rfl)
    exact .inl (D.peer i h b p hi lf (access_P hf rfl) g le (.inl ⟨a, am, ap⟩))
  | msg k =>
    have ak : actM a k := (can_M hc k).1 (access_M he rfl)
    by_cases b1 : b = .init (.msg k)
    · subst b1
      exact .inl (D.initM i h k hi g (.inl ⟨a, am, ak⟩))
    · by_cases e1 : e = .init (.msg k)
      · have := (can_init hc).1 e1
        subst this
        exact absurd (access_M hf rfl) (D.freshM g k am i h b hi)
      · rcases hw with rfl | rfl
        · exact absurd (lf rfl) b1
        · exact absurd (le rfl) e1

theorem dyn_act {σ : State} (S : Static σ) (D : Dyn σ) {g : Gid} {a e : Act} {rest : List Act} (h0 : σ.todo g = a :: rest) (hc : Can σ a e) :
    Dyn (σ.after g e rest) := by
  have am : a ∈ σ.todo g := by rw [h0]; simp
  have hgo : ∀ h c, e = .go h c → σ.cont h = .off ∧ h ≠ g := by
    intro h c he
    rw [can_go hc] at he
    subst he
    exact go_off S am
  have gon : σ.cont g ≠ .off := by
    intro h; rw [S.off g h] at am; cases am
  have A := after_view h0 hc (fun c he => (hgo g c he).2 rfl)
  have okg := S.ok g
  rw [h0] at okg
  have okh : okAct g (σ.held g) a := okg.1
  have fst := S.initFirst g
  rw [h0] at fst
  have uP := fun {h p} => after_usesP S h0 hc A (h := h) (p := p)
  have uQ := fun {h p} => after_usesQ S h0 hc A (h := h) (p := p)
  have uM := fun {h p} => after_usesM S h0 hc A (h := h) (k := p)
  have boff : ∀ h, (σ.after g e rest).cont h ≠ .off → σ.cont h ≠ .off ∨ ∃ c, e = .go h c := by
    intro h hh
    rcases A.cont h with ⟨h1, -⟩ | ⟨c, h1, h2⟩ | ⟨rfl, k, h1, -⟩
    · rw [h1] at hh; exact .inl hh
    · exact .inr ⟨c, h1⟩
    · exact .inl gon
  have T : (σ.after g e rest).trace = σ.trace ++ [(g, e)] := rfl
  have split : ∀ {i : Nat} {y}, (σ.after g e rest).trace[i]? = some y → σ.trace[i]? = some y ∨ (i = σ.trace.length ∧ y = (g, e)) :=
    fun h => at_append h
  -- knowledge after the event
  have kOld : ∀ {h i}, Knows σ.trace h i → Knows (σ.after g e rest).trace h i := fun h => knows_old h
  have kNew : Knows (σ.after g e rest).trace g σ.trace.length := knows_of_hb (.inl rfl)
  have kGo : ∀ {h c i}, e = .go h c → Knows σ.trace g i → Knows (σ.after g e rest).trace h i := by
    intro h c i he hk
    rw [T, he]; exact knows_go hk
  have kGoNew : ∀ {h c}, e = .go h c → Knows (σ.after g e rest).trace h σ.trace.length := by
    intro h c he
    exact ⟨_, _, by rw [T]; exact at_new, .inl rfl, .inr ⟨c, he⟩⟩
  have guardHeld : ∀ m, guard g e = some m → σ.held g = some m ∧ heldStep (σ.held g) e = some m := by
    intro m h2
    have h3 : σ.held g = some m := by
      rw [can_guard hc] at h2
      cases a <;> first | exact okh m h2 | exact okh.elim | simp [guard] at h2
    refine ⟨h3, ?_⟩
    cases e <;> first | exact h3 | simp [guard] at h2
  -- what is known under a mutex, carried over the event
  have carry : ∀ (i : Nat) (m : Mtx), ((∀ h, σ.held h = some m → Knows σ.trace h i) ∧ ((∀ h, σ.held h ≠ some m) → KnowsM σ.trace m i)) →
      (∀ h, (σ.after g e rest).held h = some m → Knows (σ.after g e rest).trace h i) ∧
      ((∀ h, (σ.after g e rest).held h ≠ some m) → KnowsM (σ.after g e rest).trace m i) := by
    intro i m ⟨k1, k2⟩
    constructor
    · intro h hh
      rw [A.held h] at hh
      split at hh
      · rename_i eq; subst eq
        by_cases hl : e = .lock m
        · subst hl
          cases hc with
          | lock hfree => exact knows_lock (k2 hfree)
        · have : σ.held h = some m := by
            cases e <;> simp only [heldStep] at hh <;> first | exact hh | (cases hh; exact absurd rfl hl) | cases hh
          exact kOld (k1 h this)
      · exact kOld (k1 h hh)
    · intro hfree
      by_cases hx : ∀ h, σ.held h ≠ some m
      · exact knowsM_old (k2 hx)
      · have : ∃ h, σ.held h = some m := by
          apply Classical.byContradiction
          intro hne
          exact hx (fun h hh => hne ⟨h, hh⟩)
        obtain ⟨h, hh⟩ := this
        have hf := hfree h
        rw [A.held h] at hf
        split at hf
        · rename_i eq; subst eq
          have : e = .unlock m := by
            have hok := okh
            cases hc <;> simp only [heldStep] at hf <;> first
              | exact absurd hh hf
              | (simp only [okAct] at hok; rw [hok] at hh; cases hh; done)
              | (simp only [okAct] at hok; rw [hok] at hh; cases hh; rfl)
          rw [T, this]
          exact knows_unlock (k1 h hh)
        · exact absurd hh hf
  constructor
  · intro i h b hi0
    rcases split hi0 with hi | ⟨rfl, hy⟩
    · exact D.legal i h b hi
    · cases hy; exact can_legal hc (S.legal g a am)
  · intro i h b hi0
    have : σ.cont h ≠ .off := by
      rcases split hi0 with hi | ⟨rfl, hy⟩
      · exact D.on i h b hi
      · cases hy; exact gon
    rcases A.cont h with ⟨h1, -⟩ | ⟨c, h1, h2⟩ | ⟨rfl, k, h1, -⟩
    · rw [h1]; exact this
    · exact absurd (hgo h c h1).1 this
    · rw [h1, Ne, hold_off]; exact this
  · intro i h b p hi0 hm hp
    simp only [State.after]
    rcases split hi0 with hi | ⟨rfl, hy⟩
    · exact D.boundP i h b p hi hm hp
    · cases hy; exact S.boundP g p hm (.inl ⟨a, am, ((can_mention hc p).1).1 hp⟩)
  · intro i h b p hi0 hp
    simp only [State.after]
    rcases split hi0 with hi | ⟨rfl, hy⟩
    · exact D.boundQ i h b p hi hp
    · cases hy; exact S.boundQ g p (.inl ⟨a, am, ((can_mention hc p).2).1 hp⟩)
  · intro i h b p hi0 hp
    simp only [State.after]
    rcases split hi0 with hi | ⟨rfl, hy⟩
    · exact D.boundM i h b p hi hp
    · cases hy; exact S.boundM g p (.inl ⟨a, am, (can_M hc p).1 hp⟩)
  · intro i g' x hi0 hx h hh
    rcases split hi0 with hi | ⟨rfl, hy⟩
    · rcases boff h hh with h1 | ⟨c, h1⟩
      · exact kOld (D.mainInit i g' x hi hx h h1)
      · exact kGo h1 (D.mainInit i g' x hi hx g gon)
    · cases hy
      have ha : a = .init x := (can_init hc).1 rfl
      subst ha
      have := (S.legal g _ am).2.1 x rfl hx
      subst this
      rcases boff h hh with h1 | ⟨c, h1⟩
      · by_cases e' : h = .main
        · subst e'; exact kNew
        · exact absurd (S.initMain x am h e') h1
      · cases h1
  · intro i h b m hi0 hgd
    rcases split hi0 with hi | ⟨rfl, hy⟩
    · exact carry i m (D.locked i h b m hi hgd)
    · cases hy
      obtain ⟨h1, h2⟩ := guardHeld m hgd
      have h3 : (σ.after g e rest).held g = some m := by rw [A.held, if_pos rfl]; exact h2
      constructor
      · intro h' hh
        have := (static_act S h0 hc).excl h' g m hh h3
        subst this; exact kNew
      · intro hf; exact absurd h3 (hf g)
  · intro i g' q hi0 h hu
    rcases split hi0 with hi | ⟨rfl, hy⟩
    · rcases uQ hu with h1 | ⟨c, h1, h2⟩
      · exact kOld (D.initQ i g' q hi h h1)
      · refine kGo h1 (D.initQ i g' q hi g (.inl ⟨a, am, ?_⟩))
        rw [(can_go hc).1 h1]; exact h2
    · cases hy
      have ha : a = .init (.failed q) := (can_init hc).1 rfl
      subst ha
      rcases uQ hu with h1 | ⟨c, h1, h2⟩
      · have := S.initQ g h q am h1
        subst this; exact kNew
      · cases h1
  · intro g' q hin i h b hi0 hb
    have hin' := A.mem _ _ hin
    rcases split hi0 with hi | ⟨rfl, hy⟩
    · exact D.freshQ g' q hin' i h b hi hb
    · cases hy
      have hb := ((can_mention hc q).2).1 hb
      have := S.initQ g' g q hin' (.inl ⟨a, am, hb⟩)
      subst this
      exact fst.1.2.1 q hb (A.memG _ hin)
  · intro i g' k hi0 h hu
    rcases split hi0 with hi | ⟨rfl, hy⟩
    · rcases uM hu with h1 | ⟨rfl, ⟨q, h1, h2⟩ | ⟨h1, h2⟩⟩
      · exact kOld (D.initM i g' k hi h h1)
      · have hg := (guardHeld (.failed q) (by rw [h1]; rfl)).1
        exact kOld ((D.queued i g' k hi q h2).1 h hg)
      · rw [T, h1]; exact knows_recv (D.sent i g' k hi h2)
    · cases hy
      have ha : a = .init (.msg k) := (can_init hc).1 rfl
      subst ha
      rcases uM hu with h1 | ⟨-, ⟨q, h1, h2⟩ | ⟨h1, h2⟩⟩
      · have := S.initM g h k am h1
        subst this; exact kNew
      · cases h1
      · cases h1
  · intro g' q hin i h b hi0 hb
    have hin' := A.mem _ _ hin
    rcases split hi0 with hi | ⟨rfl, hy⟩
    · exact D.freshM g' q hin' i h b hi hb
    · cases hy
      have hb := (can_M hc q).1 hb
      have := S.initM g' g q hin' (.inl ⟨a, am, hb⟩)
      subst this
      exact fst.1.2.2 q hb (A.memG _ hin)
  · intro i g' k hi0 q hq
    rcases split hi0 with hi | ⟨rfl, hy⟩
    · by_cases hold : k ∈ σ.queue q
      · exact carry i _ (D.queued i g' k hi q hold)
      · have : e = .push q k := by
          simp only [State.after] at hq
          cases hc <;> simp only [queueAfter] at hq <;> first
            | exact absurd hq hold
            | (rename_i q' k'
               by_cases e : q = q'
               · subst e
                 rw [put_same] at hq
                 rcases List.mem_append.1 hq with hq | hq
                 · exact absurd hq hold
                 · simp at hq; subst hq; rfl
               · rw [put_other _ _ e] at hq; exact absurd hq hold)
            | (rename_i q' k' _
               by_cases e : q = q'
               · subst e
                 rw [put_same] at hq
                 exact absurd (List.dropLast_subset _ hq) hold
               · rw [put_other _ _ e] at hq; exact absurd hq hold)
        subst this
        obtain ⟨h1, h2⟩ := guardHeld (.failed q) rfl
        have h3 : (σ.after g (.push q k) rest).held g = some (.failed q) := by rw [A.held, if_pos rfl]; exact h2
        constructor
        · intro h' hh
          have := (static_act S h0 hc).excl h' g _ hh h3
          subst this
          exact kOld (D.initM i g' k hi h' (.inl ⟨a, am, (can_M hc k).1 rfl⟩))
        · intro hf; exact absurd h3 (hf g)
    · cases hy
      have ha : a = .init (.msg k) := (can_init hc).1 rfl
      subst ha
      exact absurd hq ((S.initQueue g k am).1 q)
  · intro i g' k hi0 hq
    rcases split hi0 with hi | ⟨rfl, hy⟩
    · by_cases hold : k ∈ σ.chan
      · exact knowsC_old (D.sent i g' k hi hold)
      · have : e = .send k := by
          simp only [State.after] at hq
          cases hc <;> simp only [chanAfter] at hq <;> first
            | exact absurd hq hold
            | (rcases List.mem_append.1 hq with hq | hq
               · exact absurd hq hold
               · simp at hq; subst hq; rfl)
            | exact absurd (List.mem_of_mem_tail hq) hold
        subst this
        exact knows_send (D.initM i g' k hi g (.inl ⟨a, am, (can_M hc k).1 rfl⟩))
    · cases hy
      have ha : a = .init (.msg k) := (can_init hc).1 rfl
      subst ha
      exact absurd hq (S.initQueue g k am).2
  · intro i g' b p hi0 hm hp h hh hu
    rcases split hi0 with hi | ⟨rfl, hy⟩
    · rcases uP hu with h1 | ⟨c, h1, h2⟩
      · exact kOld (D.peer i g' b p hi hm hp h hh h1)
      · have hmm : Act.go h c ∈ σ.todo g := by rw [← (can_go hc).1 h1]; exact am
        obtain ⟨-, t, rfl⟩ := contP_go S hmm h2
        refine kGo h1 (D.peer i g' b p hi hm hp _ (by simp) (.inl ⟨a, am, ?_⟩))
        rw [(can_go hc).1 h1]; exact h2
    · cases hy
      rcases uP hu with h1 | ⟨c, h1, h2⟩
      · have := S.uniqueP h g p hh hm h1 (.inl ⟨a, am, ((can_mention hc p).1).1 hp⟩)
        subst this; exact kNew
      · exact kGoNew h1
  · intro i j f f' x v w hij hi0 hj hf hf' hw
    rcases split hj with hj | ⟨rfl, hy⟩
    · rcases split hi0 with hi | ⟨rfl, hy⟩
      · rcases D.ordered i j f f' x v w hij hi hj hf hf' hw with h1 | h1
        · exact .inl (hb_old h1)
        · exact .inr h1
      · have := at_lt hj; omega
    · subst hy
      rcases split hi0 with hi | ⟨rfl, -⟩
      · rcases next_ordered S D am hc okh hi hf hf' hw with h1 | h1
        · exact .inl (knows_hb h1)
        · exact .inr h1
      · omega

theorem dyn_reachable {ts : List Nat} (hn : ts.Nodup) {σ : State} (h : Reachable ts σ) : Dyn σ := by
  induction h with
  | start => exact dyn_start ts
  | step hr st ih =>
    have S := static_reachable hn hr
    cases st with
    | act h0 hc => exact dyn_act S ih h0 hc
    | next h0 hc => exact dyn_next S ih h0 hc
    | close h0 hc => exact dyn_close S ih h0 hc

end Gotit.Shared
