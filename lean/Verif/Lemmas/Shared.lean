import Verif.Spec.Race
/-
  What is true of the goroutines at all times, as far as it does not concern the trace.
-/
namespace Gotit.Shared
open Gotit.Spec

/-! ## Who mentions what -/

def contP : Cont → Nat → Prop
  | .adding _ p, x => x = p
  | .dialing _ p, x => x = p
  | .run p _ _, x => x = p
  | _, _ => False

def contQ : Cont → Nat → Prop
  | .peers q, x => x = q
  | .adding q _, x => x = q
  | .dialing q _, x => x = q
  | .run _ q _, x => x = q
  | _, _ => False

def contM : Cont → Nat → Prop
  | .run _ _ (some k), x => x = k
  | .writing (some k), x => x = k
  | _, _ => False

def locP : Loc → Nat → Prop
  | .own p, x => x = p
  | .conn p, x => x = p
  | _, _ => False

def locQ : Loc → Nat → Prop
  | .failed q, x => x = q
  | _, _ => False

def locM : Loc → Nat → Prop
  | .msg k, x => x = k
  | _, _ => False

def actP : Act → Nat → Prop
  | .init l, x => locP l x
  | .rd l, x => locP l x
  | .wr l, x => locP l x
  | .go _ c, x => contP c x
  | .insert p, x => x = p
  | _, _ => False

def actQ : Act → Nat → Prop
  | .init l, x => locQ l x
  | .rd l, x => locQ l x
  | .wr l, x => locQ l x
  | .go _ c, x => contQ c x
  | .push q _, x => x = q
  | .popAny q, x => x = q
  | .pop q _, x => x = q
  | _, _ => False

def actM : Act → Nat → Prop
  | .init l, x => locM l x
  | .rd l, x => locM l x
  | .wr l, x => locM l x
  | .go _ c, x => contM c x
  | .push _ k, x => x = k
  | .send k, x => x = k
  | _, _ => False

def UsesP (σ : State) (g : Gid) (p : Nat) : Prop := (∃ a ∈ σ.todo g, actP a p) ∨ contP (σ.cont g) p
def UsesQ (σ : State) (g : Gid) (q : Nat) : Prop := (∃ a ∈ σ.todo g, actQ a q) ∨ contQ (σ.cont g) q
def UsesM (σ : State) (g : Gid) (k : Nat) : Prop := (∃ a ∈ σ.todo g, actM a k) ∨ contM (σ.cont g) k

/-! ## Roles -/

def Role : Gid → Cont → Prop
  | .main, c => c = .closing ∨ c = .ended
  | .printer, c => c = .off ∨ c = .printing ∨ c = .ended
  | .writer, c => c = .off ∨ c = .ended ∨ ∃ k, c = .writing k
  | .tracker _, c => c = .off ∨ c = .ended ∨ c = .announce ∨ (∃ q, c = .peers q) ∨ (∃ q p, c = .adding q p) ∨ ∃ q p, c = .dialing q p
  | .run p, c => c = .off ∨ c = .ended ∨ ∃ q k, c = .run p q k

/-- Variables built before any goroutine is started. -/
def mainLoc : Loc → Prop
  | .requested | .downloaded | .files | .poolField | .poolMap => True
  | _ => False

/-- Who may access a variable, and how. -/
def LegalLoc (g : Gid) (a : Act) (w : Bool) : Loc → Prop
  | .cancelCtx => g = .main
  | .files => a = .init .files ∨ g = .writer
  | .poolField => w = true → g = .main
  | .conn p => g = .main ∧ w = false ∨ ((∃ t, g = .tracker t) ∧ a ≠ .init (.conn p)) ∨ ∃ p, g = .run p ∧ w = false
  | .own _ => g ≠ .main
  | .poolMap => w = true → a = .init .poolMap ∨ ∃ t, g = .tracker t
  | .msg k => w = true → a = .init (.msg k)
  | _ => True

def Legal (g : Gid) (a : Act) : Prop :=
  (∀ x w, access a = some (x, w) → LegalLoc g a w x) ∧
  (∀ x, a = .init x → mainLoc x → g = .main) ∧
  (∀ h c, a = .go h c → (g = .main ∧ (h = .printer ∧ c = .printing ∨ h = .writer ∧ c = .writing none ∨ ∃ t, h = .tracker t ∧ c = .announce)) ∨
    (∃ t p q, g = .tracker t ∧ h = .run p ∧ c = .run p q none))

/-! ## Mutexes -/

def guard (g : Gid) : Act → Option Mtx
  | .rd .poolField => if g = .main then none else some .pool
  | .wr .poolField => some .pool
  | .rd .poolMap => some .pool
  | .wr .poolMap => some .pool
  | .insert _ => some .pool
  | .rd .requested => some .requested
  | .wr .requested => some .requested
  | .rd .downloaded => some .downloaded
  | .wr .downloaded => some .downloaded
  | .rd (.failed q) => some (.failed q)
  | .wr (.failed q) => some (.failed q)
  | .push q _ => some (.failed q)
  | .popAny q => some (.failed q)
  | .pop q _ => some (.failed q)
  | _ => none

def heldStep (h : Option Mtx) : Act → Option Mtx
  | .lock m => some m
  | .unlock _ => none
  | _ => h

def okAct (g : Gid) (h : Option Mtx) : Act → Prop
  | .lock _ => h = none
  | .send _ => h = none
  | .recvAny => h = none
  | .wait => h = none
  | .observe => h = none
  | .go _ _ => h = none
  | .pop _ _ => False
  | .recv _ => False
  | .unlock m => h = some m
  | a => ∀ m, guard g a = some m → h = some m

def Ok (g : Gid) : Option Mtx → List Act → Option Mtx → Prop
  | h, [], e => h = e
  | h, a :: r, e => okAct g h a ∧ Ok g (heldStep h a) r e

def endHeld : Cont → Option Mtx
  | .closing => some .pool
  | .adding _ _ => some .pool
  | _ => none

/-! ## Go statements -/

def GoOk (c : Cont) : List Act → Prop
  | [] => True
  | a :: r => (∀ p c', a = .go (.run p) c' → (∀ b ∈ r, ¬ actP b p) ∧ ¬ contP c p) ∧ GoOk c r

def target : Act → Option Gid
  | .go h _ => some h
  | _ => none

def InitFirst : List Act → Prop
  | [] => True
  | a :: r => ((target a ≠ none → ∀ x, Act.init x ∉ r) ∧ (∀ q, actQ a q → Act.init (.failed q) ∉ r) ∧ ∀ k, actM a k → Act.init (.msg k) ∉ r) ∧ InitFirst r

structure Static (σ : State) : Prop where
  role : ∀ g, Role g (σ.cont g)
  legal : ∀ g a, a ∈ σ.todo g → Legal g a
  off : ∀ g, σ.cont g = .off → σ.todo g = []
  ok : ∀ g, Ok g (σ.held g) (σ.todo g) (endHeld (σ.cont g))
  excl : ∀ g h m, σ.held g = some m → σ.held h = some m → g = h
  boundP : ∀ g p, g ≠ .main → UsesP σ g p → p < σ.next
  boundQ : ∀ g q, UsesQ σ g q → q < σ.next
  boundM : ∀ g k, UsesM σ g k → k < σ.next
  boundQueue : ∀ q k, k ∈ σ.queue q → k < σ.next
  boundChan : ∀ k, k ∈ σ.chan → k < σ.next
  boundPool : ∀ p, p ∈ σ.pool → p < σ.next
  runBound : ∀ p, σ.cont (.run p) ≠ .off → p < σ.next
  goOk : ∀ g, GoOk (σ.cont g) (σ.todo g)
  uniqueP : ∀ g h p, g ≠ .main → h ≠ .main → UsesP σ g p → UsesP σ h p → g = h
  offRun : ∀ t p, UsesP σ (.tracker t) p → σ.cont (.run p) = .off
  mainGo : ∀ h c, Act.go h c ∈ σ.todo .main → σ.cont h = .off
  mainNodup : ((σ.todo .main).filterMap target).Nodup
  initFirst : ∀ g, InitFirst (σ.todo g)
  initMain : ∀ x, Act.init x ∈ σ.todo .main → ∀ h, h ≠ .main → σ.cont h = .off
  initQ : ∀ g h q, Act.init (.failed q) ∈ σ.todo g → UsesQ σ h q → h = g
  initM : ∀ g h k, Act.init (.msg k) ∈ σ.todo g → UsesM σ h k → h = g
  initQueue : ∀ g k, Act.init (.msg k) ∈ σ.todo g → (∀ q, k ∉ σ.queue q) ∧ k ∉ σ.chan

/-! ## The fragments -/

theorem role_off {g : Gid} {c : Cont} (h : Role g c) (n : Nat) {acts c'} (hc : Continue n c acts c') : c ≠ .off := by
  intro e; subst e; cases hc

theorem continue_role {n : Nat} {c c' : Cont} {acts : List Act} (hc : Continue n c acts c') {g : Gid} (hr : Role g c) :
    Role g c' ∧ ∀ a ∈ acts, Legal g a := by
  cases hc <;> cases g <;> simp [Role] at hr <;>
    first
    | (simp [Role, Legal, access, LegalLoc, mainLoc]; done)
    | (try subst hr; simp [Role, Legal, access, LegalLoc, mainLoc]; done)

theorem continue_ok {n : Nat} {c c' : Cont} {acts : List Act} (hc : Continue n c acts c') {g : Gid} (hr : Role g c) :
    Ok g (endHeld c) acts (endHeld c') := by
  cases hc <;> cases g <;> simp [Role] at hr <;> simp [Ok, okAct, heldStep, endHeld, guard]

theorem continue_P {n : Nat} {c c' : Cont} {acts : List Act} (hc : Continue n c acts c') {p : Nat}
    (h : (∃ a ∈ acts, actP a p) ∨ contP c' p) : contP c p ∨ p = n := by
  cases hc <;> simp_all [actP, contP, locP]

theorem continue_Q {n : Nat} {c c' : Cont} {acts : List Act} (hc : Continue n c acts c') {p : Nat}
    (h : (∃ a ∈ acts, actQ a p) ∨ contQ c' p) : contQ c p ∨ p = n := by
  cases hc <;> simp_all [actQ, contQ, locQ]

theorem continue_M {n : Nat} {c c' : Cont} {acts : List Act} (hc : Continue n c acts c') {p : Nat}
    (h : (∃ a ∈ acts, actM a p) ∨ contM c' p) : contM c p ∨ p = n := by
  cases hc <;> first
    | (simp_all [actM, contM, locM]; done)
    | (rename_i k; cases k <;> simp_all [actM, contM, locM] <;> omega)

theorem continue_goOk {n : Nat} {c c' : Cont} {acts : List Act} (hc : Continue n c acts c') : GoOk c' acts := by
  cases hc <;> simp [GoOk, contP]

theorem continue_init {n : Nat} {c c' : Cont} {acts : List Act} (hc : Continue n c acts c') {x : Loc} (h : Act.init x ∈ acts) :
    x = .failed n ∨ x = .msg n := by
  cases hc <;> simp_all

theorem continue_newP {n : Nat} {c c' : Cont} {acts : List Act} (hc : Continue n c acts c') {g : Gid} (hr : Role g c)
    (h : (∃ a ∈ acts, actP a n) ∨ contP c' n) (hn : ¬ contP c n) : ∃ t, g = .tracker t := by
  cases hc <;> cases g <;> simp [Role] at hr <;> simp_all [actP, contP, locP]

theorem continue_main {n : Nat} {c c' : Cont} {acts : List Act} (hc : Continue n c acts c') (hr : Role .main c) : False := by
  cases hc <;> simp [Role] at hr

theorem continue_on {n : Nat} {c c' : Cont} {acts : List Act} (hc : Continue n c acts c') : c' ≠ .off ∧ c ≠ .off := by
  cases hc <;> simp

/-! ## The beginning -/

theorem ok_append {g : Gid} {a b : List Act} : ∀ {h m e}, Ok g h a m → Ok g m b e → Ok g h (a ++ b) e := by
  induction a with
  | nil => intro h m e h1 h2; cases h1; exact h2
  | cons x a ih => intro h m e h1 h2; exact ⟨h1.1, ih h1.2 h2⟩

theorem main_init {ts : List Nat} {x : Loc} (h : Act.init x ∈ mainActs ts) : mainLoc x := by
  simp [mainActs] at h
  rcases h with rfl | rfl | rfl | rfl | rfl <;> trivial

theorem mainActs_ok (ts : List Nat) : Ok .main none (mainActs ts) (some .pool) := by
  have h1 : Ok .main none (ts.map (fun t => Act.go (.tracker t) .announce)) none := by
    induction ts with
    | nil => rfl
    | cons t ts ih => exact ⟨by simp [okAct, guard], ih⟩
  unfold mainActs
  refine ok_append (ok_append ?_ h1) ?_
  · simp [Ok, okAct, guard, heldStep]
  · simp [Ok, okAct, guard, heldStep]

theorem initFirst_none {l : List Act} (h : ∀ x, Act.init x ∉ l) : InitFirst l := by
  induction l with
  | nil => trivial
  | cons a l ih =>
    exact ⟨⟨fun _ x hx => h x (by simp [hx]), fun q _ hx => h _ (List.mem_cons_of_mem _ hx), fun q _ hx => h _ (List.mem_cons_of_mem _ hx)⟩,
      ih (fun x hx => h x (by simp [hx]))⟩

theorem initFirst_append {a b : List Act} (ha : ∀ x ∈ a, target x = none ∧ (∀ q, ¬ actQ x q) ∧ ∀ k, ¬ actM x k) (h : InitFirst b) : InitFirst (a ++ b) := by
  induction a with
  | nil => exact h
  | cons y a ih =>
    obtain ⟨h1, h2, h3⟩ := ha y (by simp)
    exact ⟨⟨fun h => absurd h1 h, fun q h => absurd h (h2 q), fun k h => absurd h (h3 k)⟩, ih (fun x hx => ha x (by simp [hx]))⟩

theorem continue_initFirst {n : Nat} {c c' : Cont} {acts : List Act} (hc : Continue n c acts c') : InitFirst acts := by
  cases hc <;> simp [InitFirst, target, actQ, actM, locQ, locM]

theorem target_map (ts : List Nat) : List.filterMap target (ts.map (fun t => Act.go (.tracker t) .announce)) = ts.map (fun t => Gid.tracker t) := by
  induction ts with
  | nil => rfl
  | cons t ts ih => rw [List.map_cons, List.map_cons, List.filterMap_cons, ih]; rfl

theorem static_start (ts : List Nat) (hn : ts.Nodup) : Static (.start ts) := by
  have hm : ∀ {P : Nat → Prop} {f : Act → Nat → Prop} {d : Cont → Nat → Prop} {g x}, (∀ a ∈ mainActs ts, ¬ f a x) → ¬ d .closing x → ¬ d .off x →
      ¬ ((∃ a ∈ (State.start ts).todo g, f a x) ∨ d ((State.start ts).cont g) x) := by
    intro P f d g x h1 h2 h3
    rintro (⟨a, ha, hf⟩ | hd)
    · simp only [State.start] at ha
      split at ha
      · exact h1 a ha hf
      · cases ha
    · simp only [State.start] at hd
      split at hd
      · exact h2 hd
      · exact h3 hd
  have nop : ∀ g x, ¬ UsesP (State.start ts) g x := fun g x => hm (P := fun _ => True) (by
    intro a ha
    simp [mainActs] at ha
    rcases ha with rfl | rfl | rfl | rfl | rfl | rfl | rfl | ⟨t, -, rfl⟩ | rfl | rfl | rfl | rfl | rfl | rfl | rfl | rfl | rfl <;> simp [actP, locP, contP])
    (by simp [contP]) (by simp [contP])
  have noq : ∀ g x, ¬ UsesQ (State.start ts) g x := fun g x => hm (P := fun _ => True) (by
    intro a ha
    simp [mainActs] at ha
    rcases ha with rfl | rfl | rfl | rfl | rfl | rfl | rfl | ⟨t, -, rfl⟩ | rfl | rfl | rfl | rfl | rfl | rfl | rfl | rfl | rfl <;> simp [actQ, locQ, contQ])
    (by simp [contQ]) (by simp [contQ])
  have nom : ∀ g x, ¬ UsesM (State.start ts) g x := fun g x => hm (P := fun _ => True) (by
    intro a ha
    simp [mainActs] at ha
    rcases ha with rfl | rfl | rfl | rfl | rfl | rfl | rfl | ⟨t, -, rfl⟩ | rfl | rfl | rfl | rfl | rfl | rfl | rfl | rfl | rfl <;> simp [actM, locM, contM])
    (by simp [contM]) (by simp [contM])
  have hin : ∀ g x, Act.init x ∈ (State.start ts).todo g → mainLoc x := by
    intro g x hx
    simp only [State.start] at hx
    split at hx
    · exact main_init hx
    · cases hx
  constructor
  · intro g
    cases g <;> simp [State.start, Role]
  · intro g a ha
    simp only [State.start] at ha
    split at ha
    · rename_i e; subst e
      simp [mainActs] at ha
      rcases ha with rfl | rfl | rfl | rfl | rfl | rfl | rfl | ⟨t, -, rfl⟩ | rfl | rfl | rfl | rfl | rfl | rfl | rfl | rfl | rfl <;>
        simp [Legal, access, LegalLoc, mainLoc]
    · cases ha
  · intro g hg
    simp only [State.start] at hg ⊢
    split at hg
    · cases hg
    · rename_i e; rw [if_neg e]
  · intro g
    simp only [State.start]
    split
    · rename_i e; subst e; exact mainActs_ok ts
    · simp [Ok, endHeld]
  · intro g h m hm; simp [State.start] at hm
  · exact fun g p _ h => absurd h (nop g p)
  · exact fun g p h => absurd h (noq g p)
  · exact fun g p h => absurd h (nom g p)
  · simp [State.start]
  · simp [State.start]
  · simp [State.start]
  · intro p hp; simp [State.start] at hp
  · intro g
    simp only [State.start]
    split
    · have : ∀ l : List Act, (∀ a ∈ l, ∀ p c, a ≠ .go (.run p) c) → GoOk .closing l := by
        intro l
        induction l with
        | nil => intro _; trivial
        | cons a l ih => exact fun h => ⟨fun p c' e => absurd e (h a (by simp) p c'), ih (fun b hb => h b (by simp [hb]))⟩
      apply this
      intro a ha p c e
      subst e
      simp [mainActs] at ha
    · trivial
  · exact fun g h p _ _ h1 _ => absurd h1 (nop _ _)
  · exact fun t p h => absurd h (nop _ _)
  · intro h c hh
    simp only [State.start, if_true] at hh ⊢
    rw [if_neg]
    intro e; subst e
    simp [mainActs] at hh
  · have : (mainActs ts).filterMap target = [.printer] ++ (ts.map (fun t => Gid.tracker t) ++ [.writer]) := by
      unfold mainActs
      rw [List.filterMap_append, List.filterMap_append]
      rw [target_map]
      simp only [List.append_assoc]
      rfl
    simp only [State.start, if_true]
    rw [this]
    simp only [List.singleton_append, List.nodup_cons, List.mem_append, List.mem_map, reduceCtorEq, and_false, exists_false, List.mem_singleton,
      or_self, not_false_eq_true, true_and]
    rw [List.nodup_append]
    refine ⟨?_, by simp, by simp⟩
    exact List.Pairwise.map _ (fun a b h e => h (by cases e; rfl)) hn
  · intro g
    simp only [State.start]
    split
    · unfold mainActs
      rw [List.append_assoc]
      have : ([.init .requested, .init .downloaded, .init .files, .init .poolField, .init .poolMap, .wr .cancelCtx, .go .printer .printing] : List Act) =
        [.init .requested, .init .downloaded, .init .files, .init .poolField, .init .poolMap, .wr .cancelCtx] ++ [.go .printer .printing] := rfl
      rw [this, List.append_assoc]
      apply initFirst_append
      · simp [target, actQ, actM, locQ, locM]
      · apply initFirst_none
        intro x hx
        simp at hx
    · trivial
  · intro x _ h hh
    simp [State.start, hh]
  · intro g h q hq
    exact absurd (hin _ _ hq) (by simp [mainLoc])
  · intro g h q hq
    exact absurd (hin _ _ hq) (by simp [mainLoc])
  · intro g q hq
    exact absurd (hin _ _ hq) (by simp [mainLoc])

/-! ## Steps -/

theorem put_same {α β : Type} [DecidableEq α] (f : α → β) (a : α) (b : β) : put f a b a = b := by simp [put]
theorem put_other {α β : Type} [DecidableEq α] (f : α → β) {a x : α} (b : β) (h : x ≠ a) : put f a b x = f x := by simp [put, h]

theorem static_next {σ : State} (S : Static σ) {g : Gid} {acts : List Act} {c' : Cont} (h0 : σ.todo g = [])
    (hc : Continue σ.next (σ.cont g) acts c') :
    Static { σ with todo := put σ.todo g acts, cont := put σ.cont g c', next := σ.next + 1 } := by
  have hg : g ≠ .main := by
    intro e; subst e; exact continue_main hc (S.role _)
  obtain ⟨r1, r2⟩ := continue_role hc (S.role g)
  obtain ⟨on', on⟩ := continue_on hc
  have other : ∀ h, h ≠ g → (put σ.todo g acts h = σ.todo h ∧ put σ.cont g c' h = σ.cont h) := fun h hh => ⟨put_other _ _ hh, put_other _ _ hh⟩
  have uP : ∀ h p, UsesP { σ with todo := put σ.todo g acts, cont := put σ.cont g c', next := σ.next + 1 } h p →
      UsesP σ h p ∨ (h = g ∧ p = σ.next) := by
    intro h p hu
    by_cases e : h = g
    · subst e
      simp only [UsesP, put_same] at hu
      rcases continue_P hc hu with h1 | h1
      · exact .inl (.inr h1)
      · exact .inr ⟨rfl, h1⟩
    · simp only [UsesP, other h e] at hu
      exact .inl hu
  have uQ : ∀ h p, UsesQ { σ with todo := put σ.todo g acts, cont := put σ.cont g c', next := σ.next + 1 } h p →
      UsesQ σ h p ∨ (h = g ∧ p = σ.next) := by
    intro h p hu
    by_cases e : h = g
    · subst e
      simp only [UsesQ, put_same] at hu
      rcases continue_Q hc hu with h1 | h1
      · exact .inl (.inr h1)
      · exact .inr ⟨rfl, h1⟩
    · simp only [UsesQ, other h e] at hu
      exact .inl hu
  have uM : ∀ h p, UsesM { σ with todo := put σ.todo g acts, cont := put σ.cont g c', next := σ.next + 1 } h p →
      UsesM σ h p ∨ (h = g ∧ p = σ.next) := by
    intro h p hu
    by_cases e : h = g
    · subst e
      simp only [UsesM, put_same] at hu
      rcases continue_M hc hu with h1 | h1
      · exact .inl (.inr h1)
      · exact .inr ⟨rfl, h1⟩
    · simp only [UsesM, other h e] at hu
      exact .inl hu
  have ini : ∀ h x, Act.init x ∈ put σ.todo g acts h → Act.init x ∈ σ.todo h ∨ (h = g ∧ (x = .failed σ.next ∨ x = .msg σ.next)) := by
    intro h x hx
    by_cases e : h = g
    · subst e
      rw [put_same] at hx
      exact .inr ⟨rfl, continue_init hc hx⟩
    · rw [(other h e).1] at hx
      exact .inl hx
  constructor
  · intro h
    by_cases e : h = g
    · subst e; simpa only [put_same] using r1
    · simpa only [other h e] using S.role h
  · intro h a ha
    by_cases e : h = g
    · subst e; simp only [put_same] at ha; exact r2 a ha
    · simp only [other h e] at ha; exact S.legal h a ha
  · intro h hh
    by_cases e : h = g
    · subst e; simp only [put_same] at hh; exact absurd hh on'
    · simp only [other h e] at hh ⊢; exact S.off h hh
  · intro h
    by_cases e : h = g
    · subst e
      simp only [put_same]
      have := S.ok h
      rw [h0] at this
      have this : σ.held h = endHeld (σ.cont h) := this
      rw [this]
      exact continue_ok hc (S.role h)
    · simp only [other h e]; exact S.ok h
  · exact S.excl
  · intro h p hm hu
    simp only
    rcases uP h p hu with h1 | ⟨-, rfl⟩
    · have := S.boundP h p hm h1; omega
    · omega
  · intro h p hu
    simp only
    rcases uQ h p hu with h1 | ⟨-, rfl⟩
    · have := S.boundQ h p h1; omega
    · omega
  · intro h p hu
    simp only
    rcases uM h p hu with h1 | ⟨-, rfl⟩
    · have := S.boundM h p h1; omega
    · omega
  · intro q k hk; have := S.boundQueue q k hk; simp only; omega
  · intro k hk; have := S.boundChan k hk; simp only; omega
  · intro k hk; have := S.boundPool k hk; simp only; omega
  · intro p hp
    simp only at hp ⊢
    by_cases e : Gid.run p = g
    · subst e
      have := S.runBound p on; omega
    · rw [(other _ e).2] at hp
      have := S.runBound p hp; omega
  · intro h
    by_cases e : h = g
    · subst e; simp only [put_same]; exact continue_goOk hc
    · simp only [other h e]; exact S.goOk h
  · intro h h' p hm hm' hu hu'
    rcases uP h p hu with h1 | ⟨e1, e2⟩
    · rcases uP h' p hu' with h2 | ⟨e3, e4⟩
      · exact S.uniqueP h h' p hm hm' h1 h2
      · have := S.boundP h p hm h1; omega
    · rcases uP h' p hu' with h2 | ⟨e3, e4⟩
      · have := S.boundP h' p hm' h2; omega
      · rw [e1, e3]
  · intro t p hu
    simp only
    have ng : g ≠ .run p ∨ (g = .run p) := by
      by_cases e : g = .run p
      · exact .inr e
      · exact .inl e
    rcases uP _ p hu with h1 | ⟨e1, e2⟩
    · have ho := S.offRun t p h1
      rcases ng with ng | ng
      · rw [put_other _ _ (Ne.symm ng)]; exact ho
      · subst ng; exact absurd ho on
    · have ho : σ.cont (.run p) = .off := by
        apply Classical.byContradiction
        intro hne
        have := S.runBound p hne; omega
      rw [put_other _ _ (by rw [← e1]; simp)]
      exact ho
  · intro h c hh
    simp only at hh ⊢
    rw [(other _ (Ne.symm hg)).1] at hh
    have ho := S.mainGo h c hh
    by_cases e : h = g
    · subst e; exact absurd ho on
    · rw [(other h e).2]; exact ho
  · simp only; rw [(other _ (Ne.symm hg)).1]; exact S.mainNodup
  · intro h
    by_cases e : h = g
    · subst e; simp only [put_same]; exact continue_initFirst hc
    · simp only [other h e]; exact S.initFirst h
  · intro x hx h hh
    simp only at hx ⊢
    rw [(other _ (Ne.symm hg)).1] at hx
    by_cases e : h = g
    · subst e; exact absurd (S.initMain x hx h hh) on
    · rw [(other h e).2]; exact S.initMain x hx h hh
  · intro h h' q hi hu
    rcases uQ h' q hu with h2 | ⟨e3, e4⟩
    · rcases ini h _ hi with h1 | ⟨e1, e2⟩
      · exact S.initQ h h' q h1 h2
      · have := S.boundQ h' q h2
        simp at e2; omega
    · rcases ini h _ hi with h1 | ⟨e1, e2⟩
      · have : UsesQ σ h q := .inl ⟨_, h1, rfl⟩
        have := S.boundQ h q this; omega
      · rw [e1, e3]
  · intro h h' q hi hu
    rcases uM h' q hu with h2 | ⟨e3, e4⟩
    · rcases ini h _ hi with h1 | ⟨e1, e2⟩
      · exact S.initM h h' q h1 h2
      · have := S.boundM h' q h2
        simp at e2; omega
    · rcases ini h _ hi with h1 | ⟨e1, e2⟩
      · have : UsesM σ h q := .inl ⟨_, h1, rfl⟩
        have := S.boundM h q this; omega
      · rw [e1, e3]
  · intro h k hi
    rcases ini h _ hi with h1 | ⟨e1, e2⟩
    · exact S.initQueue h k h1
    · have ek : k = σ.next := by simpa using e2
      refine ⟨fun q hq => ?_, fun hq => ?_⟩
      · have := S.boundQueue q k hq; omega
      · have := S.boundChan k hq; omega

theorem static_close {σ : State} (S : Static σ) (h0 : σ.todo .main = []) (hc : σ.cont .main = .closing) :
    Static { σ with todo := put σ.todo .main (σ.pool.map (fun p => .rd (.conn p)) ++ [.wr .poolField, .unlock .pool]), cont := put σ.cont .main .ended } := by
  have mem : ∀ a, a ∈ σ.pool.map (fun p => Act.rd (.conn p)) ++ [.wr .poolField, .unlock .pool] →
      (∃ p, p ∈ σ.pool ∧ a = .rd (.conn p)) ∨ a = .wr .poolField ∨ a = .unlock .pool := by
    intro a ha
    simp at ha
    rcases ha with ⟨p, h1, rfl⟩ | rfl | rfl
    · exact .inl ⟨p, h1, rfl⟩
    · exact .inr (.inl rfl)
    · exact .inr (.inr rfl)
  have other : ∀ h, h ≠ Gid.main → (put σ.todo .main (σ.pool.map (fun p => .rd (.conn p)) ++ [.wr .poolField, .unlock .pool]) h = σ.todo h ∧
      put σ.cont .main .ended h = σ.cont h) :=
    fun h hh => ⟨put_other _ _ hh, put_other _ _ hh⟩
  have noM : ∀ l : List Nat, ∀ a, a ∈ l.map (fun p => Act.rd (.conn p)) ++ [.wr .poolField, .unlock .pool] → ∀ x, ¬ actQ a x ∧ ¬ actM a x := by
    intro l a ha x
    simp at ha
    rcases ha with ⟨p, h1, rfl⟩ | rfl | rfl <;> simp [actQ, actM, locQ, locM]
  have uQ : ∀ h q, UsesQ { σ with todo := put σ.todo .main (σ.pool.map (fun p => .rd (.conn p)) ++ [.wr .poolField, .unlock .pool]), cont := put σ.cont .main .ended } h q → UsesQ σ h q ∧ h ≠ .main := by
    intro h q hu
    by_cases e : h = .main
    · subst e
      simp only [UsesQ, put_same] at hu
      rcases hu with ⟨a, ha, hq⟩ | hu
      · exact absurd hq (noM _ a ha q).1
      · exact absurd hu (by simp [contQ])
    · simp only [UsesQ, other h e] at hu
      exact ⟨hu, e⟩
  have uM : ∀ h q, UsesM { σ with todo := put σ.todo .main (σ.pool.map (fun p => .rd (.conn p)) ++ [.wr .poolField, .unlock .pool]), cont := put σ.cont .main .ended } h q → UsesM σ h q ∧ h ≠ .main := by
    intro h q hu
    by_cases e : h = .main
    · subst e
      simp only [UsesM, put_same] at hu
      rcases hu with ⟨a, ha, hq⟩ | hu
      · exact absurd hq (noM _ a ha q).2
      · exact absurd hu (by simp [contM])
    · simp only [UsesM, other h e] at hu
      exact ⟨hu, e⟩
  have noinit : ∀ x, Act.init x ∉ σ.pool.map (fun p => Act.rd (.conn p)) ++ [.wr .poolField, .unlock .pool] := by
    intro x hx; simp at hx
  have nogo : ∀ h c, Act.go h c ∉ σ.pool.map (fun p => Act.rd (.conn p)) ++ [.wr .poolField, .unlock .pool] := by
    intro h c hx; simp at hx
  constructor
  · intro h
    by_cases e : h = .main
    · subst e; simp only [put_same]; exact .inr rfl
    · simpa only [other h e] using S.role h
  · intro h a ha
    by_cases e : h = .main
    · subst e; simp only [put_same] at ha
      rcases mem a ha with ⟨p, -, rfl⟩ | rfl | rfl <;> simp [Legal, access, LegalLoc]
    · simp only [other h e] at ha; exact S.legal h a ha
  · intro h hh
    by_cases e : h = .main
    · subst e; simp only [put_same] at hh; cases hh
    · simp only [other h e] at hh ⊢; exact S.off h hh
  · intro h
    by_cases e : h = .main
    · subst e
      simp only [put_same]
      have := S.ok .main
      rw [h0, hc] at this
      have this : σ.held .main = some .pool := this
      rw [this]
      have h1 : ∀ l : List Nat, Ok .main (some .pool) (l.map (fun p => Act.rd (.conn p))) (some .pool) := by
        intro l
        induction l with
        | nil => rfl
        | cons p l ih => exact ⟨by simp [okAct, guard], ih⟩
      exact ok_append (h1 _) (by simp [Ok, okAct, guard, heldStep, endHeld])
    · simp only [other h e]; exact S.ok h
  · exact S.excl
  · intro h p hm hu
    simp only [UsesP, other h hm] at hu
    exact S.boundP h p hm hu
  · exact fun h p hu => S.boundQ h p (uQ h p hu).1
  · exact fun h p hu => S.boundM h p (uM h p hu).1
  · exact S.boundQueue
  · exact S.boundChan
  · exact S.boundPool
  · intro p hp
    simp only [other (.run p) (by simp)] at hp
    exact S.runBound p hp
  · intro h
    by_cases e : h = .main
    · subst e; simp only [put_same]
      have : ∀ l : List Act, (∀ h c, Act.go h c ∉ l) → GoOk .ended l := by
        intro l
        induction l with
        | nil => intro _; trivial
        | cons a l ih =>
          exact fun h => ⟨fun p c' e => absurd (by rw [e]; simp) (h (.run p) c'), ih (fun b c hb => h b c (by simp [hb]))⟩
      exact this _ nogo
    · simp only [other h e]; exact S.goOk h
  · intro h h' p hm hm' hu hu'
    simp only [UsesP, other h hm] at hu
    simp only [UsesP, other h' hm'] at hu'
    exact S.uniqueP h h' p hm hm' hu hu'
  · intro t p hu
    simp only [UsesP, other (.tracker t) (by simp)] at hu
    simp only [other (.run p) (by simp)]
    exact S.offRun t p hu
  · intro h c hh
    simp only [put_same] at hh
    exact absurd hh (nogo h c)
  · simp only [put_same]
    rw [List.filterMap_append]
    have : ∀ l : List Nat, (l.map (fun p => Act.rd (.conn p))).filterMap target = [] := by
      intro l
      induction l with
      | nil => rfl
      | cons p l ih => rw [List.map_cons, List.filterMap_cons, ih]; rfl
    rw [this]
    exact List.nodup_nil
  · intro h
    by_cases e : h = .main
    · subst e; simp only [put_same]; exact initFirst_none noinit
    · simp only [other h e]; exact S.initFirst h
  · intro x hx
    simp only [put_same] at hx
    exact absurd hx (noinit x)
  · intro h h' q hi hu
    have hu := uQ h' q hu
    by_cases e : h = .main
    · subst e; simp only [put_same] at hi; exact absurd hi (noinit _)
    · simp only [other h e] at hi; exact S.initQ h h' q hi hu.1
  · intro h h' q hi hu
    have hu := uM h' q hu
    by_cases e : h = .main
    · subst e; simp only [put_same] at hi; exact absurd hi (noinit _)
    · simp only [other h e] at hi; exact S.initM h h' q hi hu.1
  · intro h k hi
    by_cases e : h = .main
    · subst e; simp only [put_same] at hi; exact absurd hi (noinit _)
    · simp only [other h e] at hi; exact S.initQueue h k hi

theorem hold_P (k : Nat) (c : Cont) (x : Nat) : contP (c.hold k) x ↔ contP c x := by cases c <;> simp [Cont.hold, contP]
theorem hold_Q (k : Nat) (c : Cont) (x : Nat) : contQ (c.hold k) x ↔ contQ c x := by cases c <;> simp [Cont.hold, contQ]
theorem hold_M {k : Nat} {c : Cont} {x : Nat} (h : contM (c.hold k) x) : x = k ∨ contM c x := by
  cases c <;> simp_all [Cont.hold, contM]
theorem hold_end (k : Nat) (c : Cont) : endHeld (c.hold k) = endHeld c := by cases c <;> rfl
theorem hold_off {k : Nat} {c : Cont} : c.hold k = .off ↔ c = .off := by cases c <;> simp [Cont.hold]
theorem hold_role {g : Gid} {k : Nat} {c : Cont} (h : Role g c) : Role g (c.hold k) := by
  cases g <;> cases c <;> simp_all [Cont.hold, Role]
theorem hold_goOk {k : Nat} {c : Cont} : ∀ {l : List Act}, GoOk c l → GoOk (c.hold k) l := by
  intro l
  induction l with
  | nil => exact fun _ => trivial
  | cons a l ih =>
    refine fun h => ⟨fun p c' e => ?_, ih h.2⟩
    obtain ⟨h1, h2⟩ := h.1 p c' e
    exact ⟨h1, fun hh => h2 ((hold_P k c p).1 hh)⟩

theorem goOk_tail {c : Cont} {a : Act} {l : List Act} (h : GoOk c (a :: l)) : GoOk c l := h.2

/-- What changes when an action is done. -/
structure After (σ : State) (g : Gid) (a e : Act) (rest : List Act) (τ : State) : Prop where
  mem : ∀ h b, b ∈ τ.todo h → b ∈ σ.todo h
  memG : ∀ b, b ∈ τ.todo g → b ∈ rest
  todo : ∀ h, τ.todo h = (if h = g then rest else σ.todo h) ∨ (∃ c, e = .go h c) ∧ τ.todo h = []
  cont : ∀ h, (τ.cont h = σ.cont h ∧ ∀ c, e ≠ .go h c) ∨ (∃ c, e = .go h c ∧ τ.cont h = c) ∨
    (h = g ∧ ∃ k, τ.cont h = (σ.cont h).hold k ∧ ((∃ q, e = .pop q k ∧ k ∈ σ.queue q) ∨ (e = .recv k ∧ k ∈ σ.chan)))
  held : ∀ h, τ.held h = if h = g then heldStep (σ.held g) e else σ.held h

theorem after_view {σ : State} {g : Gid} {a e : Act} {rest : List Act} (h0 : σ.todo g = a :: rest) (hc : Can σ a e) (hne : ∀ c, e ≠ .go g c) :
    After σ g a e rest (σ.after g e rest) := by
  have hput : ∀ h b, b ∈ put σ.todo g rest h → b ∈ σ.todo h := by
    intro h b hb
    by_cases e : h = g
    · subst e; rw [put_same] at hb; rw [h0]; simp [hb]
    · rw [put_other _ _ e] at hb; exact hb
  have plain : (∀ h c, e ≠ .go h c) → ∀ h, todoAfter σ.todo g rest e h = put σ.todo g rest h := by
    intro hn h
    cases e <;> first | rfl | exact absurd rfl (hn _ _)
  constructor
  · intro h b hb
    simp only [State.after] at hb
    cases e with
    | go h' c =>
      simp only [todoAfter] at hb
      by_cases e : h = h'
      · subst e; rw [put_same] at hb; cases hb
      · rw [put_other _ _ e] at hb; exact hput h b hb
    | _ => exact hput h b hb
  · intro b hb
    simp only [State.after] at hb
    cases e with
    | go h' c =>
      simp only [todoAfter] at hb
      by_cases e : g = h'
      · subst e; exact absurd rfl (hne c)
      · rw [put_other _ _ e, put_same] at hb; exact hb
    | _ => simp only [todoAfter] at hb; rw [put_same] at hb; exact hb
  · intro h
    simp only [State.after]
    cases e with
    | go h' c =>
      simp only [todoAfter]
      by_cases e : h = h'
      · subst e; exact .inr ⟨⟨c, rfl⟩, by rw [put_same]⟩
      · left; rw [put_other _ _ e]; rfl
    | _ => exact .inl rfl
  · intro h
    simp only [State.after]
    cases hc with
    | go =>
      rename_i h' c
      simp only [contAfter]
      by_cases e : h = h'
      · subst e; exact .inr (.inl ⟨c, rfl, by rw [put_same]⟩)
      · left
        refine ⟨put_other _ _ e, ?_⟩
        intro c' e'; cases e'; exact e rfl
    | pop hq =>
      rename_i q k
      simp only [contAfter]
      by_cases e : h = g
      · subst e
        refine .inr (.inr ⟨rfl, k, by rw [put_same], .inl ⟨q, rfl, ?_⟩⟩)
        exact List.mem_of_getLast? hq
      · exact .inl ⟨put_other _ _ e, by simp⟩
    | recv hq =>
      rename_i k
      simp only [contAfter]
      by_cases e : h = g
      · subst e
        refine .inr (.inr ⟨rfl, k, by rw [put_same], .inr ⟨rfl, ?_⟩⟩)
        exact List.mem_of_head? hq
      · exact .inl ⟨put_other _ _ e, by simp⟩
    | _ => exact .inl ⟨rfl, by simp⟩
  · intro h
    simp only [State.after]
    cases e <;> simp only [heldAfter, heldStep, put] <;> split <;> first | rfl | (rename_i e; rw [e])

theorem can_held {σ : State} {a e : Act} (hc : Can σ a e) (h : Option Mtx) : heldStep h e = heldStep h a := by cases hc <;> rfl

theorem can_mention {σ : State} {a e : Act} (hc : Can σ a e) (x : Nat) : (actP e x ↔ actP a x) ∧ (actQ e x ↔ actQ a x) := by
  cases hc <;> simp [actP, actQ, locP, locQ]

theorem can_go {σ : State} {a e : Act} {h : Gid} {c : Cont} (hc : Can σ a e) : e = .go h c ↔ a = .go h c := by cases hc <;> simp

/-- A goroutine that is started was not running, and is not the one that starts it. -/
theorem go_off {σ : State} (S : Static σ) {g h : Gid} {c : Cont} (hm : Act.go h c ∈ σ.todo g) : σ.cont h = .off ∧ h ≠ g := by
  have ho : σ.cont h = .off := by
    rcases (S.legal g _ hm).2.2 h c rfl with ⟨rfl, -⟩ | ⟨t, p, q, rfl, rfl, rfl⟩
    · exact S.mainGo h c hm
    · exact S.offRun t p (.inl ⟨_, hm, by simp [actP, contP]⟩)
  refine ⟨ho, ?_⟩
  intro e; subst e
  rw [S.off h ho] at hm
  cases hm

theorem contP_go {σ : State} (S : Static σ) {g h : Gid} {c : Cont} (hm : Act.go h c ∈ σ.todo g) {p : Nat} (hp : contP c p) :
    h = .run p ∧ ∃ t, g = .tracker t := by
  rcases (S.legal g _ hm).2.2 h c rfl with ⟨rfl, ⟨-, rfl⟩ | ⟨-, rfl⟩ | ⟨t, -, rfl⟩⟩ | ⟨t, p', q, rfl, rfl, rfl⟩
  · cases hp
  · cases hp
  · cases hp
  · cases hp; exact ⟨rfl, t, rfl⟩

theorem contM_go {σ : State} (S : Static σ) {g h : Gid} {c : Cont} (hm : Act.go h c ∈ σ.todo g) {k : Nat} : ¬ contM c k := by
  rcases (S.legal g _ hm).2.2 h c rfl with ⟨rfl, ⟨-, rfl⟩ | ⟨-, rfl⟩ | ⟨t, -, rfl⟩⟩ | ⟨t, p', q, rfl, rfl, rfl⟩ <;> simp [contM]

section
variable {σ : State} {g : Gid} {a e : Act} {rest : List Act} {τ : State}

theorem after_usesP (S : Static σ) (h0 : σ.todo g = a :: rest) (hc : Can σ a e) (A : After σ g a e rest τ) {h : Gid} {p : Nat}
    (hu : UsesP τ h p) : UsesP σ h p ∨ (∃ c, e = .go h c ∧ contP c p) := by
  rcases hu with ⟨b, hb, hp⟩ | hu
  · exact .inl (.inl ⟨b, A.mem h b hb, hp⟩)
  · rcases A.cont h with ⟨h1, -⟩ | ⟨c, h1, h2⟩ | ⟨rfl, k, h1, -⟩
    · rw [h1] at hu; exact .inl (.inr hu)
    · rw [h2] at hu; exact .inr ⟨c, h1, hu⟩
    · rw [h1, hold_P] at hu; exact .inl (.inr hu)

theorem after_usesQ (S : Static σ) (h0 : σ.todo g = a :: rest) (hc : Can σ a e) (A : After σ g a e rest τ) {h : Gid} {p : Nat}
    (hu : UsesQ τ h p) : UsesQ σ h p ∨ (∃ c, e = .go h c ∧ contQ c p) := by
  rcases hu with ⟨b, hb, hp⟩ | hu
  · exact .inl (.inl ⟨b, A.mem h b hb, hp⟩)
  · rcases A.cont h with ⟨h1, -⟩ | ⟨c, h1, h2⟩ | ⟨rfl, k, h1, -⟩
    · rw [h1] at hu; exact .inl (.inr hu)
    · rw [h2] at hu; exact .inr ⟨c, h1, hu⟩
    · rw [h1, hold_Q] at hu; exact .inl (.inr hu)

theorem after_usesM (S : Static σ) (h0 : σ.todo g = a :: rest) (hc : Can σ a e) (A : After σ g a e rest τ) {h : Gid} {k : Nat}
    (hu : UsesM τ h k) : UsesM σ h k ∨ (h = g ∧ ((∃ q, e = .pop q k ∧ k ∈ σ.queue q) ∨ (e = .recv k ∧ k ∈ σ.chan))) := by
  rcases hu with ⟨b, hb, hp⟩ | hu
  · exact .inl (.inl ⟨b, A.mem h b hb, hp⟩)
  · rcases A.cont h with ⟨h1, -⟩ | ⟨c, h1, h2⟩ | ⟨rfl, k', h1, h2⟩
    · rw [h1] at hu; exact .inl (.inr hu)
    · rw [h2] at hu
      rw [can_go hc] at h1
      exact absurd hu (contM_go S (g := g) (h := h) (by rw [h0, h1]; simp))
    · rw [h1] at hu
      rcases hold_M hu with rfl | hu
      · exact .inr ⟨rfl, h2⟩
      · exact .inl (.inr hu)

/-- The starter of a peer's `Run` does not use the peer any more. -/
theorem after_go_P (S : Static σ) (h0 : σ.todo g = a :: rest) (hc : Can σ a e) (A : After σ g a e rest τ) {h : Gid} {c : Cont} {p : Nat}
    (he : e = .go h c) (hp : contP c p) : ¬ UsesP τ g p := by
  have ha := (can_go hc).1 he
  have hm : Act.go h c ∈ σ.todo g := by rw [h0, ha]; simp
  obtain ⟨rfl, t, rfl⟩ := contP_go S hm hp
  have hk := S.goOk (.tracker t)
  rw [h0] at hk
  obtain ⟨k1, k2⟩ := hk.1 p c ha
  rintro (⟨b, hb, hbp⟩ | hu)
  · exact k1 b (A.memG b hb) hbp
  · rcases A.cont (.tracker t) with ⟨h1, -⟩ | ⟨c', h1, h2⟩ | ⟨-, k, h1, -⟩
    · rw [h1] at hu; exact k2 hu
    · rw [he] at h1; cases h1
    · rw [h1, hold_P] at hu; exact k2 hu

end

theorem static_act {σ : State} (S : Static σ) {g : Gid} {a e : Act} {rest : List Act} (h0 : σ.todo g = a :: rest) (hc : Can σ a e) :
    Static (σ.after g e rest) := by
  have am : a ∈ σ.todo g := by rw [h0]; simp
  have hgo : ∀ h c, e = .go h c → σ.cont h = .off ∧ h ≠ g := by
    intro h c he
    rw [can_go hc] at he
    subst he
    exact go_off S am
  have gon : σ.cont g ≠ .off := by
    intro h; rw [S.off g h] at am; cases am
  have A := after_view h0 hc (fun c he => (hgo g c he).2 rfl)
  have okg := S.ok g
  rw [h0] at okg
  have okh : okAct g (σ.held g) a := okg.1
  have uP := fun {h p} => after_usesP S h0 hc A (h := h) (p := p)
  have uQ := fun {h p} => after_usesQ S h0 hc A (h := h) (p := p)
  have uM := fun {h p} => after_usesM S h0 hc A (h := h) (k := p)
  have goP : ∀ {h c p}, e = .go h c → contP c p → UsesP σ g p := by
    intro h c p he hp
    rw [can_go hc] at he
    exact .inl ⟨a, am, by rw [he]; exact hp⟩
  have goQ : ∀ {h c p}, e = .go h c → contQ c p → UsesQ σ g p := by
    intro h c p he hp
    rw [can_go hc] at he
    exact .inl ⟨a, am, by rw [he]; exact hp⟩
  have boff : ∀ h, (σ.after g e rest).cont h = .off → σ.cont h = .off := by
    intro h hh
    rcases A.cont h with ⟨h1, -⟩ | ⟨c, h1, h2⟩ | ⟨rfl, k, h1, -⟩
    · rw [h1] at hh; exact hh
    · exact (hgo h c h1).1
    · rw [h1, hold_off] at hh; exact hh
  constructor
  · intro h
    rcases A.cont h with ⟨h1, -⟩ | ⟨c, h1, h2⟩ | ⟨rfl, k, h1, -⟩
    · rw [h1]; exact S.role h
    · rw [h2]
      rw [can_go hc] at h1
      rcases (S.legal g _ am).2.2 h c h1 with ⟨rfl, ⟨rfl, rfl⟩ | ⟨rfl, rfl⟩ | ⟨t, rfl, rfl⟩⟩ | ⟨t, p', q, rfl, rfl, rfl⟩ <;> simp [Role]
    · rw [h1]; exact hold_role (S.role h)
  · exact fun h b hb => S.legal h b (A.mem h b hb)
  · intro h hh
    have := S.off h (boff h hh)
    apply List.eq_nil_iff_forall_not_mem.2
    intro b hb
    have := A.mem h b hb
    simp_all
  · intro h
    rcases A.cont h with ⟨h1, h3⟩ | ⟨c, h1, h2⟩ | ⟨rfl, k, h1, h3⟩
    · rw [h1, A.held h]
      rcases A.todo h with h2 | ⟨⟨c, h2⟩, -⟩
      · rw [h2]
        by_cases e : h = g
        · subst e; simp only [if_true]; rw [can_held hc]; exact okg.2
        · simp only [e, if_false]; exact S.ok h
      · exact absurd h2 (h3 c)
    · have ho := hgo h c h1
      rw [A.held h, if_neg ho.2, h2]
      have hk := S.ok h
      rw [S.off h ho.1, ho.1] at hk
      have hk : σ.held h = none := hk
      have ht : (σ.after g e rest).todo h = [] := by
        rcases A.todo h with h3 | ⟨-, h3⟩
        · rw [h3, if_neg ho.2]; exact S.off h ho.1
        · exact h3
      rw [hk, ht]
      rw [can_go hc] at h1
      rcases (S.legal g _ am).2.2 h c h1 with ⟨rfl, ⟨rfl, rfl⟩ | ⟨rfl, rfl⟩ | ⟨t, rfl, rfl⟩⟩ | ⟨t, p', q, rfl, rfl, rfl⟩ <;> rfl
    · rw [h1, hold_end, A.held h, if_pos rfl, can_held hc]
      rcases A.todo h with h2 | ⟨⟨c, h2⟩, -⟩
      · rw [h2, if_pos rfl]; exact okg.2
      · exact absurd rfl (hgo h c h2).2
  · intro h h' m e1 e2
    rw [A.held] at e1 e2
    by_cases x1 : h = g
    · by_cases x2 : h' = g
      · rw [x1, x2]
      · subst x1
        rw [if_pos rfl] at e1
        rw [if_neg x2] at e2
        have : σ.held h = some m ∨ ∀ h, σ.held h ≠ some m := by
          cases hc <;> simp only [heldStep] at e1 <;> first
            | exact .inl e1
            | (cases e1; rename_i hf; exact .inr hf)
            | cases e1
        rcases this with this | this
        · exact S.excl h h' m this e2
        · exact absurd e2 (this h')
    · by_cases x2 : h' = g
      · subst x2
        rw [if_pos rfl] at e2
        rw [if_neg x1] at e1
        have : σ.held h' = some m ∨ ∀ h, σ.held h ≠ some m := by
          cases hc <;> simp only [heldStep] at e2 <;> first
            | exact .inl e2
            | (cases e2; rename_i hf; exact .inr hf)
            | cases e2
        rcases this with this | this
        · exact S.excl h h' m e1 this
        · exact absurd e1 (this h)
      · rw [if_neg x1] at e1
        rw [if_neg x2] at e2
        exact S.excl h h' m e1 e2
  · intro h p hm hu
    rcases uP hu with h1 | ⟨c, h1, h2⟩
    · exact S.boundP h p hm h1
    · have hmm : Act.go h c ∈ σ.todo g := by rw [h0, ← (can_go hc).1 h1]; simp
      obtain ⟨-, t, rfl⟩ := contP_go S hmm h2
      exact S.boundP (.tracker t) p (by simp) (goP h1 h2)
  · intro h p hu
    rcases uQ hu with h1 | ⟨c, h1, h2⟩
    · exact S.boundQ h p h1
    · exact S.boundQ g p (goQ h1 h2)
  · intro h p hu
    rcases uM hu with h1 | ⟨-, ⟨q, -, h1⟩ | ⟨-, h1⟩⟩
    · exact S.boundM h p h1
    · exact S.boundQueue q p h1
    · exact S.boundChan p h1
  · intro q k hk
    simp only [State.after] at hk ⊢
    cases hc <;> simp only [queueAfter] at hk <;> first
      | exact S.boundQueue q k hk
      | (rename_i q' k'
         by_cases e : q = q'
         · subst e
           rw [put_same] at hk
           rcases List.mem_append.1 hk with hk | hk
           · exact S.boundQueue q k hk
           · simp at hk; subst hk
             exact S.boundM g k (.inl ⟨_, am, rfl⟩)
         · rw [put_other _ _ e] at hk; exact S.boundQueue q k hk)
      | (rename_i q' k' _
         by_cases e : q = q'
         · subst e
           rw [put_same] at hk
           exact S.boundQueue q k (List.dropLast_subset _ hk)
         · rw [put_other _ _ e] at hk; exact S.boundQueue q k hk)
  · intro k hk
    simp only [State.after] at hk ⊢
    cases hc <;> simp only [chanAfter] at hk <;> first
      | exact S.boundChan k hk
      | (rcases List.mem_append.1 hk with hk | hk
         · exact S.boundChan k hk
         · simp at hk; subst hk
           exact S.boundM g k (.inl ⟨_, am, rfl⟩))
      | exact S.boundChan k (List.mem_of_mem_tail hk)
  · intro p hp
    simp only [State.after] at hp ⊢
    cases hc <;> simp only [poolAfter] at hp <;> first
      | exact S.boundPool p hp
      | (rcases List.mem_cons.1 hp with rfl | hp
         · refine S.boundP g p ?_ (.inl ⟨_, am, rfl⟩)
           intro e; subst e
           rcases (S.legal _ _ am).1 _ _ rfl rfl with e | ⟨t, e⟩ <;> cases e
         · exact S.boundPool p hp)
  · intro p hp
    simp only [State.after]
    rcases A.cont (.run p) with ⟨h1, -⟩ | ⟨c, h1, h2⟩ | ⟨rfl, k, h1, -⟩
    · rw [h1] at hp; exact S.runBound p hp
    · rw [can_go hc] at h1
      rcases (S.legal g _ am).2.2 _ c h1 with ⟨rfl, ⟨e, -⟩ | ⟨e, -⟩ | ⟨t, e, -⟩⟩ | ⟨t, p', q, rfl, e, rfl⟩
      · cases e
      · cases e
      · cases e
      · cases e
        exact S.boundP (.tracker t) p (by simp) (.inl ⟨a, am, by rw [h1]; rfl⟩)
    · exact S.runBound p gon
  · intro h
    rcases A.todo h with h2 | ⟨-, h2⟩
    · by_cases e' : h = g
      · subst e'
        rw [h2, if_pos rfl]
        have hk := S.goOk h
        rw [h0] at hk
        rcases A.cont h with ⟨h1, -⟩ | ⟨c, h1, -⟩ | ⟨-, k, h1, -⟩
        · rw [h1]; exact hk.2
        · exact absurd rfl (hgo h c h1).2
        · rw [h1]; exact hold_goOk hk.2
      · rw [h2, if_neg e']
        rcases A.cont h with ⟨h1, -⟩ | ⟨c, h1, -⟩ | ⟨e'', -⟩
        · rw [h1]; exact S.goOk h
        · rw [S.off h (hgo h c h1).1]; trivial
        · exact absurd e'' e'
    · rw [h2]; trivial
  · intro h h' p hm hm' hu hu'
    rcases uP hu with h1 | ⟨c, h1, h2⟩
    · rcases uP hu' with h3 | ⟨c, h3, h4⟩
      · exact S.uniqueP h h' p hm hm' h1 h3
      · have hmm : Act.go h' c ∈ σ.todo g := by rw [h0, ← (can_go hc).1 h3]; simp
        obtain ⟨-, t, rfl⟩ := contP_go S hmm h4
        have := S.uniqueP h (.tracker t) p hm (by simp) h1 (goP h3 h4)
        subst this
        exact absurd hu (after_go_P S h0 hc A h3 h4)
    · have hmm : Act.go h c ∈ σ.todo g := by rw [h0, ← (can_go hc).1 h1]; simp
      obtain ⟨-, t, rfl⟩ := contP_go S hmm h2
      rcases uP hu' with h3 | ⟨c', h3, h4⟩
      · have := S.uniqueP h' (.tracker t) p hm' (by simp) h3 (goP h1 h2)
        subst this
        exact absurd hu' (after_go_P S h0 hc A h1 h2)
      · rw [h1] at h3; cases h3; rfl
  · intro t p hu
    have huσ : UsesP σ (.tracker t) p := by
      rcases uP hu with h1 | ⟨c, h1, h2⟩
      · exact h1
      · have hmm : Act.go (.tracker t) c ∈ σ.todo g := by rw [h0, ← (can_go hc).1 h1]; simp
        obtain ⟨e, -⟩ := contP_go S hmm h2
        cases e
    have ho := S.offRun t p huσ
    rcases A.cont (.run p) with ⟨h1, -⟩ | ⟨c, h1, h2⟩ | ⟨rfl, k, h1, -⟩
    · rw [h1]; exact ho
    · exfalso
      have ha := (can_go hc).1 h1
      rcases (S.legal g _ am).2.2 _ c ha with ⟨rfl, ⟨e, -⟩ | ⟨e, -⟩ | ⟨t, e, -⟩⟩ | ⟨t', p', q, rfl, e, rfl⟩
      · cases e
      · cases e
      · cases e
      · cases e
        have hcp : contP (.run p q none) p := rfl
        have := S.uniqueP (.tracker t) (.tracker t') p (by simp) (by simp) huσ (goP h1 hcp)
        rw [this] at hu
        exact after_go_P S h0 hc A h1 hcp hu
    · exact absurd ho gon
  · intro h c hh
    have hs := A.mem _ _ hh
    have ho := S.mainGo h c hs
    rcases A.cont h with ⟨h1, -⟩ | ⟨c', h1, h2⟩ | ⟨rfl, k, h1, -⟩
    · rw [h1]; exact ho
    · exfalso
      have ha := (can_go hc).1 h1
      rcases (S.legal g _ am).2.2 _ c' ha with ⟨rfl, -⟩ | ⟨t', p', q, rfl, e, rfl⟩
      · have hr := A.memG _ hh
        have hn := S.mainNodup
        rw [h0, ha, List.filterMap_cons] at hn
        simp only [target, List.nodup_cons] at hn
        exact hn.1 (List.mem_filterMap.2 ⟨_, hr, rfl⟩)
      · subst e
        rcases (S.legal .main _ hs).2.2 _ c rfl with ⟨-, ⟨e, -⟩ | ⟨e, -⟩ | ⟨t, e, -⟩⟩ | ⟨t', p', q, e, -, -⟩ <;> cases e
    · exact absurd ho gon
  · rcases A.todo .main with h1 | ⟨-, h1⟩
    · rw [h1]
      by_cases e' : Gid.main = g
      · subst e'
        rw [if_pos rfl]
        have hn := S.mainNodup
        rw [h0, List.filterMap_cons] at hn
        cases ht : target a with
        | none => rw [ht] at hn; exact hn
        | some x => rw [ht] at hn; exact (List.nodup_cons.1 hn).2
      · rw [if_neg e']; exact S.mainNodup
    · rw [h1]; exact List.nodup_nil
  · intro h
    rcases A.todo h with h1 | ⟨-, h1⟩
    · rw [h1]
      by_cases e' : h = g
      · subst e'
        rw [if_pos rfl]
        have hn := S.initFirst h
        rw [h0] at hn
        exact hn.2
      · rw [if_neg e']; exact S.initFirst h
    · rw [h1]; trivial
  · intro x hx h hh
    have hs := A.mem _ _ hx
    have ho := S.initMain x hs
    rcases A.cont h with ⟨h1, -⟩ | ⟨c', h1, h2⟩ | ⟨rfl, k, h1, -⟩
    · rw [h1]; exact ho h hh
    · exfalso
      have ha := (can_go hc).1 h1
      by_cases e' : g = .main
      · subst e'
        have hn := S.initFirst .main
        rw [h0, ha] at hn
        exact hn.1.1 (by simp [target]) x (A.memG _ hx)
      · exact gon (ho g e')
    · exact absurd (ho h hh) gon
  · intro h h' q hi0 hu
    have hi := A.mem _ _ hi0
    rcases uQ hu with h1 | ⟨c, h1, h2⟩
    · exact S.initQ h h' q hi h1
    · exfalso
      have := S.initQ h g q hi (goQ h1 h2)
      subst this
      have hn := S.initFirst g
      rw [h0, (can_go hc).1 h1] at hn
      exact hn.1.2.1 q h2 (A.memG _ hi0)
  · intro h h' k hi hu
    have hi := A.mem _ _ hi
    rcases uM hu with h1 | ⟨-, ⟨q, -, h1⟩ | ⟨-, h1⟩⟩
    · exact S.initM h h' k hi h1
    · exact absurd h1 ((S.initQueue h k hi).1 q)
    · exact absurd h1 (S.initQueue h k hi).2
  · intro h k hi
    have hi' := A.mem _ _ hi
    have hI := S.initQueue h k hi'
    have hn := S.initFirst g
    rw [h0] at hn
    have key : actM a k → False := by
      intro hm
      have := S.initM h g k hi' (.inl ⟨a, am, hm⟩)
      subst this
      exact hn.1.2.2 k hm (A.memG _ hi)
    refine ⟨fun q hq => ?_, fun hq => ?_⟩
    · simp only [State.after] at hq
      cases hc <;> simp only [queueAfter] at hq <;> first
        | exact hI.1 q hq
        | (rename_i q' k'
           by_cases e : q = q'
           · subst e
             rw [put_same] at hq
             rcases List.mem_append.1 hq with hq | hq
             · exact hI.1 q hq
             · simp at hq; subst hq
               exact key rfl
           · rw [put_other _ _ e] at hq; exact hI.1 q hq)
        | (rename_i q' k' _
           by_cases e : q = q'
           · subst e
             rw [put_same] at hq
             exact hI.1 q (List.dropLast_subset _ hq)
           · rw [put_other _ _ e] at hq; exact hI.1 q hq)
    · simp only [State.after] at hq
      cases hc <;> simp only [chanAfter] at hq <;> first
        | exact hI.2 hq
        | (rcases List.mem_append.1 hq with hq | hq
           · exact hI.2 hq
           · simp at hq; subst hq
             exact key rfl)
        | exact hI.2 (List.mem_of_mem_tail hq)

theorem static_reachable {ts : List Nat} (hn : ts.Nodup) {σ : State} (h : Reachable ts σ) : Static σ := by
  induction h with
  | start => exact static_start ts hn
  | step _ st ih =>
    cases st with
    | act h0 hc => exact static_act ih h0 hc
    | next h0 hc => exact static_next ih h0 hc
    | close h0 hc => exact static_close ih h0 hc

end Gotit.Shared
