import Verif.Spec.Process
import Verif.Props.ManagerRun
import Verif.Props.Open
/-
  C64, C123, C124: interrupts and the end of the program.
-/
namespace Gotit.Props
open Gotit Spec

/-! ## Winding down -/

/-- How far the goroutine of `Download` and `Stop` is from its end. -/
def mainRank (k : Nat) : MainLoc → Nat
  | .waitPeers => k + 9
  | .waitBlocked => k + 8
  | .waitWoken => k + 7
  | .waitCtx => k + 6
  | .closing => k + 5
  | .returned => k + 4
  | .stopLock => k + 3
  | .stopClose rest => rest.length + 1
  | .stopped => 0

/-- How far a download is from its end. -/
def windRank (σ : Mgr) : Nat :=
  if σ.panicked = none then σ.running.length + mainRank ((σ.pool.getD []).length) σ.main + 1 else 0

theorem mainRank_wake (k w : Nat) (m : MainLoc) : mainRank k (wakeIfZero w m) ≤ mainRank k m := by
  unfold wakeIfZero
  split
  · rename_i h
    rw [h.2]
    simp only [mainRank]
    omega
  · exact Nat.le_refl _

theorem winds_rank {σ σ' : Mgr} (hw : Winds σ σ') : windRank σ' < windRank σ := by
  obtain ⟨st, hn⟩ := hw
  cases st with
  | signal hp => simp [hp] at hn
  | waitNow hp hm h0 => simp only [windRank, hp, hm, mainRank, if_true]; omega
  | waitBlock hp hm h0 => simp only [windRank, hp, hm, mainRank, if_true]; omega
  | waitReturn hp hm h0 => simp only [windRank, hp, hm, mainRank, if_true]; omega
  | waitReused hp hm h0 => simp [windRank, hp]
  | ctxDone hp hm h0 => simp only [windRank, hp, hm, mainRank, if_true]; omega
  | close hp hm => simp only [windRank, hp, hm, mainRank, if_true]; omega
  | stopCancel hp hm => simp only [windRank, hp, hm, mainRank, if_true]; omega
  | stopLock hp hm hl hpm => simp only [windRank, hp, hm, mainRank, if_true, hl, Option.getD_some, hpm.length_eq]; omega
  | stopClose hp hm hc => simp only [windRank, hp, hm, mainRank, if_true, List.length_cons]; omega
  | stopNilConn hp hm hc => simp [windRank, hp]
  | stopDone hp hm => simp only [windRank, hp, hm, mainRank, if_true]; simp
  | trackerBad hp _ => simp [hp] at hn
  | trackerNew hp _ => simp [hp] at hn
  | announced _ hp _ => simp [hp] at hn
  | announceFailed hp _ => simp [hp] at hn
  | announceCrash hp _ => simp [windRank, hp]
  | announceCanceled hp _ _ => simp [hp] at hn
  | addKnown hp _ _ _ _ => simp [hp] at hn
  | addNew hp _ _ _ _ => simp [hp] at hn
  | addNil hp _ _ _ => simp [windRank, hp]
  | addedAll hp _ => simp [hp] at hn
  | dial _ hp _ => simp [hp] at hn
  | connectFailed hp _ => simp [hp] at hn
  | connected hp _ _ => simp [hp] at hn; omega
  | intervalOver hp _ => simp [hp] at hn
  | intervalCanceled hp _ _ => simp [hp] at hn
  | deliver _ hp _ _ _ => simp [hp] at hn
  | deliverClosed hp _ _ => simp [windRank, hp]
  | peerEnds hp hr =>
    rename_i a p b
    have := mainRank_wake ((σ.pool.getD []).length) (σ.wg - 1) σ.main
    simp only [windRank, hp, if_true, hr, List.length_append, List.length_cons]
    omega
  | receive hp _ _ _ => simp [hp] at hn
  | write hp _ => simp [hp] at hn
  | writerEnds hp _ _ _ _ => simp [hp] at hn

/-- C64, after cancellation: until the download is over, `Download` or `Stop` can get on or a peer can end, … -/
theorem C64_winds_partial {n limit : Nat} {σ : Mgr} (h : Mgr.Reachable n limit σ) (hc : σ.cancelled = true) (ho : ¬ Over σ) :
    ∃ σ', Winds σ σ' ∧ σ'.cancelled = true := by
  have hm := Mgr.mainInv h
  have hp : σ.panicked = none := by
    cases hq : σ.panicked with
    | none => rfl
    | some e => exact absurd (.inl (by rw [hq]; simp)) ho
  have peer : σ.running ≠ [] → ∃ σ', Winds σ σ' ∧ σ'.cancelled = true := by
    intro hne
    obtain ⟨p, b, hr⟩ := List.exists_cons_of_ne_nil hne
    refine ⟨_, ⟨.peerEnds (a := []) hp hr, .inr (.inl ?_)⟩, hc⟩
    simp [hr]
  have wg0 : σ.running = [] → σ.wg = 0 := fun hr => by rw [hm.wg, hr]; rfl
  cases hmm : σ.main with
  | waitPeers =>
    by_cases hr : σ.running = []
    · exact ⟨_, ⟨.waitNow hp hmm (wg0 hr), .inl (by simp [hmm])⟩, hc⟩
    · exact peer hr
  | waitBlocked => exact peer (fun hr => hm.blocked hmm (wg0 hr))
  | waitWoken =>
    by_cases hr : σ.running = []
    · exact ⟨_, ⟨.waitReturn hp hmm (wg0 hr), .inl (by simp [hmm])⟩, hc⟩
    · exact peer hr
  | waitCtx => exact ⟨_, ⟨.ctxDone hp hmm hc, .inl (by simp [hmm])⟩, hc⟩
  | closing => exact ⟨_, ⟨.close hp hmm, .inl (by simp [hmm])⟩, hc⟩
  | returned => exact ⟨_, ⟨.stopCancel hp hmm, .inl (by simp [hmm])⟩, rfl⟩
  | stopLock =>
    cases hl : σ.pool with
    | none => have := hm.pool.1 hl; rw [hmm] at this; cases this
    | some l => exact ⟨_, ⟨.stopLock hp hmm hl (List.Perm.refl l), .inl (by simp [hmm])⟩, hc⟩
  | stopClose rest =>
    cases rest with
    | nil => exact ⟨_, ⟨.stopDone hp hmm, .inl (by simp [hmm])⟩, hc⟩
    | cons a rest =>
      cases hcn : σ.conn a with
      | true => exact ⟨_, ⟨.stopClose hp hmm hcn, .inl (by simp [hmm])⟩, hc⟩
      | false => exact ⟨_, ⟨.stopNilConn hp hmm hcn, .inr (.inr (by simp))⟩, hc⟩
  | stopped => exact absurd (.inr hmm) ho

/-- The peers `Stop` has still to close are peers of the pool. -/
theorem rest_pool {n limit : Nat} {σ : Mgr} (h : Mgr.Reachable n limit σ) : ∀ rest, σ.main = .stopClose rest →
    rest.length ≤ (σ.pool.getD []).length := by
  induction h with
  | start => intro rest hm; simp [Mgr.start] at hm
  | @step σ σ' _ st ih =>
    have lk : ∀ rest, σ.main = .stopClose rest → σ.locked = true := fun rest hm => by simp [Mgr.locked, hm]
    intro rest hm
    cases st with
    | stopLock hp h1 hl hpm =>
      simp only [MainLoc.stopClose.injEq] at hm
      subst hm
      simp [hl, hpm.length_eq]
    | stopClose hp h1 hc =>
      simp only [MainLoc.stopClose.injEq] at hm
      subst hm
      have := ih _ h1
      simp at this ⊢
      omega
    | peerEnds hp hr =>
      apply ih
      simp only [wakeIfZero] at hm
      split at hm
      · cases hm
      · exact hm
    | addNew hp h1 hlk hl hni => rw [lk rest hm] at hlk; cases hlk
    | _ => first | exact ih rest hm | simp at hm

/-- … and there are at most so many such steps: one for each peer that runs, one for each in the pool, and ten. (A peer that is connected in the
meantime counts anew.) -/
theorem C64_bound_partial {n limit k : Nat} {σ σ' : Mgr} (hr : Mgr.Reachable n limit σ) (h : WindsN k σ σ') :
    k ≤ σ.running.length + (σ.pool.getD []).length + 10 := by
  have key : k + windRank σ' ≤ windRank σ := by
    induction h with
    | zero => omega
    | succ hw _ ih => have := winds_rank hw; have := ih (.step hr hw.1); omega
  unfold windRank at key
  by_cases hp : σ.panicked = none
  · rw [if_pos hp] at key
    cases hm : σ.main with
    | stopClose rest => have := rest_pool hr rest hm; rw [hm] at key; simp only [mainRank] at key; omega
    | _ => rw [hm] at key; simp only [mainRank] at key; omega
  · rw [if_neg hp] at key
    omega

theorem windsN_reachable {n limit k : Nat} {σ σ' : Mgr} (h : WindsN k σ σ') (hr : Mgr.Reachable n limit σ) : Mgr.Reachable n limit σ' := by
  induction h with
  | zero => exact hr
  | succ hw _ ih => exact ih (.step hr hw.1)

/-- C64: so after cancellation the download gets to its end, from every state, whatever peers are running. -/
theorem C64_cancel_partial {n limit : Nat} {σ : Mgr} (h : Mgr.Reachable n limit σ) (hc : σ.cancelled = true) :
    ∃ k σ', WindsN k σ σ' ∧ Over σ' := by
  have key : ∀ m (σ : Mgr), windRank σ ≤ m → Mgr.Reachable n limit σ → σ.cancelled = true → ∃ k σ', WindsN k σ σ' ∧ Over σ' := by
    intro m
    induction m with
    | zero =>
      intro σ hm hr hc
      by_cases ho : Over σ
      · exact ⟨0, σ, .zero, ho⟩
      · obtain ⟨σ', hw, _⟩ := C64_winds_partial hr hc ho
        have := winds_rank hw
        omega
    | succ m ih =>
      intro σ hm hr hc
      by_cases ho : Over σ
      · exact ⟨0, σ, .zero, ho⟩
      · obtain ⟨σ', hw, hc'⟩ := C64_winds_partial hr hc ho
        have := winds_rank hw
        obtain ⟨k, σ'', h1, h2⟩ := ih σ' (by omega) (.step hr hw.1) hc'
        exact ⟨k + 1, σ'', .succ hw h1, h2⟩
  exact key _ σ (Nat.le_refl _) h hc

/-! ## The process -/

theorem Acts.trans {S : Setup} {c : Command} {who : ProcAct → Prop} {P P' P'' : Proc} (h : Acts S c who P P') (h' : Acts S c who P' P'') :
    Acts S c who P P'' := by
  induction h with
  | here => exact h'
  | step st hw _ ih => exact .step st hw (ih h')

theorem Acts.reachable {S : Setup} {c : Command} {who : ProcAct → Prop} {P P' : Proc} (h : Acts S c who P P') (hr : Proc.Reachable S c P) :
    Proc.Reachable S c P' := by
  induction h with
  | here => exact hr
  | step st _ _ ih => exact ih (.step hr st)

/-- The manager inside a process. -/
theorem proc_mgr {S : Setup} {c : Command} {P : Proc} (h : Proc.Reachable S c P) : ∀ σ, P.loc = .running σ →
    ∃ n, Mgr.Reachable n 0 σ ∧ (σ.cancelled = true → 0 < P.signals) ∧ c = .download := by
  have key : (P.cancelled = true → 0 < P.signals) ∧ ∀ σ, P.loc = .running σ →
      ∃ n, Mgr.Reachable n 0 σ ∧ (σ.cancelled = true → 0 < P.signals) ∧ c = .download := by
    induction h with
    | start disk => exact ⟨fun h => by simp [Proc.start] at h, fun σ hl => by simp [Proc.start] at hl⟩
    | @step P a P' hr st ih =>
      obtain ⟨ih1, ih2⟩ := ih
      cases st with
      | @begins d t disk hl hc ho =>
        refine ⟨ih1, fun σ hs => ?_⟩
        simp only [ProcLoc.running.injEq] at hs
        subst hs
        refine ⟨t.trackers.length, ?_, ih1, hc⟩
        cases hb : P.cancelled with
        | true => exact .step .start (.signal rfl)
        | false => exact .start
      | @run σ σ' hl st hcan =>
        refine ⟨ih1, fun σ'' hs => ?_⟩
        simp only [ProcLoc.running.injEq] at hs
        subst hs
        obtain ⟨n, r1, r2, r3⟩ := ih2 σ hl
        refine ⟨n, .step r1 st, fun hcc => ?_, r3⟩
        rcases hcan with he | hm
        · exact r2 (by rw [← he]; exact hcc)
        · exact r2 ((Mgr.mainInv r1).cancelled (.inl (by rw [hm]; trivial)))
      | early hl =>
        refine ⟨fun _ => by simp, fun σ hs => ?_⟩
        have hs : P.loc = .running σ := hs
        rw [hl] at hs; cases hs
      | notify hl =>
        refine ⟨fun _ => by simp, fun σ hs => ?_⟩
        have hs : P.loc = .running σ := hs
        obtain ⟨n, r1, _, r3⟩ := ih2 σ hs
        exact ⟨n, r1, fun _ => by simp, r3⟩
      | @interrupt σ hl hp =>
        refine ⟨fun _ => by simp, fun σ' hs => ?_⟩
        simp only [ProcLoc.running.injEq] at hs
        subst hs
        obtain ⟨n, r1, _, r3⟩ := ih2 σ hl
        exact ⟨n, .step r1 (.signal hp), fun _ => by simp, r3⟩
      | kill hl => exact ⟨fun _ => by simp, fun σ hs => by simp at hs⟩
      | _ => exact ⟨ih1, fun σ hs => by simp at hs⟩
  exact key.2

/-- A cancelled download gets to the end of the process. -/
theorem running_ends {S : Setup} {c : Command} {P : Proc} {σ : Mgr} (h : Proc.Reachable S c P) (hl : P.loc = .running σ)
    (hc : σ.cancelled = true) : ∃ P', Acts S c (· = .own) P P' ∧ Ended P' := by
  obtain ⟨n, hr, _, _⟩ := proc_mgr h σ hl
  have key : ∀ m (σ : Mgr) (P : Proc), windRank σ ≤ m → Mgr.Reachable n 0 σ → σ.cancelled = true → P.loc = .running σ →
      ∃ P', Acts S c (· = .own) P P' ∧ Ended P' := by
    intro m
    induction m with
    | zero =>
      intro σ P hm hr hc hl
      by_cases ho : Over σ
      · by_cases hp : σ.panicked = none
        · exact ⟨_, .step (.ends hl hp (ho.resolve_left (by simp [hp]))) rfl .here, .inl ⟨0, rfl⟩⟩
        · exact ⟨_, .step (.dies hl hp) rfl .here, .inl ⟨2, rfl⟩⟩
      · obtain ⟨σ', hw, _⟩ := C64_winds_partial hr hc ho
        have := winds_rank hw
        omega
    | succ m ih =>
      intro σ P hm hr hc hl
      by_cases ho : Over σ
      · by_cases hp : σ.panicked = none
        · exact ⟨_, .step (.ends hl hp (ho.resolve_left (by simp [hp]))) rfl .here, .inl ⟨0, rfl⟩⟩
        · exact ⟨_, .step (.dies hl hp) rfl .here, .inl ⟨2, rfl⟩⟩
      · obtain ⟨σ', hw, hc'⟩ := C64_winds_partial hr hc ho
        have := winds_rank hw
        obtain ⟨P', h1, h2⟩ := ih σ' { P with loc := .running σ' } (by omega) (.step hr hw.1) hc' rfl
        exact ⟨P', .step (.run hl hw.1 (.inl (by rw [hc, hc']))) rfl h1, h2⟩
  exact key _ σ P (Nat.le_refl _) hr hc hl

/-- C123 is violated while the torrent file is being opened or read: whatever signals arrive, and however many, the program stays there until
whoever provides the file acts. -/
theorem C123_violated {S : Setup} {c : Command} {P P' : Proc} (hl : P.loc = .opening ∨ ∃ d, P.loc = .reading d) (h : Acts S c (· ≠ .file) P P') :
    P'.loc = P.loc ∧ ¬ Ended P' := by
  have key : P'.loc = P.loc := by
    induction h with
    | here => rfl
    | step st hw _ ih =>
      have hs : ∀ P1 P2 a, Proc.Step S c P1 a P2 → a ≠ .file → (P1.loc = .opening ∨ ∃ d, P1.loc = .reading d) → P2.loc = P1.loc := by
        intro P1 P2 a st ha hl
        cases st <;> first | rfl | exact absurd rfl ha | (rcases hl with hl | ⟨d, hl⟩ <;> simp_all)
      have h1 := hs _ _ _ st hw hl
      rw [ih (by rw [h1]; exact hl), h1]
  refine ⟨key, ?_⟩
  rintro (⟨code, he⟩ | he) <;> rw [key] at he <;> rcases hl with hl | ⟨d, hl⟩ <;> rw [hl] at he <;> cases he

/-- C123: between the constructions of the two commands an interrupt of a download is lost altogether: nothing remembers it. -/
theorem C123_lost_violated {S : Setup} {P P' : Proc} (hl : P.loc = .between) (h : Proc.Step S .download P .signal P') :
    P'.loc = P.loc ∧ P'.cancelled = P.cancelled ∧ P'.disk = P.disk := by
  cases h with
  | early _ => exact ⟨rfl, by simp, rfl⟩
  | kill h => rw [hl] at h; cases h
  | notify h => rcases h with h | h | ⟨d, h⟩ | ⟨d, h⟩ <;> rw [hl] at h <;> cases h
  | interrupt h _ => rw [hl] at h; cases h

/-- C123, exactly when it holds: after a signal the program gets to its end on its own unless it still needs something from the torrent file. -/
theorem C123_iff_partial {S : Setup} {c : Command} {P P' : Proc} (h : Proc.Reachable S c P) (hs : Proc.Step S c P .signal P') :
    (∃ P'', Acts S c (· = .own) P' P'' ∧ Ended P'') ↔ ¬ NeedsFile S c P := by
  have hr' : Proc.Reachable S c P' := .step h hs
  have stuck : ∀ Q : Proc, (Q.loc = .opening ∨ ∃ d, Q.loc = .reading d) → ¬ ∃ P'', Acts S c (· = .own) Q P'' ∧ Ended P'' := by
    rintro Q hl ⟨P'', ha, he⟩
    have hb : Acts S c (· ≠ .file) Q P'' := by
      clear hl he
      induction ha with
      | here => exact .here
      | step st hw _ ih => exact .step st (by rw [hw]; simp) ih
    exact (C123_violated hl hb).2 he
  have ready : ∀ Q : Proc, Q.loc = .ready → ((∃ P'', Acts S c (· = .own) Q P'' ∧ Ended P'') ↔ ¬ (c = .download → S.stat = .ok true)) := by
    intro Q hq
    constructor
    · rintro ⟨P'', ha, he⟩ hst
      cases ha with
      | here => rcases he with ⟨code, he⟩ | he <;> rw [hq] at he <;> cases he
      | step st hw ha =>
        cases st <;> first | (simp only [reduceCtorEq] at hw; done) | skip
        case goodDir _ _ => exact stuck _ (.inl rfl) ⟨P'', ha, he⟩
        case badDir hl hd hbad => exact hbad (hst hd)
        all_goals simp_all
    · intro hn
      by_cases hd : c = .download
      · exact ⟨_, .step (.badDir hq hd (fun he => hn (fun _ => he))) rfl .here, .inl ⟨1, rfl⟩⟩
      · exact absurd (fun hd' => absurd hd' hd) hn
  cases hs with
  | kill hl =>
    constructor
    · intro _ hnf
      rcases hnf with hn | ⟨d, hn⟩ | ⟨⟨hn, _⟩ | hn, _⟩ <;> rw [hl] at hn <;> cases hn
    · intro _; exact ⟨_, .here, .inr rfl⟩
  | early hl =>
    have e : NeedsFile S c P ↔ S.configOk = true ∧ (c = .download → S.stat = .ok true) := by
      unfold NeedsFile; rw [hl]; simp
    rw [e]
    cases hcfg : S.configOk with
    | false =>
      constructor
      · intro _ hn; exact absurd hn.1 (by simp)
      · intro _; exact ⟨_, .step (.badConfig hl hcfg) rfl .here, .inl ⟨1, rfl⟩⟩
    | true =>
      constructor
      · rintro ⟨P'', ha, he⟩ ⟨_, hst⟩
        cases ha with
        | here => rcases he with ⟨code, he⟩ | he <;> (have he : P.loc = _ := he) <;> rw [hl] at he <;> cases he
        | step st hw ha =>
          cases st <;> first | (simp only [reduceCtorEq] at hw; done) | skip
          case second _ _ => exact (ready _ rfl).1 ⟨P'', ha, he⟩ hst
          all_goals simp_all
      · intro hn
        obtain ⟨P'', ha, he⟩ := (ready { P with loc := .ready, cancelled := (c == .bencode) || P.cancelled, signals := P.signals + 1 } rfl).2
          (fun hst => hn ⟨rfl, hst⟩)
        exact ⟨P'', .step (.second hl hcfg) rfl ha, he⟩
  | notify hl =>
    rcases hl with hl | hl | ⟨d, hl⟩ | ⟨d, hl⟩
    · have e : NeedsFile S c P ↔ (c = .download → S.stat = .ok true) := by unfold NeedsFile; rw [hl]; simp
      rw [e]
      exact ready _ hl
    · exact ⟨fun hx => absurd hx (stuck _ (.inl hl)), fun hn => absurd (.inl hl) hn⟩
    · exact ⟨fun hx => absurd hx (stuck _ (.inr ⟨d, hl⟩)), fun hn => absurd (.inr (.inl ⟨d, hl⟩)) hn⟩
    · constructor
      · intro _ hnf
        rcases hnf with hn | ⟨d, hn⟩ | ⟨⟨hn, _⟩ | hn, _⟩ <;> rw [hl] at hn <;> cases hn
      · intro _
        cases hcc : c with
        | bencode => exact ⟨_, .step (.inspect (d := d) hl rfl) rfl .here, .inl ⟨_, rfl⟩⟩
        | download =>
          subst hcc
          cases ho : openTorrent S.sha1 S.os S.outDir S.stat (.ok d) P.disk with
          | mk r disk =>
            cases hd : downloadCommand r with
            | some out => exact ⟨_, .step (.cannotStart (d := d) hl rfl ho hd) rfl .here, .inl ⟨_, rfl⟩⟩
            | none =>
              cases r with
              | err e => simp [downloadCommand] at hd
              | panic e => simp [downloadCommand] at hd
              | ok t =>
                have st := Proc.Step.begins (S := S) (c := .download) (P := { P with cancelled := true, signals := P.signals + 1 }) (d := d) hl rfl ho
                obtain ⟨P'', ha, he⟩ := running_ends (.step hr' st) rfl rfl
                exact ⟨P'', .step st rfl ha, he⟩
  | @interrupt σ hl hp =>
    constructor
    · intro _ hnf
      rcases hnf with hn | ⟨d, hn⟩ | ⟨⟨hn, _⟩ | hn, _⟩ <;> rw [hl] at hn <;> cases hn
    · intro _
      exact running_ends hr' rfl rfl

/-! ## C124 -/

/-- C124: a download ends with status 0 only after an interrupt, complete or not. -/
theorem C124_interrupted_partial {S : Setup} {P : Proc} (h : Proc.Reachable S .download P) (he : P.loc = .exited 0) : 0 < P.signals := by
  cases h with
  | start disk => simp [Proc.start] at he
  | @step P a P' hr st =>
    cases st with
    | @ends σ hl hp hm =>
      obtain ⟨n, r1, r2, _⟩ := proc_mgr hr σ hl
      exact r2 ((Mgr.mainInv r1).cancelled (.inl (by rw [hm]; trivial)))
    | @cannotStart d r disk out hl _ ho hd =>
      simp only [ProcLoc.exited.injEq] at he
      cases r with
      | ok t => simp [downloadCommand] at hd
      | err e => simp [downloadCommand] at hd; subst hd; simp at he
      | panic e => simp [downloadCommand] at hd; subst hd; simp at he
    | inspect _ hc => cases hc
    | early hl => rw [show P.loc = .exited 0 from he] at hl; cases hl
    | notify hl => rw [show P.loc = .exited 0 from he] at hl; simp at hl
    | _ => simp at he

/-- C124: without a signal a download that has begun goes on for ever, or dies. -/
theorem C124_forever_partial {S : Setup} {P P' : Proc} {σ : Mgr} (h : Proc.Reachable S .download P) (hl : P.loc = .running σ) (hs : P.signals = 0)
    (ha : Acts S .download (· ≠ .signal) P P') : (∃ σ', P'.loc = .running σ' ∧ σ'.cancelled = false) ∨ P'.loc = .exited 2 := by
  have hsig : ∀ Q Q' : Proc, Acts S .download (· ≠ .signal) Q Q' → Q'.signals = Q.signals := by
    intro Q Q' ha
    induction ha with
    | here => rfl
    | step st hw _ ih => rw [ih]; cases st <;> first | rfl | exact absurd rfl hw
  have hshape : ∀ Q Q' : Proc, Acts S .download (· ≠ .signal) Q Q' → (∃ σ, Q.loc = .running σ) ∨ (∃ k, Q.loc = .exited k ∧ (k = 0 ∨ k = 2)) →
      (∃ σ, Q'.loc = .running σ) ∨ (∃ k, Q'.loc = .exited k ∧ (k = 0 ∨ k = 2)) := by
    intro Q Q' ha
    induction ha with
    | here => exact id
    | step st hw _ ih =>
      intro hq
      apply ih
      cases st <;> first | (exact absurd rfl hw) | skip
      case run => exact .inl ⟨_, rfl⟩
      case ends => exact .inr ⟨0, rfl, .inl rfl⟩
      case dies => exact .inr ⟨2, rfl, .inr rfl⟩
      case crashes => exact .inr ⟨2, rfl, .inr rfl⟩
      all_goals (exfalso; rcases hq with ⟨σ, hq⟩ | ⟨k, hq, _⟩ <;> simp_all)
  have hr' := Acts.reachable ha h
  rcases hshape P P' ha (.inl ⟨σ, hl⟩) with ⟨σ', h1⟩ | ⟨k, h1, rfl | rfl⟩
  · left
    refine ⟨σ', h1, ?_⟩
    obtain ⟨_, _, r2, _⟩ := proc_mgr hr' σ' h1
    cases hc : σ'.cancelled with
    | false => rfl
    | true => have := r2 hc; rw [hsig P P' ha, hs] at this; omega
  · have := C124_interrupted_partial hr' h1
    rw [hsig P P' ha, hs] at this; omega
  · exact .inr h1

/-- C124: what the statuses mean. 0: the torrent file is in order (`bencode`) or the download was stopped. 1: the configuration, the directory,
opening, reading or the torrent file is at fault. 2: a panic. There are no others. -/
theorem C124_status_partial {S : Setup} {c : Command} {P P' : Proc} {a : ProcAct} {k : Nat} (h : Proc.Step S c P a P') (hn : ¬ Ended P)
    (he : P'.loc = .exited k) :
    (k = 0 ∧ a = .own ∧ ((c = .bencode ∧ ∃ d, P.loc = .loaded d ∧ (unmarshalMetainfo d).2 = .ok) ∨
      (∃ σ, P.loc = .running σ ∧ σ.panicked = none ∧ σ.main = .stopped))) ∨
    (k = 1 ∧ ((P.loc = .between ∧ S.configOk = false) ∨ (P.loc = .ready ∧ c = .download ∧ S.stat ≠ .ok true) ∨
      (P.loc = .opening ∧ a = .file ∧ S.openError ≠ none) ∨ (a = .file ∧ ∃ d, P.loc = .reading d) ∨
      (∃ d e, P.loc = .loaded d ∧ c = .bencode ∧ (unmarshalMetainfo d).2 = .err e) ∨
      (∃ d e, P.loc = .loaded d ∧ c = .download ∧ (openTorrent S.sha1 S.os S.outDir S.stat (.ok d) P.disk).1 = .err e))) ∨
    (k = 2 ∧ a = .crash ∧ ∃ σ, P.loc = .running σ) ∨
    (k = 2 ∧ a = .own ∧ ((∃ d e, P.loc = .loaded d ∧ c = .bencode ∧ (unmarshalMetainfo d).2 = .panic e) ∨
      (∃ d e, P.loc = .loaded d ∧ c = .download ∧ (openTorrent S.sha1 S.os S.outDir S.stat (.ok d) P.disk).1 = .panic e) ∨
      (∃ σ, P.loc = .running σ ∧ σ.panicked ≠ none))) := by
  cases h with
  | badConfig h1 h2 => simp only [ProcLoc.exited.injEq] at he; exact .inr (.inl ⟨he.symm, .inl ⟨h1, h2⟩⟩)
  | badDir h1 h2 h3 => simp only [ProcLoc.exited.injEq] at he; exact .inr (.inl ⟨he.symm, .inr (.inl ⟨h1, h2, h3⟩)⟩)
  | openFails h1 h2 => simp only [ProcLoc.exited.injEq] at he; exact .inr (.inl ⟨he.symm, .inr (.inr (.inl ⟨h1, rfl, h2⟩))⟩)
  | @readFails d h1 => simp only [ProcLoc.exited.injEq] at he; exact .inr (.inl ⟨he.symm, .inr (.inr (.inr (.inl ⟨rfl, d, h1⟩)))⟩)
  | @inspect d h1 h2 =>
    simp only [ProcLoc.exited.injEq, inspectCommand] at he
    cases hu : (unmarshalMetainfo d).2 with
    | ok => rw [hu] at he; exact .inl ⟨he.symm, rfl, .inl ⟨h2, d, h1, hu⟩⟩
    | err e => rw [hu] at he; exact .inr (.inl ⟨he.symm, .inr (.inr (.inr (.inr (.inl ⟨d, e, h1, h2, hu⟩))))⟩)
    | panic e => rw [hu] at he; exact .inr (.inr (.inr ⟨he.symm, rfl, .inl ⟨d, e, h1, h2, hu⟩⟩))
  | @cannotStart d r disk out h1 h2 ho hd =>
    simp only [ProcLoc.exited.injEq] at he
    cases r with
    | ok t => simp [downloadCommand] at hd
    | err e =>
      simp only [downloadCommand, Option.some.injEq] at hd
      subst hd
      exact .inr (.inl ⟨he.symm, .inr (.inr (.inr (.inr (.inr ⟨d, e, h1, h2, by rw [ho]⟩))))⟩)
    | panic e =>
      simp only [downloadCommand, Option.some.injEq] at hd
      subst hd
      exact .inr (.inr (.inr ⟨he.symm, rfl, .inr (.inl ⟨d, e, h1, h2, by rw [ho]⟩)⟩))
  | @ends σ h1 h2 h3 => simp only [ProcLoc.exited.injEq] at he; exact .inl ⟨he.symm, rfl, .inr ⟨σ, h1, h2, h3⟩⟩
  | @dies σ h1 h2 => simp only [ProcLoc.exited.injEq] at he; exact .inr (.inr (.inr ⟨he.symm, rfl, .inr (.inr ⟨σ, h1, h2⟩)⟩))
  | @crashes σ h1 => simp only [ProcLoc.exited.injEq] at he; exact .inr (.inr (.inl ⟨he.symm, rfl, σ, h1⟩))
  | early h1 => exact absurd (.inl ⟨k, he⟩) hn
  | notify h1 => exact absurd (.inl ⟨k, he⟩) hn
  | _ => cases he

/-- The count of signals is what it says. -/
theorem signals_counted {S : Setup} {c : Command} {P P' : Proc} {a : ProcAct} (h : Proc.Step S c P a P') :
    P'.signals = P.signals + if a = .signal then 1 else 0 := by
  cases h <;> simp

/-- The process can always get to reading the file, if the surroundings are as they should be. -/
theorem reach_loaded (S : Setup) (c : Command) (disk : Disk) (h1 : S.configOk = true) (h2 : S.stat = .ok true) (h3 : S.openError = none) (d : Bytes) :
    Proc.Reachable S c ⟨.opening, false, disk, 0⟩ ∧ Proc.Reachable S c ⟨.reading d, false, disk, 0⟩ ∧ Proc.Reachable S c ⟨.loaded d, false, disk, 0⟩ := by
  have r1 : Proc.Reachable S c ⟨.between, false, disk, 0⟩ := .step (.start disk) (.first rfl)
  have r2 : Proc.Reachable S c ⟨.ready, false, disk, 0⟩ := .step r1 (.second rfl h1)
  have r3 : Proc.Reachable S c ⟨.opening, false, disk, 0⟩ := .step r2 (.goodDir rfl (fun _ => h2))
  have r4 : Proc.Reachable S c ⟨.reading [], false, disk, 0⟩ := .step r3 (.openOk rfl h3)
  have r5 : Proc.Reachable S c ⟨.reading d, false, disk, 0⟩ := .step r4 (.chunk (d := []) d rfl)
  exact ⟨r3, r5, .step r5 (.eof rfl)⟩

/-- C123 is false for both commands, wherever the file can be opened. -/
theorem C123_false_violated (S : Setup) (c : Command) (h1 : S.configOk = true) (h2 : S.stat = .ok true) (h3 : S.openError = none) :
    ¬ EndsOnInterrupt S c := by
  intro h
  obtain ⟨_, r, _⟩ := reach_loaded S c (fun _ => []) h1 h2 h3 []
  have st : Proc.Step S c ⟨.reading [], false, fun _ => [], 0⟩ .signal ⟨.reading [], true, fun _ => [], 1⟩ := .notify (.inr (.inr (.inl ⟨[], rfl⟩)))
  exact (C123_iff_partial r st).1 (h _ _ r st) (.inr (.inl ⟨[], rfl⟩))

/-- C124 is violated: a download that is interrupted at once ends with status 0 although nothing was written. -/
theorem C124_violated (S : Setup) (h1 : S.configOk = true) (h2 : S.stat = .ok true) (h3 : S.openError = none) (d : Bytes) (disk disk' : Disk)
    (t : Torrent) (ho : openTorrent S.sha1 S.os S.outDir S.stat (.ok d) disk = (.ok t, disk')) (complete : List PeerMessage → Prop)
    (hc : ¬ complete []) : ¬ ExitTells S complete := by
  intro h
  obtain ⟨_, _, r⟩ := reach_loaded S .download disk h1 h2 h3 d
  have r1 : Proc.Reachable S .download ⟨.running (Mgr.start t.trackers.length), false, disk', 0⟩ := .step r (.begins rfl rfl ho)
  let σ1 : Mgr := { Mgr.start t.trackers.length with cancelled := true }
  have r2 : Proc.Reachable S .download ⟨.running σ1, false, disk', 1⟩ := .step r1 (.interrupt rfl rfl)
  have r3 : Proc.Reachable S .download ⟨.running { σ1 with main := .waitCtx }, false, disk', 1⟩ :=
    .step r2 (.run (σ := σ1) rfl (.waitNow rfl rfl rfl) (.inl rfl))
  have r4 : Proc.Reachable S .download ⟨.running { σ1 with main := .closing }, false, disk', 1⟩ := .step r3 (.run rfl (.ctxDone rfl rfl rfl) (.inl rfl))
  have r5 : Proc.Reachable S .download ⟨.running { σ1 with main := .returned, closed := true }, false, disk', 1⟩ :=
    .step r4 (.run rfl (.close rfl rfl) (.inl rfl))
  have r6 : Proc.Reachable S .download ⟨.running { σ1 with main := .stopLock, closed := true }, false, disk', 1⟩ :=
    .step r5 (.run rfl (.stopCancel rfl rfl) (.inr rfl))
  have r7 : Proc.Reachable S .download ⟨.running { σ1 with main := .stopClose [], closed := true }, false, disk', 1⟩ :=
    .step r6 (.run rfl (.stopLock (l := []) (l' := []) rfl rfl rfl (List.Perm.refl _)) (.inl rfl))
  have r8 : Proc.Reachable S .download ⟨.running { σ1 with main := .stopped, closed := true, pool := none }, false, disk', 1⟩ :=
    .step r7 (.run rfl (.stopDone rfl rfl) (.inl rfl))
  exact hc (h _ _ ⟨.exited 0, false, disk', 1⟩ r8 rfl (.ends rfl rfl rfl) rfl)

/-! ## Cases -/

/-- A torrent of one file. -/
def oneInfo : Bencode := .dict true [(ascii "length", .int 5), (ascii "name", .str (ascii "d")), (ascii "piece length", .int 16),
  (ascii "pieces", .str (List.replicate 20 7))] []
def oneMeta : Bencode := .dict true [(ascii "announce", .str (ascii "http://t/")), (ascii "info", oneInfo)] []
def oneMetainfo : Metainfo :=
  { announce := ascii "http://t/", announceList := [], urlList := [], files := [], infoLength := 5,
    name := ascii "d", pieceLength := 16, pieces := List.replicate 20 7, infoDictRaw := oneInfo.encode }

theorem oneMeta_is : IsMetainfo oneMeta oneMetainfo := by
  refine ⟨true, _, [], rfl, by simp [oneMetainfo], .inr ⟨lacks_keys (by decide), rfl⟩, .inr ⟨lacks_keys (by decide), rfl⟩,
    ⟨oneInfo, by simp, ?_, rfl⟩, .inl (lacks_keys (by decide))⟩
  exact ⟨true, _, [], rfl, by simp [oneMetainfo], by simp [oneMetainfo], by simp [oneMetainfo],
    .inl ⟨by simp [oneMetainfo], lacks_keys (by decide), rfl⟩⟩

theorem oneMeta_encodable : Encodable oneMeta := by
  have hi : ∀ n : Int, 0 ≤ n → n ≤ 100 → Encodable (.int n) := fun n h1 h2 => encodable_int ⟨h1, by simp only [maxNumber]; omega⟩
  have hs : ∀ s : Bytes, s.length ≤ 100 → Encodable (.str s) := fun s h => encodable_str (by simp only [maxNumber]; omega)
  have hk : ∀ kvs : List (Bytes × Bencode), (∀ e ∈ kvs, e.1.length ≤ 100) → ∀ e ∈ kvs, e.1.length ≤ maxNumber :=
    fun kvs h e he => by have := h e he; simp only [maxNumber]; omega
  refine encodable_dict ?_ (by decide) (hk _ (by simp; decide))
  simp only [List.mem_cons, List.not_mem_nil, or_false, forall_eq_or_imp, forall_eq]
  refine ⟨hs _ (by decide), encodable_dict ?_ (by decide) (hk _ (by simp; decide))⟩
  simp only [List.mem_cons, List.not_mem_nil, or_false, forall_eq_or_imp, forall_eq]
  exact ⟨hi _ (by decide) (by decide), hs _ (by decide), hi _ (by decide) (by decide), hs _ (by decide)⟩

/-- Surroundings in which it can be opened. -/
def oneSetup : Setup := ⟨fun _ => [], ⟨fun _ => false, fun _ => none⟩, ascii "out", true, .ok true, none⟩

theorem oneMeta_opens (disk : Disk) : ∃ t disk', openTorrent oneSetup.sha1 oneSetup.os oneSetup.outDir oneSetup.stat (.ok oneMeta.encode) disk = (.ok t, disk') := by
  have h := C73_open oneSetup.sha1 oneSetup.os oneSetup.outDir disk oneMeta oneMetainfo oneMeta_encodable oneMeta_is
  have hp : newPieces oneMetainfo.pieces = .ok [⟨0, List.replicate 20 7⟩] := by decide
  rw [show oneSetup.stat = .ok true from rfl, h, newTorrent, hp]
  exact ⟨_, _, rfl⟩

/-- A pipe with half a torrent file: two interrupts later the program still waits for the rest. -/
example (c : Command) (disk : Disk) : Proc.Reachable oneSetup c ⟨.reading (ascii "d8:an"), true, disk, 2⟩ ∧
    ∀ P', Acts oneSetup c (· ≠ .file) ⟨.reading (ascii "d8:an"), true, disk, 2⟩ P' → ¬ Ended P' := by
  obtain ⟨_, r, _⟩ := reach_loaded oneSetup c disk rfl rfl rfl (ascii "d8:an")
  have r1 : Proc.Reachable oneSetup c ⟨.reading (ascii "d8:an"), true, disk, 1⟩ := .step r (.notify (.inr (.inr (.inl ⟨_, rfl⟩))))
  exact ⟨.step r1 (.notify (.inr (.inr (.inl ⟨_, rfl⟩)))), fun P' h => (C123_violated (.inr ⟨_, rfl⟩) h).2⟩

/-- An interrupt after the file has been read ends the program. -/
example (disk : Disk) : ∃ P', Acts oneSetup .download (· = .own) ⟨.loaded oneMeta.encode, true, disk, 1⟩ P' ∧ Ended P' := by
  obtain ⟨_, _, r⟩ := reach_loaded oneSetup .download disk rfl rfl rfl oneMeta.encode
  refine (C123_iff_partial r (.notify (.inr (.inr (.inr ⟨_, rfl⟩))))).2 ?_
  rintro (h | ⟨d, h⟩ | ⟨⟨h, _⟩ | h, _⟩) <;> cases h

/-- Status 0 with nothing written. -/
example (m : PeerMessage) : ¬ ExitTells oneSetup (fun l => m ∈ l) := by
  obtain ⟨t, disk', h⟩ := oneMeta_opens (fun _ => [])
  exact C124_violated oneSetup rfl rfl rfl oneMeta.encode _ disk' t h _ (by simp)

/-- A peer is running when the context is cancelled. -/
example : ∃ σ, Mgr.Reachable 1 30 σ ∧ σ.cancelled = true ∧ σ.running.length = 1 ∧ ∃ k σ', WindsN k σ σ' ∧ Over σ' := by
  have r0 := reach_announced 0 30 ([[49]] ++ [])
  obtain ⟨σ1, k1, k2, _, _, _, k6, _⟩ := Later.connectAll [] [] [] [[49]] (announcedState 0 ([[49]] ++ [])) [] rfl rfl rfl rfl (by simp)
  have r2 : Mgr.Reachable 1 30 { σ1 with cancelled := true } := .step (Later.reachable k1 r0) (.signal k2)
  exact ⟨_, r2, rfl, by simp [k6, announcedState, Mgr.start], C64_cancel_partial r2 rfl⟩

end Gotit.Props
