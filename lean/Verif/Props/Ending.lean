import Verif.Model.Ending
import Verif.Spec.Ending
import Verif.Lemmas.Manager
import Verif.Props.RunTime
/-
  C149: after an interrupt the program is over within a bounded time.
-/
namespace Gotit.Props
open Gotit Spec

/-- The timed download is a download. -/
theorem timed_mgr {lim : Limits} {n : Nat} {s : TMgr} (h : TMgr.Reachable lim n s) :
    Mgr.Reachable n 0 s.m ∧ s.runs.map Prod.fst = s.m.running := by
  induction h with
  | start => exact ⟨.start, rfl⟩
  | @step s s' _ st ih =>
    obtain ⟨h1, h2⟩ := ih
    cases st with
    | tick => exact ⟨h1, h2⟩
    | interrupt hp => exact ⟨h1.step (.signal hp), by simpa [List.map_map, Function.comp_def] using h2⟩
    | main hs _ hr _ => exact ⟨h1.step hs, by rw [hr]; exact h2⟩
    | tries hp ht hl hq hn => exact ⟨h1.step (.addNew hp ht hl hq hn), h2⟩
    | connected hp ht hc hb => exact ⟨h1.step (.connected hp ht hc), by simp [h2]⟩
    | ended hp hr =>
      rename_i a p d b
      refine ⟨h1.step ?_, by simp⟩
      have e : s.m.running = a.map Prod.fst ++ p :: b.map Prod.fst := by rw [← h2, hr]; simp
      have := Mgr.Step.peerEnds hp e
      simpa using this
    | dies hs h3 =>
      refine ⟨h1.step hs, ?_⟩
      rw [h2]
      cases hs <;> first | rfl | simp_all
    | other hs _ hr => exact ⟨h1.step hs, by rw [hr]; exact h2⟩

/-- What a step that is not one of the main goroutine leaves alone. -/
theorem other_pool {m m' : Mgr} (hs : Mgr.Step m m') (h1 : m'.main = m.main) (h2 : ∃ l, m.main = .stopClose l) : m'.pool = m.pool := by
  obtain ⟨l, h2⟩ := h2
  cases hs with
  | addNew hp ht hl => simp [Mgr.locked, h2] at hl
  | stopDone hp hm => simp [hm] at h1
  | _ => rfl

theorem other_wg {m m' : Mgr} (hs : Mgr.Step m m') (h1 : m'.running = m.running) : m'.wg = m.wg := by
  cases hs with
  | connected => simp at h1
  | peerEnds hp hr => rw [hr] at h1; have := congrArg List.length h1; simp at this
  | _ => rfl

theorem main_frame {m m' : Mgr} (hs : Mgr.Step m m') (h1 : m'.main ≠ m.main) (h2 : m'.running = m.running) :
    m'.trackers = m.trackers ∧ m'.wg = m.wg ∧ (m'.cancelled = m.cancelled ∨ m.main = .returned) ∧ (m.main ≠ .stopClose [] → m'.pool = m.pool) := by
  cases hs with
  | peerEnds hp hr => rw [hr] at h2; have := congrArg List.length h2; simp at this
  | stopDone hp hm => exact ⟨rfl, rfl, .inl rfl, fun h => absurd hm h⟩
  | stopCancel hp hm => exact ⟨rfl, rfl, .inr hm, fun _ => rfl⟩
  | waitNow | waitBlock | waitReturn | ctxDone | close | stopLock | stopClose => exact ⟨rfl, rfl, .inl rfl, fun _ => rfl⟩
  | _ => simp at h1

theorem countP_upd (f : Nat → Bool) (i : Nat) (hf : f i = false) (n : Nat) (h : i < n) :
    (List.range n).countP (fun j => if j = i then true else f j) = (List.range n).countP f + 1 := by
  have key : ∀ n, n ≤ i → (List.range n).countP (fun j => if j = i then true else f j) = (List.range n).countP f := by
    intro n hn
    apply List.countP_congr
    intro x hx
    have := List.mem_range.1 hx
    rw [if_neg (by omega)]
  induction n with
  | zero => omega
  | succ n ih =>
    rw [List.range_succ, List.countP_append, List.countP_append]
    by_cases e : i = n
    · subst e; rw [key i (Nat.le_refl _)]; simp [hf]
    · rw [ih (by omega)]
      have e2 : n ≠ i := fun h => e h.symm
      simp [List.countP_cons, e2]; omega

/-- The trackers that start a `Run` after the context was cancelled: each at most once. -/
structure LateInv (n : Nat) (s : TMgr) : Prop where
  len : s.m.trackers.length = n
  at_ : s.cancelledAt = none ↔ s.m.cancelled = false
  none_ : s.m.cancelled = false → s.lateRuns = 0 ∧ ∀ i, s.late i = false
  barred : ∀ i ip ips, s.late i = true → s.m.trackers[i]? = some (.connecting ip ips) → s.barred i = true
  count : s.lateRuns = (List.range n).countP s.late

theorem lateInv {lim : Limits} {n : Nat} {s : TMgr} (h : TMgr.Reachable lim n s) : LateInv n s := by
  induction h with
  | start => refine ⟨by simp [TMgr.start, Mgr.start], by simp [TMgr.start, Mgr.start], fun _ => ⟨rfl, fun _ => rfl⟩, by simp [TMgr.start], ?_⟩
             simp [TMgr.start]
  | @step s s' hr st ih =>
    obtain ⟨h1, h2, h3, h4, h5⟩ := ih
    have hm := Mgr.mainInv (timed_mgr hr).1
    cases st with
    | tick => exact ⟨h1, h2, h3, h4, h5⟩
    | interrupt hp hc => exact ⟨h1, by simp, fun h => by simp at h, h4, h5⟩
    | main hs hn hrun _ =>
      obtain ⟨f1, f2, f3, f4⟩ := main_frame hs hn hrun
      have f6 := hm.cancelled
      have f5 : _ = s.m.cancelled := f3.elim id (fun h => by
        cases hs <;> simp_all [hasReturned])
      exact ⟨by simpa [f1] using h1, by simpa [f5] using h2, by simpa [f5] using h3, by simpa [f1] using h4, h5⟩
    | tries hp ht hl hq hnl =>
      rename_i a b ip ips l
      refine ⟨by rw [ht] at h1; simpa using h1, h2, h3, ?_, h5⟩
      intro i ip' ips' hl' hi
      simp only at hi hl' ⊢
      by_cases e : i = a.length
      · rw [if_pos e]
        cases hc : s.m.cancelled
        · rw [(h3 hc).2 i] at hl'; cases hl'
        · rfl
      · rw [if_neg e]
        refine h4 i ip' ips' hl' ?_
        rw [ht]
        rw [List.getElem?_append] at hi ⊢
        split at hi
        · rename_i hlt; rw [if_pos hlt]; exact hi
        · rename_i hlt; rw [if_neg hlt]
          obtain ⟨k, hk⟩ : ∃ k, i - a.length = k + 1 := ⟨i - a.length - 1, by omega⟩
          rw [hk] at hi ⊢; simpa using hi
    | connected hp ht hc hb =>
      rename_i a b ip ips
      have hat : s.m.trackers[a.length]? = some (.connecting ip ips) := by rw [ht]; simp
      have hlate : s.late a.length = false := by
        cases e : s.late a.length with
        | false => rfl
        | true => rw [h4 _ _ _ e hat] at hb; cases hb
      refine ⟨by rw [ht] at h1; simpa using h1, h2, ?_, ?_, ?_⟩
      · intro hcn
        simp only at hcn ⊢
        refine ⟨by simp [hcn, (h3 hcn).1], fun i => ?_⟩
        split
        · exact hcn
        · exact (h3 hcn).2 i
      · intro i ip' ips' hl' hi
        simp only at hi hl' ⊢
        by_cases e : i = a.length
        · subst e; simp at hi
        · rw [if_neg e] at hl'
          refine h4 i ip' ips' hl' ?_
          rw [ht]
          rw [List.getElem?_append] at hi ⊢
          split at hi
          · rename_i hlt; rw [if_pos hlt]; exact hi
          · rename_i hlt; rw [if_neg hlt]
            obtain ⟨k, hk⟩ : ∃ k, i - a.length = k + 1 := ⟨i - a.length - 1, by omega⟩
            rw [hk] at hi ⊢; simpa using hi
      · simp only
        cases hcn : s.m.cancelled
        · rw [if_neg (by simp), h5]
          apply List.countP_congr
          intro x _
          split
          · rename_i e; rw [e, hlate]
          · exact Iff.rfl
        · rw [if_pos rfl, h5, countP_upd _ _ hlate n (by rw [← h1, ht]; simp)]
    | ended => exact ⟨h1, h2, h3, h4, h5⟩
    | dies hs hp =>
      rename_i m'
      have : m'.trackers = s.m.trackers ∧ m'.cancelled = s.m.cancelled := by
        constructor <;> (cases hs <;> first | rfl | simp_all)
      exact ⟨by simpa [this.1] using h1, by simpa [this.2] using h2, by simpa [this.2] using h3, by simpa [this.1] using h4, h5⟩
    | other hs hmn hrn hcn hpn hconn =>
      refine ⟨?_, by simpa [hcn] using h2, by simpa [hcn] using h3, fun i ip ips hl hi => h4 i ip ips hl (hconn i ip ips hi), h5⟩
      simp only
      rw [← h1]
      cases hs <;> first | rfl | simp_all

theorem main_keeps_ctx {lim : Limits} {n : Nat} {s : TMgr} {m' : Mgr} (h : TMgr.Reachable lim n s) (hs : Mgr.Step s.m m') (h1 : m'.main ≠ s.m.main)
    (h2 : m'.running = s.m.running) : m'.cancelled = s.m.cancelled := by
  obtain ⟨_, _, f3, _⟩ := main_frame hs h1 h2
  have f6 := (Mgr.mainInv (timed_mgr h).1).cancelled
  exact f3.elim id (fun h => by cases hs <;> simp_all [hasReturned])

/-- How many delays of the scheduler the main goroutine may have used up, counted from the end of the last peer. -/
def mainStage (m : Mgr) : Nat :=
  match m.main with
  | .waitPeers | .waitBlocked => 0
  | .waitWoken => 1
  | .waitCtx => 2
  | .closing => 3
  | .returned => 4
  | .stopLock => 5
  | .stopClose rest => 6 + (inPool m - rest.length)
  | .stopped => 0

theorem main_kinds {m m' : Mgr} (hs : Mgr.Step m m') (hn : m'.main ≠ m.main) (hrun : m'.running = m.running)
    (hpool : ∀ rest, m.main = .stopClose rest → rest.length ≤ inPool m) :
    ¬ IsOver m ∧ (m'.main = .stopped ∨ (m.main = .waitPeers ∧ m'.main = .waitBlocked) ∨
      (m'.main ≠ .waitPeers ∧ m'.main ≠ .waitBlocked ∧ mainStage m + 1 ≤ mainStage m' ∧ ∀ rest, m'.main = .stopClose rest → rest.length ≤ inPool m')) := by
  have key : ∀ l, m.main = l → m.panicked = none → l ≠ .stopped → ¬ IsOver m := by
    rintro l e hp hl (h | h)
    · exact hl (e.symm.trans h)
    · exact h hp
  cases hs with
  | waitNow hp hm => exact ⟨key _ hm hp (by simp), .inr (.inr ⟨by simp, by simp, by simp [mainStage, hm], by simp⟩)⟩
  | waitBlock hp hm => exact ⟨key _ hm hp (by simp), .inr (.inl ⟨hm, rfl⟩)⟩
  | waitReturn hp hm => exact ⟨key _ hm hp (by simp), .inr (.inr ⟨by simp, by simp, by simp [mainStage, hm], by simp⟩)⟩
  | ctxDone hp hm => exact ⟨key _ hm hp (by simp), .inr (.inr ⟨by simp, by simp, by simp [mainStage, hm], by simp⟩)⟩
  | close hp hm => exact ⟨key _ hm hp (by simp), .inr (.inr ⟨by simp, by simp, by simp [mainStage, hm], by simp⟩)⟩
  | stopCancel hp hm => exact ⟨key _ hm hp (by simp), .inr (.inr ⟨by simp, by simp, by simp [mainStage, hm], by simp⟩)⟩
  | stopLock hp hm hq hperm =>
    refine ⟨key _ hm hp (by simp), .inr (.inr ⟨by simp, by simp, by simp only [mainStage, hm]; omega, ?_⟩)⟩
    intro rest he
    simp only [MainLoc.stopClose.injEq] at he
    subst he
    rw [inPool]; simp only [hq]
    exact Nat.le_of_eq hperm.length_eq
  | stopClose hp hm hc =>
    rename_i a rest
    have h := hpool _ hm
    refine ⟨key _ hm hp (by simp), .inr (.inr ⟨by simp, by simp, ?_, ?_⟩)⟩
    · have e : inPool { m with main := .stopClose rest } = inPool m := rfl
      simp only [mainStage, hm, e]
      simp only [List.length_cons] at h ⊢
      omega
    · intro r he
      simp only [MainLoc.stopClose.injEq] at he
      subst he
      have e : inPool { m with main := .stopClose rest } = inPool m := rfl
      rw [e]
      simp only [List.length_cons] at h
      omega
  | stopDone hp hm => exact ⟨key _ hm hp (by simp), .inl rfl⟩
  | peerEnds hp hr => rw [hr] at hrun; have := congrArg List.length hrun; simp at this
  | _ => exact absurd rfl hn

theorem mainDue_eq {lim : Limits} {m : Mgr} {now u : Nat} (h : m.mainDue lim now = some u) : u = now + lim.delay := by
  unfold Mgr.mainDue at h
  split at h
  · cases h
  · cases h
  · split at h
    · exact (Option.some.inj h).symm
    · cases h
  · exact (Option.some.inj h).symm

theorem mainDue_none {lim : Limits} {m : Mgr} {now : Nat} (h : m.mainDue lim now = none) :
    m.main = .waitBlocked ∨ m.main = .stopped ∨ (m.main = .waitCtx ∧ m.cancelled = false) := by
  unfold Mgr.mainDue at h
  split at h
  · rename_i e; exact .inl e
  · rename_i e; exact .inr (.inl e)
  · rename_i e
    split at h
    · cases h
    · rename_i hc; exact .inr (.inr ⟨e, by simpa using hc⟩)
  · cases h

/-- The times. -/
structure TimeInv (lim : Limits) (w : Nat) (s : TMgr) : Prop where
  main : ¬ IsOver s.m → ∀ u, s.mainBy = some u → s.now ≤ u
  runs : ¬ IsOver s.m → ∀ x ∈ s.runs, ∀ u, x.2 = some u → s.now ≤ u
  waits : ¬ IsOver s.m → s.mainBy = none → s.m.main = .waitBlocked ∨ (s.m.main = .waitCtx ∧ s.m.cancelled = false)
  early : s.m.cancelled = false → ∀ u, s.mainBy = some u → u ≤ s.now + lim.delay
  pool : ∀ rest, s.m.main = .stopClose rest → rest.length ≤ inPool s.m
  some_ : s.m.cancelled = true → ∀ x ∈ s.runs, x.2 ≠ none
  peers : ∀ T, s.cancelledAt = some T → s.m.main = .waitPeers ∨ s.m.main = .waitBlocked → ∀ x ∈ s.runs, ∀ u, x.2 = some u →
    u ≤ T + (4000000000 + 2 * w + 10 * lim.delay) + s.lateRuns * lim.delay
  by_ : ¬ IsOver s.m → ∀ T, s.cancelledAt = some T → ∀ u, s.mainBy = some u →
    u ≤ T + (4000000000 + 2 * w + 10 * lim.delay) + (s.lateRuns + mainStage s.m) * lim.delay

/-- While the main goroutine waits for the peers it is not later than the last of them can end. -/
theorem still_waiting {lim : Limits} {w n : Nat} {s : TMgr} (hr : TMgr.Reachable lim n s) (hi : TimeInv lim w s) {T : Nat}
    (hT : s.cancelledAt = some T) (hm : s.m.main = .waitPeers ∨ s.m.main = .waitBlocked) (ho : ¬ IsOver s.m) :
    s.now ≤ T + (4000000000 + 2 * w + 10 * lim.delay) + s.lateRuns * lim.delay := by
  have hc : s.m.cancelled = true := by
    cases e : s.m.cancelled with
    | true => rfl
    | false => rw [(lateInv hr).at_.2 e] at hT; cases hT
  rcases hm with hm | hm
  · cases e : s.mainBy with
    | none => rcases hi.waits ho e with h | ⟨h, _⟩ <;> rw [hm] at h <;> cases h
    | some u =>
      have h1 := hi.main ho u e
      have h2 := hi.by_ ho T hT u e
      simp only [mainStage, hm, Nat.add_zero] at h2
      omega
  · have h1 := (Mgr.mainInv (timed_mgr hr).1).blocked hm
    rw [(Mgr.mainInv (timed_mgr hr).1).wg, ← (timed_mgr hr).2] at h1
    cases e : s.runs with
    | nil => rw [e] at h1; simp at h1
    | cons x xs =>
      have hx : x ∈ s.runs := by rw [e]; simp
      cases e2 : x.2 with
      | none => exact absurd e2 (hi.some_ hc x hx)
      | some u =>
        have := hi.runs ho x hx u e2
        have := hi.peers T hT (.inr hm) x hx u e2
        omega

theorem timeInv {lim : Limits} {w n : Nat} (hw : lim.writer = some w) {s : TMgr} (h : TMgr.Reachable lim n s) : TimeInv lim w s := by
  induction h with
  | start =>
    refine ⟨?_, ?_, ?_, ?_, ?_, ?_, ?_, ?_⟩ <;> simp [TMgr.start, Mgr.start]
  | @step s s' hr st ih =>
    have hm := Mgr.mainInv (timed_mgr hr).1
    have hl := lateInv hr
    have hst := fun {T} => @still_waiting lim w n s hr ih T
    obtain ⟨h1, h2, h3, h4, h5, h6, h7, h8⟩ := ih
    cases st with
    | tick d ht =>
      refine ⟨fun ho u hu => ?_, fun ho x hx u hu => ?_, h3, fun hc u hu => ?_, h5, h6, h7, h8⟩
      · rcases ht with ht | ht
        · exact absurd ht ho
        · exact ht.1 u hu
      · rcases ht with ht | ht
        · exact absurd ht ho
        · exact ht.2 x hx u hu
      · have := h4 hc u hu
        simp only; omega
    | interrupt hp hc =>
      have hB : runLimit lim = some (4000000000 + 2 * w + 10 * lim.delay) := by rw [runLimit, hw]; rfl
      have hz := (hl.none_ hc).1
      refine ⟨fun ho u hu => ?_, fun ho x hx u hu => ?_, fun ho hn => ?_, fun h => by simp at h, h5, fun _ x hx => ?_, ?_, ?_⟩
      · simp only at hu ⊢
        split at hu
        · simp at hu; omega
        · exact h1 ho u hu
      · simp only [List.mem_map] at hx
        obtain ⟨y, _, rfl⟩ := hx
        rw [hB] at hu; simp at hu ⊢; omega
      · simp only at hn ⊢
        split at hn
        · cases hn
        · rename_i hne
          rcases h3 ho hn with h | ⟨h, _⟩
          · exact .inl h
          · exact absurd h hne
      · simp only [List.mem_map] at hx
        obtain ⟨y, _, rfl⟩ := hx
        rw [hB]; simp
      · intro T hT hmn x hx u hu
        simp only [List.mem_map] at hx hT
        obtain ⟨y, _, rfl⟩ := hx
        rw [hB] at hu; simp at hu hT ⊢; omega
      · intro ho T hT u hu
        simp only at hu hT ⊢
        have hT' : s.now = T := by simpa using hT
        have hu' : u ≤ s.now + lim.delay := by
          split at hu
          · simp at hu; omega
          · exact h4 hc u hu
        omega
    | main hs hn hrun hpn =>
      rename_i m'
      have f5 := main_keeps_ctx hr hs hn hrun
      obtain ⟨hov, hk⟩ := main_kinds hs hn hrun h5
      refine ⟨fun ho u hu => ?_, fun ho x hx u hu => h2 hov x hx u hu, fun ho hu => ?_, fun _ u hu => ?_, ?_, fun hc => h6 (by rw [← f5]; exact hc), ?_, ?_⟩
      · rw [mainDue_eq hu]; simp only; omega
      · rcases mainDue_none hu with h | h | h
        · exact .inl h
        · exact absurd (.inl h) ho
        · exact .inr h
      · rw [mainDue_eq hu]; simp only; omega
      · intro rest he
        simp only at he ⊢
        rcases hk with h | h | h
        · rw [h] at he; cases he
        · rw [h.2] at he; cases he
        · exact h.2.2.2 rest he
      · intro T hT hmn x hx u hu
        refine h7 T hT ?_ x hx u hu
        rcases hk with h | h | h
        · simp only [h] at hmn; rcases hmn with h | h <;> cases h
        · exact .inl h.1
        · exact absurd hmn (fun h' => h'.elim h.1 h.2.1)
      · intro ho T hT u hu
        have hu' := mainDue_eq hu
        simp only at hT ⊢
        have hnow : s.now ≤ T + (4000000000 + 2 * w + 10 * lim.delay) + (s.lateRuns + mainStage s.m) * lim.delay := by
          cases e : s.mainBy with
          | some v => exact Nat.le_trans (h1 hov v e) (h8 hov T hT v e)
          | none =>
            rcases h3 hov e with e2 | ⟨e2, e3⟩
            · have := hst hT (.inr e2) hov
              simp only [mainStage, e2, Nat.add_zero]; omega
            · rw [hl.at_.2 e3] at hT; cases hT
        rcases hk with h | h | h
        · exact absurd (.inl h) ho
        · simp only [Mgr.mainDue, h.2] at hu; cases hu
        · have := Nat.mul_le_mul_right lim.delay (show s.lateRuns + mainStage s.m + 1 ≤ s.lateRuns + mainStage m' by omega)
          rw [Nat.add_mul _ 1, Nat.one_mul] at this
          omega
    | tries hp ht hlk hq hnl =>
      have hstg : ∀ m' : Mgr, m'.main = s.m.main → (∀ r, s.m.main ≠ .stopClose r) → mainStage m' = mainStage s.m := by
        intro m' e hne
        unfold mainStage; rw [e]
        cases e2 : s.m.main <;> simp_all
      have hne : ∀ r, s.m.main ≠ .stopClose r := by
        intro r e; simp [Mgr.locked, e] at hlk
      refine ⟨h1, h2, h3, h4, fun r e => absurd e (hne r), h6, h7, fun ho T hT u hu => ?_⟩
      have := h8 ho T hT u hu
      simp only
      rw [hstg]
      · exact this
      · rfl
      · exact hne
    | connected hp ht hc hb =>
      rename_i a b ip ips
      refine ⟨h1, ?_, h3, h4, h5, ?_, ?_, ?_⟩
      · intro ho x hx u hu
        rcases List.mem_cons.1 hx with rfl | hx
        · simp only at hu ⊢
          split at hu
          · simp at hu; omega
          · cases hu
        · exact h2 ho x hx u hu
      · intro hcc x hx
        simp only at hcc
        rcases List.mem_cons.1 hx with rfl | hx
        · simp [hcc]
        · exact h6 hcc x hx
      · intro T hT hmn x hx u hu
        have hcc : s.m.cancelled = true := by
          cases e : s.m.cancelled with
          | true => rfl
          | false => simp only at hT; rw [hl.at_.2 e] at hT; cases hT
        have hov : ¬ IsOver s.m := by
          rintro (h | h)
          · simp only [h] at hmn; rcases hmn with h | h <;> cases h
          · exact h hp
        have := hst hT hmn hov
        simp only [hcc, if_true]
        rw [Nat.add_mul, Nat.one_mul]
        rcases List.mem_cons.1 hx with rfl | hx
        · simp [hcc] at hu; omega
        · have := h7 T hT hmn x hx u hu; omega
      · intro ho T hT u hu
        have hcc : s.m.cancelled = true := by
          cases e : s.m.cancelled with
          | true => rfl
          | false => simp only at hT; rw [hl.at_.2 e] at hT; cases hT
        have := h8 ho T hT u hu
        simp only [hcc, if_true]
        have e : mainStage { s.m with trackers := a ++ .adding ips :: b, wg := s.m.wg + 1, running := ⟨ip, s.m.main.waited⟩ :: s.m.running } = mainStage s.m := rfl
        simp only [hcc] at e
        rw [e]
        have := Nat.mul_le_mul_right lim.delay (show s.lateRuns + mainStage s.m ≤ s.lateRuns + 1 + mainStage s.m by omega)
        omega
    | ended hp hruns =>
      rename_i a p d b
      have hsub : ∀ x, x ∈ a ++ b → x ∈ s.runs := by
        intro x hx; rw [hruns]; simp at hx ⊢; rcases hx with h | h <;> simp [h]
      by_cases hz : s.m.wg - 1 = 0 ∧ s.m.main = .waitBlocked
      · have e1 : wakeIfZero (s.m.wg - 1) s.m.main = .waitWoken := by unfold wakeIfZero; rw [if_pos hz]
        have hov : ¬ IsOver s.m := by
          rintro (h | h)
          · rw [hz.2] at h; cases h
          · exact h hp
        refine ⟨?_, fun _ x hx u hu => h2 hov x (hsub x hx) u hu, ?_, ?_, ?_, fun hc x hx => h6 hc x (hsub x hx), ?_, ?_⟩
        · intro _ u hu; simp only [if_pos hz] at hu; simp at hu ⊢; omega
        · intro _ hn; simp only [if_pos hz] at hn; cases hn
        · intro _ u hu; simp only [if_pos hz] at hu; simp at hu ⊢; omega
        · intro r hr; simp only [e1] at hr; cases hr
        · intro T hT hmn; simp only [e1] at hmn; rcases hmn with h | h <;> cases h
        · intro _ T hT u hu
          have := hst hT (.inr hz.2) hov
          simp only [if_pos hz] at hu
          simp only [mainStage, e1]
          rw [Nat.add_mul, Nat.one_mul]
          simp at hu; omega
      · have e1 : wakeIfZero (s.m.wg - 1) s.m.main = s.m.main := by unfold wakeIfZero; rw [if_neg hz]
        refine ⟨?_, fun ho x hx u hu => h2 (fun h' => ho (by unfold IsOver at h' ⊢; simp only [e1]; exact h')) x (hsub x hx) u hu, ?_, ?_, ?_, fun hc x hx => h6 hc x (hsub x hx), ?_, ?_⟩
        · intro ho u hu; simp only [if_neg hz] at hu; exact h1 (fun h' => ho (by unfold IsOver at h' ⊢; simp only [e1]; exact h')) u hu
        · intro ho hn; simp only [if_neg hz] at hn; simp only [e1]; exact h3 (fun h' => ho (by unfold IsOver at h' ⊢; simp only [e1]; exact h')) hn
        · intro hc u hu; simp only [if_neg hz] at hu; exact h4 hc u hu
        · intro r hr; simp only [e1] at hr; exact h5 r hr
        · intro T hT hmn x hx; simp only [e1] at hmn; exact h7 T hT hmn x (hsub x hx)
        · intro ho T hT u hu
          simp only [if_neg hz] at hu
          have := h8 (fun h' => ho (by unfold IsOver at h' ⊢; simp only [e1]; exact h')) T hT u hu
          simp only [mainStage, e1, inPool] at this ⊢
          exact this
    | dies hs hp =>
      have hov : IsOver _ := .inr hp
      rename_i m'
      have e1 : m'.main = s.m.main := by cases hs <;> first | rfl | simp_all
      have e2 : m'.pool = s.m.pool := by cases hs <;> first | rfl | simp_all
      have e3 : m'.cancelled = s.m.cancelled := by cases hs <;> first | rfl | simp_all
      refine ⟨fun ho => absurd hov ho, fun ho => absurd hov ho, fun ho => absurd hov ho, fun hc => h4 (by rw [← e3]; exact hc), ?_,
        fun hc => h6 (by rw [← e3]; exact hc), ?_, fun ho => absurd hov ho⟩
      · intro r hr; simp only [inPool] at hr ⊢; rw [e2]; exact h5 r (by rw [← e1]; exact hr)
      · intro T hT hmn; exact h7 T hT (by rw [← e1]; exact hmn)
    | other hs hmn hrn hcn hpn hconn =>
      rename_i m'
      have hp : s.m.panicked = none := by cases hs <;> assumption
      have ho' : ¬ IsOver m' → ¬ IsOver s.m := by
        intro h h'; apply h; unfold IsOver at h' ⊢; rw [hmn, hpn, ← hp]; rw [hp]; rw [hp] at h'; exact h'
      have hpool : ∀ r, s.m.main = .stopClose r → m'.pool = s.m.pool := fun r e => other_pool hs hmn ⟨r, e⟩
      have hstg : mainStage m' = mainStage s.m := by
        unfold mainStage; rw [hmn]
        cases e2 : s.m.main with
        | stopClose r => simp only [inPool]; rw [hpool r e2]
        | _ => rfl
      refine ⟨fun ho => h1 (ho' ho), fun ho => h2 (ho' ho), fun ho hn => ?_, fun hc => h4 (by rw [← hcn]; exact hc), ?_,
        fun hc => h6 (by rw [← hcn]; exact hc), fun T hT hm' => h7 T hT (by rw [← hmn]; exact hm'), ?_⟩
      · simp only; rw [hmn, hcn]; exact h3 (ho' ho) hn
      · intro r hr
        simp only at hr ⊢
        rw [hmn] at hr
        simp only [inPool]; rw [hpool r hr]; exact h5 r hr
      · intro ho T hT u hu
        simp only; rw [hstg]; exact h8 (ho' ho) T hT u hu

theorem keeps_at {lim : Limits} {n : Nat} {s s' : TMgr} {T : Nat} (hr : TMgr.Reachable lim n s) (h : s.cancelledAt = some T)
    (hf : Follows lim s s') : TMgr.Reachable lim n s' ∧ s'.cancelledAt = some T := by
  induction hf with
  | refl => exact ⟨hr, h⟩
  | step _ st ih =>
    refine ⟨ih.1.step st, ?_⟩
    cases st with
    | interrupt hp hc => rw [(lateInv ih.1).at_.2 hc] at ih; cases ih.2
    | _ => exact ih.2

/-- The only step that cancels the context is the interrupt. -/
theorem interrupt_at {lim : Limits} {n : Nat} {s si : TMgr} (hr : TMgr.Reachable lim n s) (hc : s.m.cancelled = false)
    (st : TMgr.Step lim s si) (hc' : si.m.cancelled = true) : si.cancelledAt = some s.now := by
  cases st with
  | interrupt => rfl
  | tick => rw [hc] at hc'; cases hc'
  | main hs hn hrun _ => have := main_keeps_ctx hr hs hn hrun; simp only at hc'; rw [this, hc] at hc'; cases hc'
  | tries => simp only at hc'; rw [hc] at hc'; cases hc'
  | connected => simp only at hc'; rw [hc] at hc'; cases hc'
  | ended => simp only at hc'; rw [hc] at hc'; cases hc'
  | dies hs hp =>
    rename_i m'
    have e3 : m'.cancelled = s.m.cancelled := by cases hs <;> first | rfl | simp_all
    simp only at hc'; rw [e3, hc] at hc'; cases hc'
  | other hs _ _ hcn => simp only at hc'; rw [hcn, hc] at hc'; cases hc'

theorem mainStage_le (m : Mgr) : mainStage m ≤ 6 + inPool m := by
  unfold mainStage
  split <;> omega

/-- C149, what holds: if the writer takes every piece within `w`, then after an interrupt the program is over within four seconds, twice `w`, and as
many delays of the scheduler as there are trackers and peers in the pool, and 16 more. However many trackers are being asked and however
many peers are being dialled then does not matter. -/
theorem C149_partial (lim : Limits) (w n : Nat) (hw : lim.writer = some w) :
    EndsWithin lim n fun m => 4000000000 + 2 * w + (16 + n + inPool m) * lim.delay := by
  intro s s' hr hp hc si st hc' hf
  have hT := interrupt_at hr hc st hc'
  obtain ⟨hr', hT'⟩ := keeps_at (hr.step st) hT hf
  by_cases ho : IsOver s'.m
  · exact .inl ho
  right
  have hi := timeInv hw hr'
  have hl := lateInv hr'
  have hlate : s'.lateRuns ≤ n := by
    rw [hl.count]
    exact Nat.le_trans List.countP_le_length (by simp)
  have hb : s'.now ≤ s.now + (4000000000 + 2 * w + 10 * lim.delay) + (s'.lateRuns + mainStage s'.m) * lim.delay := by
    cases e : s'.mainBy with
    | some u => exact Nat.le_trans (hi.main ho u e) (hi.by_ ho _ hT' u e)
    | none =>
      rcases hi.waits ho e with h | ⟨_, h⟩
      · have := still_waiting hr' hi hT' (.inr h) ho
        simp only [mainStage, h, Nat.add_zero]; exact this
      · rw [hl.at_.2 h] at hT'; cases hT'
  have := Nat.mul_le_mul_right lim.delay (show 10 + (s'.lateRuns + mainStage s'.m) ≤ 16 + n + inPool s'.m by have := mainStage_le s'.m; omega)
  rw [Nat.add_mul] at this
  simp only
  omega

/-- When the main goroutine has no time by which it must move. -/
theorem waits_none {lim : Limits} {n : Nat} {s : TMgr} (h : TMgr.Reachable lim n s) :
    s.m.main = .waitBlocked ∨ (s.m.main = .waitCtx ∧ s.m.cancelled = false) → s.mainBy = none := by
  induction h with
  | start => rintro (h | ⟨h, _⟩) <;> cases h
  | @step s s' hr st ih =>
    cases st with
    | tick => exact ih
    | interrupt hp hc =>
      simp only
      rintro (h | ⟨_, h⟩)
      · rw [if_neg (by rw [h]; simp)]; exact ih (.inl h)
      · cases h
    | main hs hn hrun _ =>
      simp only
      rintro (h | ⟨h, h'⟩)
      · simp [Mgr.mainDue, h]
      · simp [Mgr.mainDue, h, h']
    | tries => exact ih
    | connected => exact ih
    | ended hp hr =>
      simp only
      by_cases hz : s.m.wg - 1 = 0 ∧ s.m.main = .waitBlocked
      · have e1 : wakeIfZero (s.m.wg - 1) s.m.main = .waitWoken := by unfold wakeIfZero; rw [if_pos hz]
        rw [e1]; rintro (h | ⟨h, _⟩) <;> cases h
      · have e1 : wakeIfZero (s.m.wg - 1) s.m.main = s.m.main := by unfold wakeIfZero; rw [if_neg hz]
        rw [e1, if_neg hz]; exact ih
    | dies hs hp =>
      rename_i m'
      have e1 : m'.main = s.m.main := by cases hs <;> first | rfl | simp_all
      have e3 : m'.cancelled = s.m.cancelled := by cases hs <;> first | rfl | simp_all
      simp only; rw [e1, e3]; exact ih
    | other hs hmn hrn hcn => simp only; rw [hmn, hcn]; exact ih

/-- The times by which somebody must move can be kept: the main goroutine can make a step whenever it has such a time, unless the program
dies at it, and every `Run` can end. -/
theorem C149_moves_partial (lim : Limits) (n : Nat) (s : TMgr) (h : TMgr.Reachable lim n s) (ho : ¬ IsOver s.m) :
    (∀ u, s.mainBy = some u → ∃ s', TMgr.Step lim s s' ∧ s'.now = s.now ∧ (s'.m.main ≠ s.m.main ∨ s'.m.panicked ≠ none)) ∧
    (∀ x ∈ s.runs, ∃ s', TMgr.Step lim s s' ∧ s'.now = s.now ∧ s'.runs.length + 1 = s.runs.length ∧ s'.m.panicked = none) := by
  have hp : s.m.panicked = none := by
    cases e : s.m.panicked with
    | none => rfl
    | some x => exact absurd (.inr (by rw [e]; simp)) ho
  have hm := Mgr.mainInv (timed_mgr h).1
  constructor
  · intro u hu
    have hw := waits_none h
    have mk : ∀ m', Mgr.Step s.m m' → m'.main ≠ s.m.main → m'.running = s.m.running → m'.panicked = none →
        ∃ s', TMgr.Step lim s s' ∧ s'.now = s.now ∧ (s'.m.main ≠ s.m.main ∨ s'.m.panicked ≠ none) :=
      fun m' a b c d => ⟨_, .main a b c d, rfl, .inl b⟩
    have md : ∀ m', Mgr.Step s.m m' → m'.panicked ≠ none →
        ∃ s', TMgr.Step lim s s' ∧ s'.now = s.now ∧ (s'.m.main ≠ s.m.main ∨ s'.m.panicked ≠ none) :=
      fun m' a b => ⟨_, .dies a b, rfl, .inr b⟩
    cases e : s.m.main with
    | waitPeers =>
      by_cases hz : s.m.wg = 0
      · exact e ▸ mk _ (.waitNow hp e hz) (by simp [e]) rfl hp
      · exact e ▸ mk _ (.waitBlock hp e hz) (by simp [e]) rfl hp
    | waitBlocked => rw [hw (.inl e)] at hu; cases hu
    | waitWoken =>
      by_cases hz : s.m.wg = 0
      · exact e ▸ mk _ (.waitReturn hp e hz) (by simp [e]) rfl hp
      · exact e ▸ md _ (.waitReused hp e hz) (by simp)
    | waitCtx =>
      cases hc : s.m.cancelled with
      | false => rw [hw (.inr ⟨e, hc⟩)] at hu; cases hu
      | true => exact e ▸ mk _ (.ctxDone hp e hc) (by simp [e]) rfl hp
    | closing => exact e ▸ mk _ (.close hp e) (by simp [e]) rfl hp
    | returned => exact e ▸ mk _ (.stopCancel hp e) (by simp [e]) rfl hp
    | stopLock =>
      cases hq : s.m.pool with
      | none => rw [hm.pool.1 hq] at e; cases e
      | some l => exact e ▸ mk _ (.stopLock hp e hq (List.Perm.refl l)) (by simp [e]) rfl hp
    | stopClose rest =>
      cases rest with
      | nil => exact e ▸ mk _ (.stopDone hp e) (by simp [e]) rfl hp
      | cons a rest =>
        cases hc : s.m.conn a with
        | true => exact e ▸ mk _ (.stopClose hp e hc) (by simp [e]) rfl hp
        | false => exact e ▸ md _ (.stopNilConn hp e hc) (by simp)
    | stopped => exact absurd (.inl e) ho
  · intro x hx
    obtain ⟨a, b, hab⟩ := List.append_of_mem hx
    exact ⟨_, .ended (p := x.1) (d := x.2) hp hab, rfl, by simp [hab]; omega, hp⟩

/-- The limit for a `Run` that is started when the context is cancelled already: it returns at its first step. -/
theorem C149_late_partial (lim : Limits) (sha1 : Bytes → Bytes) (t : Torrent) (p : Peer) (l h now : Nat) (s s' : TRun)
    (hs : s = { TRun.start lim p l h now with run := { (TRun.start lim p l h now).run with cancelled := true } })
    (he : TRun.Exec lim sha1 t s s') : s'.run.loc = .returned ∨ (s'.run.loc = .loopTop ∧ s'.now ≤ now + lim.delay) := by
  subst hs
  have key : s'.run.cancelled = true ∧ (s'.run.loc = .returned ∨ (s'.run.loc = .loopTop ∧ s'.until_ = some (now + lim.delay) ∧ s'.now ≤ now + lim.delay)) := by
    induction he with
    | refl => exact ⟨rfl, .inr ⟨rfl, rfl, by simp [TRun.start]⟩⟩
    | @step s1 s2 _ st ih =>
      obtain ⟨hc, ih⟩ := ih
      have run : ∀ r, Run.Step sha1 t s1.run r → r.cancelled = true ∧ r.loc = .returned := by
        intro r hr
        rcases ih with h | ⟨h, _⟩
        · cases hr <;> simp_all
        · cases hr <;> simp_all [Run.goto]
      cases st with
      | tick d hd =>
        refine ⟨hc, ih.imp id (fun h => ⟨h.1, h.2.1, hd _ h.2.1⟩)⟩
      | cancel =>
        refine ⟨rfl, ih.imp id (fun h => ⟨h.1, ?_, h.2.2⟩)⟩
        simp only [h.1]; exact h.2.1
      | env hv hcc =>
        refine ⟨by simp only; rw [hcc]; exact hc, ?_⟩
        cases hv <;> exact ih
      | clock h => rcases ih with h' | ⟨h', _⟩ <;> rw [h'] at h <;> cases h
      | notDue h => rcases ih with h' | ⟨h', _⟩ <;> rw [h'] at h <;> cases h
      | kept h => rcases ih with h' | ⟨h', _⟩ <;> rw [h'] at h <;> cases h
      | keepFail h => rcases ih with h' | ⟨h', _⟩ <;> rw [h'] at h <;> cases h
      | choked h => rcases ih with h' | ⟨h', _⟩ <;> rw [h'] at h <;> cases h
      | sent h => rcases ih with h' | ⟨h', _⟩ <;> rw [h'] at h <;> rcases h with h | h <;> cases h
      | backOff hr => exact ⟨(run _ hr).1, .inl (run _ hr).2⟩
      | idle _ hr => exact ⟨(run _ hr).1, .inl (run _ hr).2⟩
      | pauses _ hr => exact ⟨(run _ hr).1, .inl (run _ hr).2⟩
      | wakes _ _ hr => exact ⟨(run _ hr).1, .inl (run _ hr).2⟩
      | wakesCancelled _ hr => exact ⟨(run _ hr).1, .inl (run _ hr).2⟩
      | other _ _ _ _ _ _ _ hr => exact ⟨(run _ hr).1, .inl (run _ hr).2⟩
  exact key.2.imp id (fun h => ⟨h.1, h.2.2⟩)

/-- A download with one tracker that named the peer `[49]`, which runs; `Download` waits for it. -/
def onePeerRuns (lim : Limits) : TMgr :=
  { TMgr.start lim 1 with
    m := { Mgr.start 1 with
      main := .waitBlocked, trackers := [.adding []], running := [⟨[49], false⟩], wg := 1, pool := some [[49]], peerNum := 1
      conn := fun x => if x = [49] then true else if x = [49] then false else false, adds := [([49], true)] }
    mainBy := none
    runs := [(⟨[49], false⟩, none)]
    barred := fun j => if j = 0 then false else false
    late := fun j => if j = 0 then false else false }

theorem reach_onePeerRuns (lim : Limits) : TMgr.Reachable lim 1 (onePeerRuns lim) := by
  have h0 : TMgr.Reachable lim 1 (.start lim 1) := .start
  have h1 := h0.step (.other (.trackerNew (a := []) (b := []) rfl rfl) rfl rfl rfl rfl (by
    intro i ip ips h; cases i <;> simp at h))
  have h2 := h1.step (.other (.announced (a := []) (b := []) [[49]] rfl rfl) rfl rfl rfl rfl (by
    intro i ip ips h; cases i <;> simp at h))
  have h3 := h2.step (.tries (a := []) (b := []) (ip := [49]) (ips := []) (l := []) rfl rfl rfl rfl (by simp))
  have h4 := h3.step (.other (.dial (a := []) (b := []) (ip := [49]) (ips := []) true rfl rfl) rfl rfl rfl rfl (fun _ _ _ h => h))
  have h5 := h4.step (.connected (a := []) (b := []) (ip := [49]) (ips := []) rfl rfl rfl rfl)
  exact h5.step (.main (.waitBlock rfl rfl (by simp [Mgr.start, TMgr.start])) (by simp [Mgr.start, TMgr.start]) rfl rfl)

/-- C149 is violated: nothing bounds the time a `Run` waits for the writer, and `Download` waits for it, interrupt or not. -/
theorem C149_violated (delay g : Nat) : ¬ EndsWithin ⟨delay, none⟩ 1 fun _ => g := by
  intro h
  have := h (onePeerRuns _) _ (reach_onePeerRuns _) rfl rfl _ (.interrupt rfl rfl) rfl (.step .refl (.tick (g + 1) (.inr ⟨?_, ?_⟩)))
  · rcases this with (h | h) | h
    · cases h
    · exact h rfl
    · simp only [onePeerRuns, TMgr.start] at h; omega
  · intro u hu; simp [onePeerRuns] at hu
  · intro x hx u hu; simp [onePeerRuns, runLimit] at hx; rw [hx] at hu; cases hu

/-- The case of `C149_partial`: the interrupt comes, the peer's `Run` ends three seconds later, and the program is over then. -/
example : ∃ s, Follows ⟨1000, some 0⟩ (onePeerRuns ⟨1000, some 0⟩) s ∧ s.m.cancelled = true ∧ s.m.main = .stopped ∧ s.m.panicked = none ∧
    s.now = 3000000000 := by
  have h1 : Follows ⟨1000, some 0⟩ (onePeerRuns ⟨1000, some 0⟩) _ := .step .refl (.interrupt rfl rfl)
  have h2 := h1.step (.tick 3000000000 (.inr ⟨by intro u hu; simp [onePeerRuns] at hu, by
    intro x hx u hu; simp [onePeerRuns, runLimit] at hx; rw [hx] at hu; simp [onePeerRuns, TMgr.start] at hu ⊢; omega⟩))
  have h3 := h2.step (.ended (a := []) (b := []) (p := ⟨[49], false⟩) (d := some (0 + 4000010000)) rfl rfl)
  have h4 := h3.step (.main (.waitReturn rfl rfl rfl) (by simp [wakeIfZero, onePeerRuns]) rfl rfl)
  have h5 := h4.step (.main (.ctxDone rfl rfl rfl) (by simp) rfl rfl)
  have h6 := h5.step (.main (.close rfl rfl) (by simp) rfl rfl)
  have h7 := h6.step (.main (.stopCancel rfl rfl) (by simp) rfl rfl)
  have h8 := h7.step (.main (.stopLock (l := [[49]]) (l' := [[49]]) rfl rfl rfl (List.Perm.refl _)) (by simp) rfl rfl)
  have h9 := h8.step (.main (.stopClose (a := [49]) (rest := []) rfl rfl rfl) (by simp) rfl rfl)
  exact ⟨_, h9.step (.main (.stopDone rfl rfl) (by simp) rfl rfl), rfl, rfl, rfl, rfl⟩

end Gotit.Props
