import Verif.Spec.Manager
/-
  Invariants of the manager's state machine.
-/
namespace Gotit
open Spec

/-- The channel between the peers and the writer. -/
structure Mgr.ChanInv (σ : Mgr) : Prop where
  order : σ.accepted = σ.written ++ σ.inHand.toList ++ σ.buffer
  room : σ.buffer.length ≤ pieceChCap
  ended : σ.writerDone = true → σ.closed = true ∧ σ.buffer = [] ∧ σ.inHand = none

theorem Mgr.chanInv_step {σ σ' : Mgr} (hi : σ.ChanInv) (st : Mgr.Step σ σ') : σ'.ChanInv := by
  obtain ⟨h1, h2, h3⟩ := hi
  cases st with
  | deliver m hp hr hc hb =>
    refine ⟨by simp [h1], by simp; omega, fun hw => ?_⟩
    have := (h3 hw).1; rw [hc] at this; exact absurd this (by decide)
  | receive hp hi hw hb =>
    refine ⟨by simp [h1, hi, hb], by rw [hb] at h2; simp at h2 ⊢; omega, fun hw' => ?_⟩
    rw [hw] at hw'; exact absurd hw' (by decide)
  | write hp hi =>
    refine ⟨by simp [h1, hi], h2, fun hw => ?_⟩
    have := (h3 hw).2.2; rw [hi] at this; exact absurd this (by simp)
  | writerEnds hp hi hw hb hc => exact ⟨h1, h2, fun _ => ⟨hc, hb, hi⟩⟩
  | close hp hm => exact ⟨h1, h2, fun hw => ⟨rfl, (h3 hw).2⟩⟩
  | _ => exact ⟨h1, h2, h3⟩

theorem Mgr.chanInv {n limit : Nat} {σ : Mgr} (h : Mgr.Reachable n limit σ) : σ.ChanInv := by
  induction h with
  | start => exact ⟨rfl, by simp [Mgr.start], by simp [Mgr.start]⟩
  | step _ st ih => exact Mgr.chanInv_step ih st

/-- The wait group, the main goroutine, the context and the closing of the channel. -/
structure Mgr.MainInv (σ : Mgr) : Prop where
  wg : σ.wg = σ.running.length
  blocked : σ.main = .waitBlocked → σ.wg ≠ 0
  late : σ.main.waited = true → ∀ p ∈ σ.running, p.late = true
  closed : σ.closed = true ↔ hasReturned σ.main
  cancelled : hasReturned σ.main ∨ σ.main = .closing → σ.cancelled = true
  pool : σ.pool = none ↔ σ.main = .stopped

theorem wakeIfZero_waited (k : Nat) (m : MainLoc) : (wakeIfZero k m).waited = m.waited := by
  unfold wakeIfZero; split
  · rename_i h; rw [h.2]; rfl
  · rfl

theorem wakeIfZero_other (k : Nat) (m : MainLoc) (h : m ≠ .waitBlocked) : wakeIfZero k m = m := by
  unfold wakeIfZero; simp [h]

theorem wakeIfZero_returned (k : Nat) (m : MainLoc) : hasReturned (wakeIfZero k m) ↔ hasReturned m := by
  unfold wakeIfZero; split
  · rename_i h; rw [h.2]; simp [hasReturned]
  · exact Iff.rfl

theorem wakeIfZero_eq {k : Nat} {m m' : MainLoc} (h : m' ≠ .waitBlocked) (h2 : m' ≠ .waitWoken) : wakeIfZero k m = m' ↔ m = m' := by
  unfold wakeIfZero; split
  · rename_i h3; rw [h3.2]; exact ⟨fun e => absurd e.symm h2, fun e => absurd e.symm h⟩
  · exact Iff.rfl

theorem Mgr.mainInv_step {σ σ' : Mgr} (hi : σ.MainInv) (st : Mgr.Step σ σ') : σ'.MainInv := by
  obtain ⟨h1, h2, h3, h4, h5, h6⟩ := hi
  cases st with
  | signal => exact ⟨h1, h2, h3, h4, fun _ => rfl, h6⟩
  | waitNow hp hm hw =>
    have hr : σ.running = [] := by rw [hw] at h1; exact List.eq_nil_of_length_eq_zero h1.symm
    rw [hm] at h4 h6
    exact ⟨h1, by simp, by simp [hr], by simpa [hasReturned] using h4, by simp [hasReturned], by simpa using h6⟩
  | waitBlock hp hm hw =>
    rw [hm] at h3 h4 h6
    exact ⟨h1, fun _ => hw, by simp [MainLoc.waited], by simpa [hasReturned] using h4, by simp [hasReturned], by simpa using h6⟩
  | waitReturn hp hm hw =>
    have hr : σ.running = [] := by rw [hw] at h1; exact List.eq_nil_of_length_eq_zero h1.symm
    rw [hm] at h4 h6
    exact ⟨h1, by simp, by simp [hr], by simpa [hasReturned] using h4, by simp [hasReturned], by simpa using h6⟩
  | ctxDone hp hm hc =>
    rw [hm] at h3 h4 h6
    exact ⟨h1, by simp, fun _ => h3 rfl, by simpa [hasReturned] using h4, fun _ => hc, by simpa using h6⟩
  | close hp hm =>
    rw [hm] at h3 h4 h5 h6
    exact ⟨h1, by simp, fun _ => h3 rfl, by simp [hasReturned], fun _ => h5 (.inr rfl), by simpa using h6⟩
  | stopCancel hp hm =>
    rw [hm] at h3 h4 h6
    exact ⟨h1, by simp, fun _ => h3 rfl, by simpa [hasReturned] using h4, fun _ => rfl, by simpa using h6⟩
  | stopLock hp hm hl =>
    rw [hm] at h3 h4 h5 h6
    exact ⟨h1, by simp, fun _ => h3 rfl, by simpa [hasReturned] using h4, fun _ => h5 (.inl trivial), by simpa using h6⟩
  | stopClose hp hm hl =>
    rw [hm] at h3 h4 h5 h6
    exact ⟨h1, by simp, fun _ => h3 rfl, by simpa [hasReturned] using h4, fun _ => h5 (.inl trivial), by simpa using h6⟩
  | stopDone hp hm =>
    rw [hm] at h3 h4 h5 h6
    exact ⟨h1, by simp, fun _ => h3 rfl, by simpa [hasReturned] using h4, fun _ => h5 (.inl trivial), by simp⟩
  | addNew hp ht hl hpool hip => exact ⟨h1, h2, h3, h4, h5, by rw [hpool] at h6; simpa using h6⟩
  | connected hp ht hc =>
    refine ⟨by simp [h1], fun _ => by simp, fun hw p hpm => ?_, h4, h5, h6⟩
    rcases List.mem_cons.1 hpm with rfl | hpm
    · exact hw
    · exact h3 hw p hpm
  | @peerEnds a p b hp hr =>
    have hlen : σ.wg = a.length + b.length + 1 := by rw [h1, hr]; simp; omega
    refine ⟨by simp; omega, ?_, ?_, ?_, ?_, ?_⟩
    · intro hw
      simp only at hw
      unfold wakeIfZero at hw
      split at hw
      · exact absurd hw (by simp)
      · rename_i hn
        simp only
        intro hz
        exact hn ⟨hz, hw⟩
    · intro hw q hq
      simp only [wakeIfZero_waited] at hw
      exact h3 hw q (by rw [hr]; simp at hq ⊢; rcases hq with h | h <;> simp [h])
    · rw [h4]; simp only [wakeIfZero_returned]
    · intro h
      simp only [wakeIfZero_returned] at h
      rw [wakeIfZero_eq (by simp) (by simp)] at h
      exact h5 h
    · simp only
      rw [wakeIfZero_eq (by simp) (by simp)]
      exact h6
  | _ => exact ⟨h1, h2, h3, h4, h5, h6⟩

theorem Mgr.mainInv {n limit : Nat} {σ : Mgr} (h : Mgr.Reachable n limit σ) : σ.MainInv := by
  induction h with
  | start => refine ⟨rfl, ?_, ?_, ?_, ?_, ?_⟩ <;> simp [Mgr.start, hasReturned, MainLoc.waited]
  | step _ st ih => exact Mgr.mainInv_step ih st

/-- The pool and the peers. -/
structure Mgr.PoolInv (σ : Mgr) : Prop where
  first : ∀ h1 a b h2, σ.adds = h1 ++ (a, b) :: h2 → (b = true ↔ a ∉ h1.map Prod.fst)
  known : ∀ l, σ.pool = some l → ∀ a, (a ∈ l ↔ a ∈ σ.adds.map Prod.fst) ∧ (a ∈ l ↔ a ∈ wasAdded σ.adds)
  nodup : ∀ l, σ.pool = some l → l.Nodup ∧ l.length = (wasAdded σ.adds).length
  once : ∀ a, (wasAdded σ.adds).count a ≤ 1
  parts : ∀ a, (handshaking σ.trackers).count a + (σ.running.map PeerRef.addr).count a + σ.failed.count a
    ≤ (wasAdded σ.adds).count a
  num : σ.peerNum = (wasAdded σ.adds).length - σ.failed.length
  conn : ∀ a, a ∈ wasAdded σ.adds → a ∉ handshaking σ.trackers → a ∉ σ.failed → σ.conn a = true

theorem wasAdded_append (l l' : List (Bytes × Bool)) : wasAdded (l ++ l') = wasAdded l ++ wasAdded l' := by
  simp [wasAdded]

theorem handshaking_append (l l' : List TrackerLoc) : handshaking (l ++ l') = handshaking l ++ handshaking l' := by
  simp [handshaking]

theorem first_snoc {adds : List (Bytes × Bool)} {x : Bytes} {c : Bool}
    (h : ∀ h1 a b h2, adds = h1 ++ (a, b) :: h2 → (b = true ↔ a ∉ h1.map Prod.fst)) (hx : c = true ↔ x ∉ adds.map Prod.fst) :
    ∀ h1 a b h2, adds ++ [(x, c)] = h1 ++ (a, b) :: h2 → (b = true ↔ a ∉ h1.map Prod.fst) := by
  intro h1 a b h2 he
  rcases List.eq_nil_or_concat h2 with rfl | ⟨t, y, rfl⟩
  · have := List.append_inj' he rfl
    obtain ⟨rfl, h⟩ := this
    simp only [List.cons.injEq, Prod.mk.injEq, and_true] at h
    obtain ⟨rfl, rfl⟩ := h
    exact hx
  · rw [List.concat_eq_append, show h1 ++ (a, b) :: (t ++ [y]) = (h1 ++ (a, b) :: t) ++ [y] by simp] at he
    have := List.append_inj' he rfl
    exact h h1 a b t this.1

/-- Replacing one tracker goroutine's place by another without handshake, when there was none before, changes nothing. -/
theorem handshaking_same {a b : List TrackerLoc} {x y : TrackerLoc} (hx : handshaking [x] = handshaking [y]) :
    handshaking (a ++ x :: b) = handshaking (a ++ y :: b) := by
  rw [show a ++ x :: b = a ++ ([x] ++ b) by simp, show a ++ y :: b = a ++ ([y] ++ b) by simp]
  simp only [handshaking_append, hx]

theorem Mgr.PoolInv.trackers {σ : Mgr} {ts : List TrackerLoc} (hi : σ.PoolInv) (h : handshaking ts = handshaking σ.trackers) :
    ({ σ with trackers := ts } : Mgr).PoolInv := by
  obtain ⟨h1, h2, h3, h4, h5, h6, h7⟩ := hi
  exact ⟨h1, h2, h3, h4, by simpa [h] using h5, h6, by simpa [h] using h7⟩

theorem Mgr.poolInv_step {σ σ' : Mgr} (hi : σ.PoolInv) (st : Mgr.Step σ σ') : σ'.PoolInv := by
  have hi' := hi
  obtain ⟨h1, h2, h3, h4, h5, h6, h7⟩ := hi
  cases st with
  | stopDone hp hm => exact ⟨h1, by simp, by simp, h4, h5, h6, h7⟩
  | trackerBad hp ht => exact hi'.trackers (by rw [ht]; exact handshaking_same rfl)
  | trackerNew hp ht => exact hi'.trackers (by rw [ht]; exact handshaking_same rfl)
  | announced ips hp ht => exact hi'.trackers (by rw [ht]; exact handshaking_same rfl)
  | announceFailed hp ht => exact hi'.trackers (by rw [ht]; exact handshaking_same rfl)
  | announceCanceled hp ht => exact hi'.trackers (by rw [ht]; exact handshaking_same rfl)
  | addedAll hp ht => exact hi'.trackers (by rw [ht]; exact handshaking_same rfl)
  | intervalOver hp ht => exact hi'.trackers (by rw [ht]; exact handshaking_same rfl)
  | intervalCanceled hp ht => exact hi'.trackers (by rw [ht]; exact handshaking_same rfl)
  | @addKnown a b ip ips l hp ht hl hpool hip =>
    have hh := hi'.trackers (ts := a ++ .adding ips :: b) (by rw [ht]; exact handshaking_same rfl)
    have hw : wasAdded (σ.adds ++ [(ip, false)]) = wasAdded σ.adds := by simp [wasAdded_append, wasAdded]
    have hk := (h2 l hpool ip).1.1 hip
    refine ⟨first_snoc h1 ⟨fun h => Bool.noConfusion h, fun h => absurd hk h⟩, ?_, ?_, ?_, ?_, ?_, ?_⟩
    · intro l' hl' x
      simp only at hl'
      rw [hpool] at hl'
      obtain rfl := Option.some.inj hl'
      simp only [hw]
      refine ⟨?_, (h2 l hpool x).2⟩
      rw [(h2 l hpool x).1]
      simp only [List.map_append, List.map_cons, List.map_nil, List.mem_append, List.mem_singleton]
      constructor
      · exact .inl
      · rintro (h | rfl)
        · exact h
        · exact hk
    · intro l' hl'; simp only [hw]; exact h3 l' hl'
    · simp only [hw]; exact h4
    · simp only [hw]; exact hh.parts
    · simp only [hw]; exact h6
    · simp only [hw]; exact hh.conn
  | @addNew a b ip ips l hp ht hl hpool hip =>
    have hw : wasAdded (σ.adds ++ [(ip, true)]) = wasAdded σ.adds ++ [ip] := by simp [wasAdded_append, wasAdded]
    have hk : ip ∉ σ.adds.map Prod.fst := fun h => hip ((h2 l hpool ip).1.2 h)
    have hk2 : ip ∉ wasAdded σ.adds := fun h => hip ((h2 l hpool ip).2.2 h)
    have hhs : handshaking σ.trackers = handshaking (a ++ b) := by
      rw [ht]; simp [handshaking]
    have hhs2 : ∀ x, (handshaking (a ++ .connecting ip ips :: b)).count x = (handshaking (a ++ b)).count x + [ip].count x := by
      intro x; rw [show a ++ TrackerLoc.connecting ip ips :: b = a ++ ([.connecting ip ips] ++ b) by simp]
      simp only [handshaking_append, List.count_append]
      have : handshaking [.connecting ip ips] = [ip] := rfl
      rw [this]; omega
    refine ⟨first_snoc h1 (by simpa using hk), ?_, ?_, ?_, ?_, ?_, ?_⟩
    · intro l' hl' x
      simp only [Option.some.injEq] at hl'
      subst hl'
      have := h2 l hpool x
      simp only [hw]
      simp only [List.mem_cons, List.map_append, List.map_cons, List.map_nil, List.mem_append, List.not_mem_nil, or_false]
      rw [this.1]
      refine ⟨by constructor <;> exact Or.symm, ?_⟩
      rw [← this.1, this.2]
      constructor <;> exact Or.symm
    · intro l' hl'
      simp only [Option.some.injEq] at hl'
      subst hl'
      have := h3 l hpool
      simp only [hw]
      exact ⟨List.nodup_cons.2 ⟨hip, this.1⟩, by simp [this.2]⟩
    · intro x
      simp only [hw, List.count_append]
      by_cases hx : ip = x
      · subst hx
        have := List.count_eq_zero.2 hk2
        simp [this]
      · have := h4 x
        simp [List.count_cons, hx, this]
    · intro x
      have := h5 x
      simp only [hw, List.count_append, hhs2]
      rw [hhs] at this
      omega
    · simp only [hw, List.length_append, List.length_singleton]; omega
    · intro x hx1 hx2 hx3
      simp only [hw] at hx1
      have hne : x ≠ ip := by
        intro e
        apply hx2
        rw [← List.count_pos_iff, hhs2, e]; simp
      have hx4 : x ∉ handshaking σ.trackers := by
        intro hh
        apply hx2
        rw [← List.count_pos_iff, hhs2]
        rw [hhs, ← List.count_pos_iff] at hh
        omega
      simp only [if_neg hne]
      refine h7 x ?_ hx4 hx3
      simpa [hne] using hx1
  | @dial a b ip ips ok hp ht =>
    refine ⟨h1, h2, h3, h4, h5, h6, ?_⟩
    intro x hx1 hx2 hx3
    have hne : x ≠ ip := by
      intro e
      apply hx2
      simp only [ht]
      rw [show a ++ TrackerLoc.connecting ip ips :: b = a ++ ([.connecting ip ips] ++ b) by simp]
      simp only [handshaking_append, List.mem_append]
      right; left; rw [e]; simp [handshaking]
    simp only [if_neg hne]
    exact h7 x hx1 hx2 hx3
  | @connectFailed a b ip ips hp ht =>
    have hhs : ∀ x, (handshaking σ.trackers).count x = (handshaking (a ++ .adding ips :: b)).count x + [ip].count x := by
      intro x; rw [ht, show a ++ TrackerLoc.connecting ip ips :: b = a ++ ([.connecting ip ips] ++ b) by simp,
        show a ++ TrackerLoc.adding ips :: b = a ++ ([.adding ips] ++ b) by simp]
      simp only [handshaking_append, List.count_append]
      have : handshaking [.connecting ip ips] = [ip] := rfl
      have h' : handshaking [.adding ips] = [] := rfl
      rw [this, h']; simp only [List.count_nil]; omega
    refine ⟨h1, h2, h3, h4, ?_, ?_, ?_⟩
    · intro x
      have := h5 x
      have := hhs x
      simp only [List.count_append]
      omega
    · simp only [List.length_append, List.length_singleton]; omega
    · intro x hx1 hx2 hx3
      simp only [List.mem_append, List.mem_singleton, not_or] at hx3
      refine h7 x hx1 ?_ hx3.1
      intro hh
      rw [← List.count_pos_iff, hhs] at hh
      have : (handshaking (a ++ .adding ips :: b)).count x = 0 := List.count_eq_zero.2 hx2
      have h0 : [ip].count x = 0 := List.count_eq_zero.2 (by simp [hx3.2])
      omega
  | @connected a b ip ips hp ht hc =>
    have hhs : ∀ x, (handshaking σ.trackers).count x = (handshaking (a ++ .adding ips :: b)).count x + [ip].count x := by
      intro x; rw [ht, show a ++ TrackerLoc.connecting ip ips :: b = a ++ ([.connecting ip ips] ++ b) by simp,
        show a ++ TrackerLoc.adding ips :: b = a ++ ([.adding ips] ++ b) by simp]
      simp only [handshaking_append, List.count_append]
      have : handshaking [.connecting ip ips] = [ip] := rfl
      have h' : handshaking [.adding ips] = [] := rfl
      rw [this, h']; simp only [List.count_nil]; omega
    refine ⟨h1, h2, h3, h4, ?_, h6, ?_⟩
    · intro x
      have := h5 x
      have := hhs x
      simp only [List.map_cons, List.count_cons]
      simp only [List.count_singleton] at this
      omega
    · intro x hx1 hx2 hx3
      by_cases hx : x = ip
      · rw [hx]; exact hc
      · refine h7 x hx1 ?_ hx3
        intro hh
        rw [← List.count_pos_iff, hhs] at hh
        have : (handshaking (a ++ .adding ips :: b)).count x = 0 := List.count_eq_zero.2 hx2
        have h0 : [ip].count x = 0 := List.count_eq_zero.2 (by simp [hx])
        omega
  | @peerEnds a p b hp hr =>
    refine ⟨h1, h2, h3, h4, ?_, h6, h7⟩
    intro x
    have := h5 x
    rw [hr] at this
    simp only [List.map_append, List.map_cons, List.count_append, List.count_cons] at this ⊢
    omega
  | _ => exact ⟨h1, h2, h3, h4, h5, h6, h7⟩

theorem handshaking_start (n : Nat) : handshaking (List.replicate n TrackerLoc.start) = [] := by
  simp [handshaking]

theorem Mgr.poolInv {n limit : Nat} {σ : Mgr} (h : Mgr.Reachable n limit σ) : σ.PoolInv := by
  induction h with
  | start =>
    refine ⟨?_, ?_, ?_, ?_, ?_, ?_, ?_⟩ <;> simp [Mgr.start, wasAdded, handshaking_start]
  | step _ st ih => exact Mgr.poolInv_step ih st

/-- What `Stop` still has to close was added. -/
theorem Mgr.stopRest {n limit : Nat} {σ : Mgr} (h : Mgr.Reachable n limit σ) {rest : List Bytes} (hm : σ.main = .stopClose rest) :
    ∀ a ∈ rest, a ∈ wasAdded σ.adds := by
  induction h generalizing rest with
  | start => exact absurd hm (by simp [Mgr.start])
  | @step σ σ' hr st ih =>
    have hpi := Mgr.poolInv hr
    cases st with
    | @stopLock l l' hp hmm hpool hperm =>
      simp only [MainLoc.stopClose.injEq] at hm
      subst hm
      intro a ha
      exact (hpi.known l hpool a).2.1 (hperm.mem_iff.1 ha)
    | @stopClose a rest' hp hmm hc =>
      simp only [MainLoc.stopClose.injEq] at hm
      subst hm
      intro x hx
      exact ih hmm x (List.mem_cons_of_mem _ hx)
    | addKnown => intro a ha; rw [wasAdded_append]; exact List.mem_append_left _ (ih hm a ha)
    | addNew => intro a ha; rw [wasAdded_append]; exact List.mem_append_left _ (ih hm a ha)
    | peerEnds =>
      simp only at hm
      rw [wakeIfZero_eq (by simp) (by simp)] at hm
      exact ih hm
    | waitNow => exact absurd hm (by simp)
    | waitBlock => exact absurd hm (by simp)
    | waitReturn => exact absurd hm (by simp)
    | ctxDone => exact absurd hm (by simp)
    | close => exact absurd hm (by simp)
    | stopCancel => exact absurd hm (by simp)
    | stopDone => exact absurd hm (by simp)
    | _ => exact ih hm

end Gotit
