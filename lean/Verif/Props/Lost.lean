import Verif.Spec.Lost
import Verif.Props.ManagerRun
/-
  C98, C99: peers that are not connected any more.
-/
namespace Gotit.Props
open Gotit Spec

theorem gone_step {σ σ' : Mgr} (hi : σ.PoolInv) (a : Bytes) (hg : Gone a σ) (st : Mgr.Step σ σ') : Gone a σ' := by
  obtain ⟨h1, h2, h3⟩ := hg
  have same : ∀ x y (l r : List TrackerLoc), σ.trackers = l ++ x :: r → handshaking [x] = handshaking [y] →
      a ∉ handshaking (l ++ y :: r) := by
    intro x y l r e he
    have : handshaking (l ++ y :: r) = handshaking σ.trackers := by rw [e]; exact (handshaking_same he).symm ▸ rfl
    rw [this]; exact h2
  cases st with
  | trackerBad hp ht => exact ⟨h1, same _ _ _ _ ht rfl, h3⟩
  | trackerNew hp ht => exact ⟨h1, same _ _ _ _ ht rfl, h3⟩
  | announced ips hp ht => exact ⟨h1, same _ _ _ _ ht rfl, h3⟩
  | announceFailed hp ht => exact ⟨h1, same _ _ _ _ ht rfl, h3⟩
  | announceCanceled hp ht => exact ⟨h1, same _ _ _ _ ht rfl, h3⟩
  | addedAll hp ht => exact ⟨h1, same _ _ _ _ ht rfl, h3⟩
  | intervalOver hp ht => exact ⟨h1, same _ _ _ _ ht rfl, h3⟩
  | intervalCanceled hp ht => exact ⟨h1, same _ _ _ _ ht rfl, h3⟩
  | addKnown hp ht hl hpool hip =>
    exact ⟨by rw [wasAdded_append]; exact List.mem_append_left _ h1, same _ _ _ _ ht rfl, h3⟩
  | @addNew l r ip ips pool hp ht hl hpool hip =>
    have hne : a ≠ ip := fun e => hip (e ▸ (hi.known pool hpool a).2.2 h1)
    refine ⟨by rw [wasAdded_append]; exact List.mem_append_left _ h1, ?_, h3⟩
    rw [ht] at h2
    simp only [handshaking, List.filterMap_append, List.filterMap_cons, List.mem_append, List.mem_cons, not_or] at h2 ⊢
    exact ⟨h2.1, hne, h2.2⟩
  | @connectFailed l r ip ips hp ht =>
    refine ⟨h1, ?_, h3⟩
    rw [ht] at h2
    simp only [handshaking, List.filterMap_append, List.filterMap_cons, List.mem_append, List.mem_cons, not_or] at h2 ⊢
    exact ⟨h2.1, h2.2.2⟩
  | @connected l r ip ips hp ht hc =>
    rw [ht] at h2
    simp only [handshaking, List.filterMap_append, List.filterMap_cons, List.mem_append, List.mem_cons, not_or] at h2
    refine ⟨h1, ?_, ?_⟩
    · simp only [handshaking, List.filterMap_append, List.filterMap_cons, List.mem_append, not_or]
      exact ⟨h2.1, h2.2.2⟩
    · simp only [List.map_cons, List.mem_cons, not_or]
      exact ⟨h2.2.1, h3⟩
  | @peerEnds l p r hp hr =>
    refine ⟨h1, h2, ?_⟩
    rw [hr] at h3
    simp only [List.map_append, List.map_cons, List.mem_append, List.mem_cons, not_or] at h3 ⊢
    exact ⟨h3.1, h3.2.2⟩
  | _ => exact ⟨h1, h2, h3⟩

/-- Once the connection to an address could not be made or has ended, there never is one again, nor an attempt. -/
theorem C98_gone_partial {n limit : Nat} {σ σ' : Mgr} (h : Mgr.Reachable n limit σ) (a : Bytes) (hg : Gone a σ) (hl : Later σ σ') :
    Gone a σ' := by
  have key : Mgr.Reachable n limit σ' ∧ Gone a σ' := by
    induction hl with
    | here => exact ⟨h, hg⟩
    | step _ st ih => exact ⟨.step ih.1 st, gone_step (Mgr.poolInv ih.1) a ih.2 st⟩
  exact key.2

/-- C98 holds of addresses that were never tried: such an address, when a tracker names it, is tried at once. -/
theorem C98_new_partial {n limit : Nat} {σ : Mgr} (h : Mgr.Reachable n limit σ) (hp : σ.panicked = none) (hc : σ.cancelled = false)
    (a : Bytes) (hn : a ∉ σ.adds.map Prod.fst) (ha : NamedAgain a σ) :
    ∃ σ', Mgr.Step σ σ' ∧ a ∈ handshaking σ'.trackers := by
  obtain ⟨ips, hm⟩ := ha
  obtain ⟨l, r, hs⟩ := List.append_of_mem hm
  have hi := Mgr.poolInv h
  have hmi := Mgr.mainInv h
  cases hpool : σ.pool with
  | none =>
    have := hmi.cancelled (.inl (by rw [hmi.pool.1 hpool]; trivial))
    rw [hc] at this; cases this
  | some pool =>
    have hlock : σ.locked = false := by
      unfold Mgr.locked
      split
      · rename_i e
        have := hmi.cancelled (.inl (by rw [e]; trivial))
        rw [hc] at this; cases this
      · rfl
    refine ⟨_, .addNew hp hs hlock hpool (fun hm => hn ((hi.known pool hpool a).1.1 hm)), ?_⟩
    simp [handshaking]

/-- C98 is false of the code, both for a peer to which no connection could be made and for one whose connection has ended. -/
theorem C98_violated : (∀ a, ∃ σ, Mgr.Reachable 1 30 σ ∧ σ.panicked = none ∧ σ.cancelled = false ∧ a ∈ σ.failed ∧ Gone a σ ∧ NamedAgain a σ) ∧
    (∀ a, ∃ σ, Mgr.Reachable 1 30 σ ∧ σ.panicked = none ∧ σ.cancelled = false ∧ a ∈ departed σ ∧ Gone a σ ∧ NamedAgain a σ) ∧
    ¬ TriedAgain := by
  have k1 : ∀ a, ∃ σ, Mgr.Reachable 1 30 σ ∧ σ.panicked = none ∧ σ.cancelled = false ∧ a ∈ σ.failed ∧ Gone a σ ∧ NamedAgain a σ := by
    intro a
    have r0 := reach_announced 0 30 [a]
    have r1 := Mgr.Reachable.step r0 (.addNew (a := []) (b := []) (ip := a) (ips := []) (l := []) rfl rfl rfl rfl (by simp))
    have r2 := Mgr.Reachable.step r1 (.dial (a := []) (b := []) (ip := a) (ips := []) false rfl rfl)
    have r3 := Mgr.Reachable.step r2 (.connectFailed (a := []) (b := []) (ip := a) (ips := []) rfl rfl)
    have r4 := Mgr.Reachable.step r3 (.addedAll (a := []) (b := []) rfl rfl)
    have r5 := Mgr.Reachable.step r4 (.intervalOver (a := []) (b := []) rfl rfl)
    have r6 := Mgr.Reachable.step r5 (.announced (a := []) (b := []) [a] rfl rfl)
    exact ⟨_, r6, rfl, rfl, by simp, ⟨by simp [wasAdded], by simp [handshaking], by simp [announcedState, Mgr.start]⟩, [], by simp⟩
  refine ⟨k1, ?_, ?_⟩
  · intro a
    have r0 := reach_announced 0 30 [a]
    have r1 := Mgr.Reachable.step r0 (.addNew (a := []) (b := []) (ip := a) (ips := []) (l := []) rfl rfl rfl rfl (by simp))
    have r2 := Mgr.Reachable.step r1 (.dial (a := []) (b := []) (ip := a) (ips := []) true rfl rfl)
    have r3 := Mgr.Reachable.step r2 (.connected (a := []) (b := []) (ip := a) (ips := []) rfl rfl (by simp))
    have r4 := Mgr.Reachable.step r3 (.peerEnds (a := []) (b := []) rfl rfl)
    have r5 := Mgr.Reachable.step r4 (.addedAll (a := []) (b := []) rfl rfl)
    have r6 := Mgr.Reachable.step r5 (.intervalOver (a := []) (b := []) rfl rfl)
    have r7 := Mgr.Reachable.step r6 (.announced (a := []) (b := []) [a] rfl rfl)
    exact ⟨_, r7, rfl, rfl, by simp [departed, wasAdded, handshaking, announcedState, Mgr.start],
      ⟨by simp [wasAdded], by simp [handshaking], by simp⟩, [], by simp⟩
  · intro h
    obtain ⟨σ, h1, h2, h3, _, h5, h6⟩ := k1 [49]
    obtain ⟨σ', g1, g2⟩ := h _ _ σ _ h1 h2 h3 h5 h6
    have := C98_gone_partial h1 _ h5 g1
    exact g2.elim this.2.1 this.2.2

/-! ### C99 -/

/-- The number shown: the peers being tried, the connected ones, and all that were connected before. -/
theorem C99_exact_partial {n limit : Nat} {σ : Mgr} (h : Mgr.Reachable n limit σ) :
    σ.peerNum = (handshaking σ.trackers).length + σ.running.length + (departed σ).length := by
  have hi := Mgr.poolInv h
  have hperm : (handshaking σ.trackers ++ σ.running.map PeerRef.addr ++ σ.failed ++ departed σ).Perm (wasAdded σ.adds) := by
    rw [List.perm_iff_count]
    intro a
    have h1 := hi.once a
    have h2 := hi.parts a
    simp only [List.count_append, departed]
    by_cases hx : a ∈ handshaking σ.trackers ∨ a ∈ σ.running.map PeerRef.addr ∨ a ∈ σ.failed
    · have e0 : ((wasAdded σ.adds).filter fun a => !(handshaking σ.trackers).contains a && !(σ.running.map PeerRef.addr).contains a &&
          !σ.failed.contains a).count a = 0 := by
        rw [List.count_eq_zero]
        intro hm
        have := (List.mem_filter.1 hm).2
        simp at this
        rcases hx with hx | hx | hx
        · exact this.1.1 hx
        · simp at hx
          obtain ⟨x, hx1, hx2⟩ := hx
          exact this.1.2 x hx1 hx2
        · exact this.2 hx
      have : 0 < (handshaking σ.trackers).count a + (σ.running.map PeerRef.addr).count a + σ.failed.count a := by
        rcases hx with hx | hx | hx <;> (have := List.count_pos_iff.2 hx; omega)
      omega
    · simp only [not_or] at hx
      rw [List.count_eq_zero.2 hx.1, List.count_eq_zero.2 hx.2.1, List.count_eq_zero.2 hx.2.2, List.count_filter]
      · omega
      · simp only [List.contains_eq_mem, hx.1, hx.2.1, hx.2.2]; rfl
  have hlen := hperm.length_eq
  simp only [List.length_append, List.length_map] at hlen
  rw [hi.num]
  omega

/-- All `Run`s return. -/
theorem Later.endAll : ∀ (k : Nat) (σ : Mgr), σ.panicked = none → σ.running.length = k →
    ∃ σ', Later σ σ' ∧ σ'.panicked = none ∧ σ'.running = [] ∧ σ'.trackers = σ.trackers ∧ σ'.cancelled = σ.cancelled ∧
      σ'.peerNum = σ.peerNum := by
  intro k
  induction k with
  | zero => intro σ h1 h2; exact ⟨σ, .here, h1, List.eq_nil_of_length_eq_zero h2, rfl, rfl, rfl⟩
  | succ k ih =>
    intro σ h1 h2
    cases hr : σ.running with
    | nil => rw [hr] at h2; simp at h2
    | cons p ps =>
      have st := Mgr.Step.peerEnds (σ := σ) (a := []) (p := p) (b := ps) h1 (by simpa using hr)
      obtain ⟨σ', g1, g2, g3, g4, g5, g6⟩ := ih _ (show ({ σ with running := [] ++ ps, wg := σ.wg - 1, main := wakeIfZero (σ.wg - 1) σ.main } : Mgr).panicked = none from h1)
        (by rw [hr] at h2; simpa using h2)
      exact ⟨σ', Later.trans (Later.one st) g1, g2, g3, g4, g5, g6⟩

/-- C99 is false of the code: any number may be shown when there is no peer at all. -/
theorem C99_violated : (∀ k : Nat, ∃ σ, Mgr.Reachable 1 30 σ ∧ σ.panicked = none ∧ σ.cancelled = false ∧ σ.running = [] ∧
    handshaking σ.trackers = [] ∧ σ.peerNum = k) ∧ ¬ NumberRight := by
  have key : ∀ k : Nat, ∃ σ, Mgr.Reachable 1 30 σ ∧ σ.panicked = none ∧ σ.cancelled = false ∧ σ.running = [] ∧
      handshaking σ.trackers = [] ∧ σ.peerNum = k := by
    intro k
    have r := reach_announced 0 30 (someAddrs k ++ [])
    obtain ⟨σ', k1, k2, k3, _, k5, _, _, _, k9, _, _, _, _, _, _, k16⟩ := Later.connectAll [] [] [] (someAddrs k) (announcedState 0 (someAddrs k ++ [])) [] rfl rfl rfl rfl
      (by simpa using someAddrs_nodup k)
    have r1 := Later.reachable k1 r
    obtain ⟨σ2, j1, j2, j3, j4, j5, j6⟩ := Later.endAll _ σ' k2 rfl
    have hn := (Mgr.poolInv r1).nodup _ k5
    have hnum := (Mgr.poolInv r1).num
    refine ⟨σ2, Later.reachable j1 r1, j2, ?_, j3, ?_, ?_⟩
    · rw [j5, k9]; rfl
    · rw [j4, k3]; rfl
    · rw [j6, hnum, ← hn.2, k16]
      simp [someAddrs, announcedState, Mgr.start]
  refine ⟨key, fun h => ?_⟩
  obtain ⟨σ, h1, _, _, h4, _, h6⟩ := key 1
  have := h _ _ σ h1
  rw [h4, h6] at this
  exact absurd this (by decide)

/-- C98 and C99: a peer has gone, a tracker names it again, and it still counts. -/
example : ∃ σ, Mgr.Reachable 1 30 σ ∧ Gone [49] σ ∧ NamedAgain [49] σ ∧ σ.running.length < σ.peerNum := by
  obtain ⟨σ, h1, _, _, h4, h5, h6⟩ := C98_violated.2.1 [49]
  have he := C99_exact_partial h1
  have hd := List.length_pos_of_mem h4
  exact ⟨σ, h1, h5, h6, by omega⟩

/-- C98: an address that was not tried before. -/
example : ∃ σ', Mgr.Step (announcedState 0 [[49]]) σ' ∧ [49] ∈ handshaking σ'.trackers :=
  C98_new_partial (reach_announced 0 30 [[49]]) rfl rfl [49] (by simp [announcedState, Mgr.start]) ⟨[], by simp [announcedState]⟩

end Gotit.Props
