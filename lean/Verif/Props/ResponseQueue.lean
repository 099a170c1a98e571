import Verif.Props.ProgramCrash
/-
  Which peers share a retry queue (C132).
-/
namespace Gotit.Props
open Gotit Gotit.Spec

/-- The goroutine is in the middle of `initPeers`. -/
def InInit : TrackerLoc → Prop
  | .adding _ => True
  | .connecting _ _ => True
  | _ => False

/-- Tracker `k`'s goroutine is in the middle of `initPeers`. -/
def Initialising (l : List TrackerLoc) (k : Nat) : Prop := ∃ x, l[k]? = some x ∧ InInit x

theorem init_set {l a b : List TrackerLoc} {x y : TrackerLoc} (hl : l = a ++ y :: b) (h : InInit x → InInit y) {k : Nat}
    (hk : Initialising (a ++ x :: b) k) : Initialising l k := by
  subst hl
  obtain ⟨z, h1, h2⟩ := hk
  rcases Nat.lt_trichotomy k a.length with hlt | heq | hgt
  · exact ⟨z, by rw [List.getElem?_append_left hlt] at h1 ⊢; exact h1, h2⟩
  · subst heq
    rw [List.getElem?_append_right (Nat.le_refl _)] at h1
    simp only [Nat.sub_self, List.getElem?_cons_zero, Option.some.injEq] at h1
    subst h1
    exact ⟨y, by simp, h h2⟩
  · obtain ⟨j, hj⟩ : ∃ j, k - a.length = j + 1 := ⟨k - a.length - 1, by omega⟩
    refine ⟨z, ?_, h2⟩
    rw [List.getElem?_append_right (by omega), hj] at h1 ⊢
    simpa using h1

theorem init_private {σ σ' : Mgr} (h : σ.Private σ') {k : Nat} (hk : Initialising σ'.trackers k) : Initialising σ.trackers k := by
  have hr := h.replies
  cases h.step with
  | trackerBad _ h2 => exact init_set h2 (by intro h; cases h) hk
  | trackerNew _ h2 => exact init_set h2 (by intro h; cases h) hk
  | @announced a b ips _ h2 =>
    exfalso
    refine hr a.length ips (by rw [h2]; simp) (by simp)
  | announceFailed _ h2 => exact init_set h2 (by intro h; cases h) hk
  | announceCanceled _ h2 _ => exact init_set h2 (by intro h; cases h) hk
  | addKnown _ h2 _ _ _ => exact init_set h2 (fun _ => trivial) hk
  | addNew _ h2 _ _ _ => exact init_set h2 (fun _ => trivial) hk
  | addedAll _ h2 => exact init_set h2 (by intro h; cases h) hk
  | connectFailed _ h2 => exact init_set h2 (fun _ => trivial) hk
  | connected _ h2 _ => exact init_set h2 (fun _ => trivial) hk
  | intervalOver _ h2 => exact init_set h2 (by intro h; cases h) hk
  | intervalCanceled _ h2 _ => exact init_set h2 (by intro h; cases h) hk
  | _ => exact hk

/-- Queues are used once. -/
structure QueuesOnce (P : Prog) : Prop where
  peers : ∀ x ∈ P.world.peers, x.1 < P.fresh
  below : ∀ k, Initialising P.mgr.trackers k → P.queue k < P.fresh
  apart : ∀ k l, Initialising P.mgr.trackers k → Initialising P.mgr.trackers l → P.queue k = P.queue l → k = l

theorem init_announced {l a b : List TrackerLoc} {ips : List Bytes} (hl : l = a ++ .announcing :: b) {k : Nat}
    (hk : Initialising (a ++ .adding ips :: b) k) : k = a.length ∨ (k ≠ a.length ∧ Initialising l k) := by
  by_cases he : k = a.length
  · exact .inl he
  · refine .inr ⟨he, ?_⟩
    subst hl
    obtain ⟨z, h1, h2⟩ := hk
    refine ⟨z, ?_, h2⟩
    rcases Nat.lt_or_ge k a.length with hlt | hge
    · rw [List.getElem?_append_left hlt] at h1 ⊢; exact h1
    · obtain ⟨j, hj⟩ : ∃ j, k - a.length = j + 1 := ⟨k - a.length - 1, by omega⟩
      rw [List.getElem?_append_right (by omega), hj] at h1 ⊢
      simpa using h1

theorem once_announced {P : Prog} (h : QueuesOnce P) {a b : List TrackerLoc} {ips : List Bytes} (hl : P.mgr.trackers = a ++ .announcing :: b)
    {P' : Prog} (h1 : P'.world = P.world) (h2 : P'.mgr.trackers = a ++ .adding ips :: b) (h3 : P'.fresh = P.fresh + 1)
    (h4 : P'.queue = fun k => if k = a.length then P.fresh else P.queue k) : QueuesOnce P' := by
  refine ⟨?_, ?_, ?_⟩
  · intro x hx
    rw [h1] at hx
    have := h.peers x hx
    omega
  · intro k hk
    rw [h2] at hk
    rw [h3, h4]
    simp only
    rcases init_announced hl hk with he | ⟨he, hk⟩
    · rw [if_pos he]; omega
    · rw [if_neg he]; have := h.below k hk; omega
  · intro k l hk hl' he
    rw [h2] at hk hl'
    rw [h4] at he
    simp only at he
    rcases init_announced hl hk with e1 | ⟨e1, hk⟩
    · rcases init_announced hl hl' with e2 | ⟨e2, hl'⟩
      · rw [e1, e2]
      · rw [if_pos e1, if_neg e2] at he
        have := h.below l hl'
        omega
    · rcases init_announced hl hl' with e2 | ⟨e2, hl'⟩
      · rw [if_neg e1, if_pos e2] at he
        have := h.below k hk
        omega
      · rw [if_neg e1, if_neg e2] at he
        exact h.apart k l hk hl' he

theorem afterEvents_trackers (σ : Mgr) (es : List RunEv) : (σ.afterEvents es).trackers = σ.trackers := (afterEvents_same es σ).2.1

theorem queuesOnce {S : JobSetup} {disk : Disk} {P : Prog} (hP : Prog.Reachable S disk P) : QueuesOnce P := by
  induction hP with
  | start =>
    have hno : ∀ k, ¬ Initialising (Prog.start S disk).mgr.trackers k := by
      rintro k ⟨x, h1, h2⟩
      have : (Prog.start S disk).mgr.trackers = List.replicate S.urls.length .start := rfl
      rw [this] at h1
      have := List.mem_replicate.1 (List.mem_of_getElem? h1)
      rw [this.2] at h2
      exact h2
    exact ⟨(fun x hx => by cases hx), fun k hk => absurd hk (hno k), fun k l hk => absurd hk (hno k)⟩
  | step _ st ih =>
    cases st with
    | manager _ hp =>
      exact ⟨ih.peers, fun k hk => ih.below k (init_private hp hk), fun k l hk hl => ih.apart k l (init_private hp hk) (init_private hp hl)⟩
    | cancel _ => exact ⟨ih.peers, ih.below, ih.apart⟩
    | close _ _ => exact ⟨ih.peers, ih.below, ih.apart⟩
    | announcedHttp _ _ _ hl _ _ _ => exact once_announced ih hl rfl rfl rfl rfl
    | announcedUdp _ _ _ _ _ _ _ hl _ _ _ _ _ => exact once_announced ih hl rfl rfl rfl rfl
    | announceCrash _ _ _ _ _ _ => exact ⟨ih.peers, ih.below, ih.apart⟩
    | announceCrashUdp _ _ _ _ _ _ _ _ _ _ _ _ _ => exact ⟨ih.peers, ih.below, ih.apart⟩
    | attempt _ _ _ _ _ _ => exact ⟨ih.peers, ih.below, ih.apart⟩
    | connectFailed _ hl _ _ =>
      exact ⟨ih.peers, fun k hk => ih.below k (init_set hl (fun _ => trivial) hk),
        fun k l hk hl' => ih.apart k l (init_set hl (fun _ => trivial) hk) (init_set hl (fun _ => trivial) hl')⟩
    | @connected a b ip ips k evs _ hl _ _ =>
      refine ⟨?_, fun k hk => ih.below k (init_set hl (fun _ => trivial) hk),
        fun k l hk hl' => ih.apart k l (init_set hl (fun _ => trivial) hk) (init_set hl (fun _ => trivial) hl')⟩
      intro x hx
      rcases List.mem_append.1 hx with hx | hx
      · exact ih.peers x hx
      · rw [List.mem_singleton.1 hx]
        exact ih.below _ ⟨.connecting ip ips, by rw [hl]; simp, trivial⟩
    | @peer i q r r' es W' c' _ _ hi _ _ _ _ =>
      refine ⟨?_, ?_, ?_⟩
      · intro x hx
        rcases List.mem_or_eq_of_mem_set hx with hx | rfl
        · exact ih.peers x hx
        · exact ih.peers (q, r) (List.mem_of_getElem? hi)
      · intro k hk
        simp only [afterEvents_trackers] at hk
        exact ih.below k hk
      · intro k l hk hl
        simp only [afterEvents_trackers] at hk hl
        exact ih.apart k l hk hl
    | peerEnds _ _ _ _ _ _ => exact ⟨ih.peers, ih.below, ih.apart⟩
    | receive _ _ _ _ => exact ⟨ih.peers, ih.below, ih.apart⟩
    | write _ _ _ _ => exact ⟨ih.peers, ih.below, ih.apart⟩
    | writeCrash _ _ _ _ => exact ⟨ih.peers, ih.below, ih.apart⟩

/-- C132, how far a retry queue reaches: when peers are started for a tracker's response, their queue is one that no peer of an earlier
response has, of this tracker or of another; and responses handled at the same time have different queues. So what C132_lost_partial says
of a queue is true of every response. -/
theorem C132_response_partial (S : JobSetup) (disk : Disk) (P : Prog) (hP : Prog.Reachable S disk P) :
    (∀ P', Prog.Step S P P' → ∀ k ips, P.mgr.trackers[k]? = some .announcing → P'.mgr.trackers[k]? = some (.adding ips) →
      (∀ x ∈ P'.world.peers, x.1 ≠ P'.queue k) ∧
      ∀ l, l ≠ k → Initialising P'.mgr.trackers l → P'.queue l ≠ P'.queue k) ∧
    ∀ k l, k ≠ l → Initialising P.mgr.trackers k → Initialising P.mgr.trackers l → P.queue k ≠ P.queue l := by
  have ih := queuesOnce hP
  refine ⟨?_, fun k l hne hk hl he => hne (ih.apart k l hk hl he)⟩
  intro P' st k ips h1 h2
  have ih' := queuesOnce (hP.step st)
  have hk : Initialising P'.mgr.trackers k := ⟨_, h2, trivial⟩
  refine ⟨?_, fun l hne hl he => hne (ih'.apart l k hl hk he)⟩
  have hnot : ¬ Initialising P.mgr.trackers k := by
    rintro ⟨x, g1, g2⟩
    rw [h1] at g1
    cases g1
    exact g2
  have key : ∀ {a b : List TrackerLoc} {ips' : List Bytes} {Q : Prog}, P.mgr.trackers = a ++ .announcing :: b →
      Q.mgr.trackers = a ++ .adding ips' :: b → Q.world = P.world → (Q.queue = fun k => if k = a.length then P.fresh else P.queue k) →
      Initialising Q.mgr.trackers k → ∀ x ∈ Q.world.peers, x.1 ≠ Q.queue k := by
    intro a b ips' Q e1 e2 e3 e4 hq x hx
    rw [e2] at hq
    rcases init_announced e1 hq with he | ⟨_, hq⟩
    · rw [e3] at hx
      rw [e4]
      simp only
      rw [if_pos he]
      have := ih.peers x hx
      omega
    · exact absurd hq hnot
  cases st with
  | manager _ hp => exact absurd (init_private hp hk) hnot
  | cancel _ => exact absurd hk hnot
  | close _ _ => exact absurd hk hnot
  | announcedHttp _ _ _ hl _ _ _ => exact key hl rfl rfl rfl hk
  | announcedUdp _ _ _ _ _ _ _ hl _ _ _ _ _ => exact key hl rfl rfl rfl hk
  | announceCrash _ _ _ _ _ _ => exact absurd hk hnot
  | announceCrashUdp _ _ _ _ _ _ _ _ _ _ _ _ _ => exact absurd hk hnot
  | attempt _ _ _ _ _ _ => exact absurd hk hnot
  | connectFailed _ hl _ _ => exact absurd (init_set hl (fun _ => trivial) hk) hnot
  | connected _ hl _ _ => exact absurd (init_set hl (fun _ => trivial) hk) hnot
  | peer _ _ _ _ _ _ _ =>
    simp only [afterEvents_trackers] at hk
    exact absurd hk hnot
  | peerEnds _ _ _ _ _ _ => exact absurd hk hnot
  | receive _ _ _ _ => exact absurd hk hnot
  | write _ _ _ _ => exact absurd hk hnot
  | writeCrash _ _ _ _ => exact absurd hk hnot

/-- A response of a tracker, answered with a queue that nobody has. -/
example (t : Torrent) : ∃ (S : JobSetup) (disk : Disk) (P P' : Prog) (k : Nat) (ips : List Bytes), Prog.Reachable S disk P ∧ Prog.Step S P P' ∧ P.mgr.trackers[k]? = some .announcing ∧
    P'.mgr.trackers[k]? = some (.adding ips) := by
  have hs := twoPeers_supply t
  obtain ⟨P, hP, _⟩ := lifted_start (disk := fun _ => []) (rest := fun _ => []) hs
  obtain ⟨b, hb⟩ := hP.trackers
  obtain ⟨u, tail, hu, hk⟩ := hs.url
  obtain ⟨ht, ht', hr⟩ := hs.good 0 (by omega)
  exact ⟨_, _, P, _, 0, _, hP.reach, .announcedHttp (a := []) (b := b) ht ht' (hP.alive ⟨rfl, fun x hx => by cases hx⟩) hb (by rw [hu]; rfl) hk hr,
    by rw [hb]; rfl, rfl⟩

end Gotit.Props
