import Verif.Lemmas.Manager
/-
  C61–C65, C70: a whole download.
-/
namespace Gotit.Props
open Gotit Spec

/-! ### C61 -/

/-- C61: in every execution, `AddPeer` says true exactly for the first call with an address; at every time at most one peer
per address is being handshaken with or running; and `PeerNum` is the number of added peers minus the number of those
whose handshake failed. -/
theorem C61_download {n limit : Nat} {σ : Mgr} (h : Mgr.Reachable n limit σ) :
    (∀ h1 a b h2, σ.adds = h1 ++ (a, b) :: h2 → (b = true ↔ a ∉ h1.map Prod.fst)) ∧
    (∀ a, (handshaking σ.trackers).count a + (σ.running.map PeerRef.addr).count a ≤ 1) ∧
    σ.peerNum = (wasAdded σ.adds).length - σ.failed.length := by
  have hi := Mgr.poolInv h
  refine ⟨hi.first, fun a => ?_, hi.num⟩
  have := hi.once a
  have := hi.parts a
  omega

/-- C61: a peer whose handshake failed stays in the pool: its address is never tried again (until the program ends). -/
theorem C61_failed_kept {n limit : Nat} {σ : Mgr} (h : Mgr.Reachable n limit σ) (a : Bytes) (ha : a ∈ σ.failed)
    (l : List Bytes) (hl : σ.pool = some l) :
    a ∈ l ∧ a ∉ handshaking σ.trackers ∧ a ∉ σ.running.map PeerRef.addr := by
  have hi := Mgr.poolInv h
  have h1 := hi.once a
  have h2 := hi.parts a
  have h3 := List.count_pos_iff.2 ha
  refine ⟨(hi.known l hl a).2.2 (List.count_pos_iff.1 (by omega)), ?_, ?_⟩
  · exact List.count_eq_zero.1 (by omega)
  · exact List.count_eq_zero.1 (by omega)

/-! ### Building executions -/

theorem Later.trans {σ σ' σ'' : Mgr} (h : Later σ σ') (h2 : Later σ' σ'') : Later σ σ'' := by
  induction h2 with
  | here => exact h
  | step _ st ih => exact .step ih st

theorem Later.one {σ σ' : Mgr} (h : Mgr.Step σ σ') : Later σ σ' := .step .here h

theorem Later.reachable {n limit : Nat} {σ σ' : Mgr} (h : Later σ σ') (hr : Mgr.Reachable n limit σ) : Mgr.Reachable n limit σ' := by
  induction h with
  | here => exact hr
  | step _ st ih => exact .step ih st

/-- A tracker goroutine that announces any list of addresses, all new, to which the handshake succeeds. -/
theorem Later.connectAll (a b : List TrackerLoc) (rest : List Bytes) : ∀ (ips : List Bytes) (σ : Mgr) (l : List Bytes),
    σ.panicked = none → σ.trackers = a ++ .adding (ips ++ rest) :: b → σ.locked = false → σ.pool = some l →
    (ips ++ l).Nodup → ∃ σ', Later σ σ' ∧ σ'.panicked = none ∧ σ'.trackers = a ++ .adding rest :: b ∧ σ'.main = σ.main ∧
      σ'.pool = some (ips.reverse ++ l) ∧ σ'.running = (ips.map fun x => ⟨x, σ.main.waited⟩).reverse ++ σ.running ∧
      σ'.wg = σ.wg + ips.length ∧ σ'.closed = σ.closed ∧ σ'.cancelled = σ.cancelled ∧ σ'.buffer = σ.buffer ∧
      σ'.accepted = σ.accepted ∧ σ'.written = σ.written ∧ σ'.inHand = σ.inHand ∧ (∀ x, x ∉ ips → σ'.conn x = σ.conn x) ∧
      (∀ x ∈ ips, σ'.conn x = true) ∧ σ'.failed = σ.failed := by
  intro ips
  induction ips with
  | nil => intro σ l h1 h2 h3 h4 _; exact ⟨σ, .here, h1, h2, rfl, h4, rfl, rfl, rfl, rfl, rfl, rfl, rfl, rfl, by simp, by simp, rfl⟩
  | cons ip ips ih =>
    intro σ l h1 h2 h3 h4 h5
    simp only [List.cons_append, List.nodup_cons] at h5
    have hip : ip ∉ l := fun h => h5.1 (List.mem_append_right _ h)
    let σ1 : Mgr := { σ with
      trackers := a ++ .connecting ip (ips ++ rest) :: b
      pool := some (ip :: l)
      peerNum := σ.peerNum + 1
      conn := fun x => if x = ip then false else σ.conn x
      adds := σ.adds ++ [(ip, true)] }
    let σ2 : Mgr := { σ1 with conn := fun x => if x = ip then true else σ1.conn x }
    let σ3 : Mgr := { σ2 with
      trackers := a ++ .adding (ips ++ rest) :: b
      wg := σ2.wg + 1
      running := ⟨ip, σ2.main.waited⟩ :: σ2.running }
    have s1 : Mgr.Step σ σ1 := .addNew h1 h2 h3 h4 hip
    have s2 : Mgr.Step σ1 σ2 := .dial true h1 rfl
    have s3 : Mgr.Step σ2 σ3 := .connected h1 rfl (by simp [σ2])
    have hnd : (ips ++ (ip :: l)).Nodup := by
      rw [List.nodup_append] at h5 ⊢
      refine ⟨h5.2.1, List.nodup_cons.2 ⟨hip, h5.2.2.1⟩, ?_⟩
      intro x hx y hy
      rcases List.mem_cons.1 hy with rfl | hy
      · intro e; exact h5.1 (List.mem_append_left _ (e ▸ hx))
      · exact h5.2.2.2 x hx y hy
    obtain ⟨σ', k1, k2, k3, k4, k5, k6, k7, k8, k9, k10, k11, k12, k13, k14, k15, k16⟩ := ih σ3 (ip :: l) h1 rfl h3 rfl hnd
    have hipn : ip ∉ ips := fun h => h5.1 (List.mem_append_left _ h)
    refine ⟨σ', Later.trans (.step (.step (.step .here s1) s2) s3) k1, k2, k3, k4, ?_, ?_, ?_, k8, k9, k10, k11, k12, k13, ?_, ?_, k16⟩
    · rw [k5]; simp
    · rw [k6]; simp [σ3, σ2, σ1]
    · rw [k7]; simp only [σ3, σ2, σ1, List.length_cons]; omega
    · intro x hx
      simp only [List.mem_cons, not_or] at hx
      rw [k14 x hx.2]
      simp [σ3, σ2, σ1, hx.1]
    · intro x hx
      rcases List.mem_cons.1 hx with rfl | hx
      · rw [k14 x hipn]; simp [σ3, σ2]
      · exact k15 x hx

/-- Any list of addresses, known or new, whether the handshake succeeds (`good`) or not. -/
theorem Later.dealWith (good : Bytes → Bool) (a b : List TrackerLoc) : ∀ (ips : List Bytes) (σ : Mgr) (l : List Bytes),
    σ.panicked = none → σ.trackers = a ++ .adding ips :: b → σ.locked = false → σ.pool = some l →
    ∃ σ' l', Later σ σ' ∧ σ'.panicked = none ∧ σ'.trackers = a ++ .waiting :: b ∧ σ'.pool = some l' ∧
      (∀ x, x ∈ l' ↔ x ∈ ips ∨ x ∈ l) ∧ σ'.adds.map Prod.fst = σ.adds.map Prod.fst ++ ips ∧
      (∀ x, x ∈ σ'.running.map PeerRef.addr ↔ x ∈ σ.running.map PeerRef.addr ∨ (x ∈ ips ∧ x ∉ l ∧ good x = true)) ∧
      (∀ x, x ∈ σ'.failed ↔ x ∈ σ.failed ∨ (x ∈ ips ∧ x ∉ l ∧ good x = false)) := by
  intro ips
  induction ips with
  | nil =>
    intro σ l h1 h2 h3 h4
    exact ⟨{ σ with trackers := a ++ .waiting :: b }, l, Later.one (.addedAll h1 h2), h1, rfl, h4, by simp, by simp, by simp, by simp⟩
  | cons ip ips ih =>
    intro σ l h1 h2 h3 h4
    by_cases hip : ip ∈ l
    · let σ1 : Mgr := { σ with trackers := a ++ .adding ips :: b, adds := σ.adds ++ [(ip, false)] }
      have s1 : Mgr.Step σ σ1 := .addKnown h1 h2 h3 h4 hip
      obtain ⟨σ', l', k1, k2, k3, k4, k5, k6, k7, k8⟩ := ih σ1 l h1 rfl h3 h4
      have hsplit : ∀ x, x ∉ l → x ≠ ip := fun x hx e => hx (e ▸ hip)
      refine ⟨σ', l', Later.trans (Later.one s1) k1, k2, k3, k4, ?_, by rw [k6]; simp [σ1], ?_, ?_⟩
      · intro x
        rw [k5 x, List.mem_cons]
        constructor
        · rintro (h | h)
          · exact .inl (.inr h)
          · exact .inr h
        · rintro ((rfl | h) | h)
          · exact .inr hip
          · exact .inl h
          · exact .inr h
      · intro x
        rw [k7 x, List.mem_cons]
        constructor
        · rintro (h | ⟨h, h', h''⟩)
          · exact .inl h
          · exact .inr ⟨.inr h, h', h''⟩
        · rintro (h | ⟨h | h, h', h''⟩)
          · exact .inl h
          · exact absurd h (hsplit x h')
          · exact .inr ⟨h, h', h''⟩
      · intro x
        rw [k8 x, List.mem_cons]
        constructor
        · rintro (h | ⟨h, h', h''⟩)
          · exact .inl h
          · exact .inr ⟨.inr h, h', h''⟩
        · rintro (h | ⟨h | h, h', h''⟩)
          · exact .inl h
          · exact absurd h (hsplit x h')
          · exact .inr ⟨h, h', h''⟩
    · let σ1 : Mgr := { σ with
        trackers := a ++ .connecting ip ips :: b
        pool := some (ip :: l)
        peerNum := σ.peerNum + 1
        conn := fun x => if x = ip then false else σ.conn x
        adds := σ.adds ++ [(ip, true)] }
      have s1 : Mgr.Step σ σ1 := .addNew h1 h2 h3 h4 hip
      have hpool : ∀ l' : List Bytes, (∀ x, x ∈ l' ↔ x ∈ ips ∨ x ∈ ip :: l) → ∀ x, x ∈ l' ↔ x ∈ ip :: ips ∨ x ∈ l := by
        intro l' h x
        rw [h x, List.mem_cons, List.mem_cons]
        constructor
        · rintro (h | h | h)
          · exact .inl (.inr h)
          · exact .inl (.inl h)
          · exact .inr h
        · rintro ((h | h) | h)
          · exact .inr (.inl h)
          · exact .inl h
          · exact .inr (.inr h)
      cases hg : good ip with
      | true =>
        let σ2 : Mgr := { σ1 with conn := fun x => if x = ip then true else σ1.conn x }
        let σ3 : Mgr := { σ2 with
          trackers := a ++ .adding ips :: b
          wg := σ2.wg + 1
          running := ⟨ip, σ2.main.waited⟩ :: σ2.running }
        have s2 : Mgr.Step σ1 σ2 := .dial true h1 rfl
        have s3 : Mgr.Step σ2 σ3 := .connected h1 rfl (by simp [σ2])
        obtain ⟨σ', l', k1, k2, k3, k4, k5, k6, k7, k8⟩ := ih σ3 (ip :: l) h1 rfl h3 rfl
        refine ⟨σ', l', Later.trans (.step (.step (.step .here s1) s2) s3) k1, k2, k3, k4, hpool l' k5, by rw [k6]; simp [σ3, σ2, σ1], ?_, ?_⟩
        · intro x
          rw [k7 x]
          simp only [σ3, σ2, σ1, List.map_cons, List.mem_cons]
          by_cases e : x = ip
          · subst e; simp [hip, hg]
          · simp [e]
        · intro x
          rw [k8 x]
          simp only [σ3, σ2, σ1, List.mem_cons]
          by_cases e : x = ip
          · subst e; simp [hg]
          · simp [e]
      | false =>
        let σ2 : Mgr := { σ1 with trackers := a ++ .adding ips :: b, peerNum := σ1.peerNum - 1, failed := σ1.failed ++ [ip] }
        have s2 : Mgr.Step σ1 σ2 := .connectFailed h1 rfl
        obtain ⟨σ', l', k1, k2, k3, k4, k5, k6, k7, k8⟩ := ih σ2 (ip :: l) h1 rfl h3 rfl
        refine ⟨σ', l', Later.trans (.step (.step .here s1) s2) k1, k2, k3, k4, hpool l' k5, by rw [k6]; simp [σ2, σ1], ?_, ?_⟩
        · intro x
          rw [k7 x]
          simp only [σ2, σ1, List.mem_cons]
          by_cases e : x = ip
          · subst e; simp [hg]
          · simp [e]
        · intro x
          rw [k8 x]
          simp only [σ2, σ1, List.mem_cons, List.mem_append, List.mem_singleton]
          by_cases e : x = ip
          · subst e; simp [hip, hg]
          · simp [e]

/-- C61: whatever addresses a tracker sends, known ones among them and whichever handshakes succeed, its goroutine can deal with
all of them one after the other: each is put to `AddPeer`, afterwards all are in the pool, and exactly the ones that were not
known before are running or given up, as the handshake went. -/
theorem C61_listed {σ : Mgr} (good : Bytes → Bool) (ips l : List Bytes)
    (a b : List TrackerLoc) (hp : σ.panicked = none) (ht : σ.trackers = a ++ .adding ips :: b) (hl : σ.locked = false)
    (hpool : σ.pool = some l) :
    ∃ σ' l', Later σ σ' ∧ σ'.panicked = none ∧ σ'.trackers = a ++ .waiting :: b ∧ σ'.pool = some l' ∧
      (∀ x, x ∈ l' ↔ x ∈ ips ∨ x ∈ l) ∧ σ'.adds.map Prod.fst = σ.adds.map Prod.fst ++ ips ∧
      (∀ x, x ∈ σ'.running.map PeerRef.addr ↔ x ∈ σ.running.map PeerRef.addr ∨ (x ∈ ips ∧ x ∉ l ∧ good x = true)) ∧
      (∀ x, x ∈ σ'.failed ↔ x ∈ σ.failed ∨ (x ∈ ips ∧ x ∉ l ∧ good x = false)) :=
  Later.dealWith good a b ips σ l hp ht hl hpool

/-- One tracker has answered with `ips`. -/
abbrev announcedState (n : Nat) (ips : List Bytes) : Mgr :=
  { Mgr.start (n + 1) with trackers := [] ++ .adding ips :: List.replicate n .start }

/-- The first steps. -/
theorem reach_announced (n limit : Nat) (ips : List Bytes) : Mgr.Reachable (n + 1) limit (announcedState n ips) := by
  have h0 : (Mgr.start (n + 1)).trackers = [] ++ .start :: List.replicate n .start := by simp [Mgr.start, List.replicate_succ]
  have r1 : Mgr.Reachable (n + 1) limit { Mgr.start (n + 1) with trackers := [] ++ .announcing :: List.replicate n .start } :=
    .step .start (.trackerNew rfl h0)
  exact .step r1 (.announced ips rfl rfl)

/-- An address that is listed three times, and another. -/
example : ∃ σ l, Mgr.Reachable 1 5 σ ∧ σ.panicked = none ∧ σ.trackers = [] ++ .adding [[1], [2], [1], [1]] :: [] ∧
    σ.locked = false ∧ σ.pool = some l :=
  ⟨announcedState 0 [[1], [2], [1], [1]], [], reach_announced 0 5 _, rfl, rfl, rfl, rfl⟩

/-- Different addresses. -/
def someAddrs (k : Nat) : List Bytes := (List.range k).map fun i => List.replicate i 49

theorem someAddrs_nodup (k : Nat) : (someAddrs k).Nodup := by
  unfold someAddrs
  refine List.Pairwise.map _ ?_ (List.nodup_range)
  intro i j hij h
  apply hij
  have := congrArg List.length h
  simpa using this

/-! ### C62 -/

/-- C62, what is claimed: never more peers than the flag says. -/
def PeerLimit : Prop := ∀ n limit σ, Mgr.Reachable n limit σ → σ.running.length ≤ limit ∧ ∀ l, σ.pool = some l → l.length ≤ limit

/-- C62 fails, for every limit: a tracker that sends one address more than the limit gets them all into the pool and
running. -/
theorem C62_violated : (∀ limit : Nat, ∃ σ, Mgr.Reachable 1 limit σ ∧ limit < σ.running.length ∧ ∃ l, σ.pool = some l ∧ limit < l.length) ∧
    ¬ PeerLimit := by
  have key : ∀ limit : Nat, ∃ σ, Mgr.Reachable 1 limit σ ∧ limit < σ.running.length ∧ ∃ l, σ.pool = some l ∧ limit < l.length := by
    intro limit
    have r := reach_announced 0 limit (someAddrs (limit + 1) ++ [])
    obtain ⟨σ', k1, _, _, _, k5, k6, _⟩ := Later.connectAll [] [] [] (someAddrs (limit + 1)) (announcedState 0 (someAddrs (limit + 1) ++ [])) [] rfl rfl rfl rfl
      (by simpa using someAddrs_nodup (limit + 1))
    refine ⟨σ', Later.reachable k1 r, ?_, _, k5, ?_⟩
    · rw [k6]; simp [Mgr.start, someAddrs]
    · simp [someAddrs]
  refine ⟨key, fun h => ?_⟩
  obtain ⟨σ, h1, h2, _⟩ := key 0
  have := (h 1 0 σ h1).1
  omega

/-- C62, what holds: there are at most as many peers as different addresses were ever passed to `AddPeer`, and not more of
them running than in the pool. -/
theorem C62_partial {n limit : Nat} {σ : Mgr} (h : Mgr.Reachable n limit σ) (l : List Bytes) (hl : σ.pool = some l) :
    l.Nodup ∧ (∀ a ∈ l, a ∈ σ.adds.map Prod.fst) ∧ σ.running.length ≤ l.length := by
  have hi := Mgr.poolInv h
  refine ⟨(hi.nodup l hl).1, fun a ha => (hi.known l hl a).1.1 ha, ?_⟩
  have hnd : (σ.running.map PeerRef.addr).Nodup := by
    rw [List.nodup_iff_count]
    intro a
    have := hi.once a
    have := hi.parts a
    omega
  have hsub : ∀ a ∈ σ.running.map PeerRef.addr, a ∈ l := by
    intro a ha
    have h2 := hi.parts a
    have h3 := List.count_pos_iff.2 ha
    exact (hi.known l hl a).2.2 (List.count_pos_iff.1 (by omega))
  have := (List.subset_def.2 @hsub |> fun h => List.Nodup.length_le_of_subset hnd h)
  simpa using this

/-! ### C63 and C70 -/

/-- C63, what is claimed: no panic. -/
def NeverPanics : Prop := ∀ n limit σ, Mgr.Reachable n limit σ → σ.panicked = none

/-- Down to the end of `Download`, with a context that is cancelled. -/
theorem Later.toReturned {σ : Mgr} (h1 : σ.panicked = none) (h2 : σ.main = .waitCtx) :
    Later σ { σ with cancelled := true, main := .returned, closed := true } := by
  have s1 : Mgr.Step σ { σ with cancelled := true } := .signal h1
  have s2 : Mgr.Step { σ with cancelled := true } { σ with cancelled := true, main := .closing } := .ctxDone h1 h2 rfl
  have s3 : Mgr.Step { σ with cancelled := true, main := .closing } { σ with cancelled := true, main := .returned, closed := true } :=
    .close h1 rfl
  exact .step (.step (.step .here s1) s2) s3

/-- C63 fails: sending on a closed channel. The trackers have not answered when `Download` starts to wait for peers, so the
wait group is at zero and the wait is over at once. A peer that starts afterwards is not waited for. -/
theorem C63_violated_send : ∃ σ, Mgr.Reachable 1 30 σ ∧ σ.panicked = some "send on closed channel" := by
  have r0 : Mgr.Reachable 1 30 { Mgr.start 1 with main := .waitCtx } := .step .start (.waitNow rfl rfl rfl)
  have r1 : Mgr.Reachable 1 30 { Mgr.start 1 with main := .waitCtx, trackers := [] ++ .announcing :: [] } :=
    .step r0 (.trackerNew (a := []) (b := []) rfl rfl)
  let σ2 : Mgr := { Mgr.start 1 with main := .waitCtx, trackers := [] ++ .adding ([[49]] ++ []) :: [] }
  have r2 : Mgr.Reachable 1 30 σ2 := .step r1 (.announced _ rfl rfl)
  obtain ⟨σ', k1, k2, _, k4, _, k6, _⟩ := Later.connectAll [] [] [] [[49]] σ2 [] rfl rfl rfl rfl (by simp)
  have l2 := Later.toReturned k2 k4
  have r3 := Later.reachable l2 (Later.reachable k1 r2)
  refine ⟨_, .step r3 (.deliverClosed (a := []) (p := ⟨[49], true⟩) (b := []) k2 ?_ rfl), rfl⟩
  simp only [k6]; rfl

/-- C63 fails: `Stop` closes every peer in the pool, also those that never had a connection. One peer that refuses is
enough. -/
theorem C63_violated_close : ∃ σ, Mgr.Reachable 1 30 σ ∧ σ.panicked = some "nil pointer dereference" := by
  have r0 := reach_announced 0 30 [[49]]
  have r1 := Mgr.Reachable.step r0 (.addNew (a := []) (b := []) (ip := [49]) (ips := []) (l := []) rfl rfl rfl rfl (by simp))
  have r2 := Mgr.Reachable.step r1 (.dial (a := []) (b := []) (ip := [49]) (ips := []) false rfl rfl)
  have r3 := Mgr.Reachable.step r2 (.connectFailed (a := []) (b := []) (ip := [49]) (ips := []) rfl rfl)
  have r4 := Mgr.Reachable.step r3 (.waitNow rfl rfl rfl)
  have r5 := Later.reachable (Later.toReturned rfl rfl) r4
  have r6 := Mgr.Reachable.step r5 (.stopCancel rfl rfl)
  have r7 := Mgr.Reachable.step r6 (.stopLock (l := [[49]]) (l' := [[49]]) rfl rfl rfl (List.Perm.refl _))
  exact ⟨_, .step r7 (.stopNilConn (a := [49]) (rest := []) rfl rfl rfl), rfl⟩

/-- C63 fails: a tracker goroutine that gets an answer after `Stop` writes to the nil map. -/
theorem C63_violated_map : ∃ σ, Mgr.Reachable 1 30 σ ∧ σ.panicked = some "assignment to entry in nil map" := by
  have r0 := reach_announced 0 30 [[49]]
  have r4 := Mgr.Reachable.step r0 (.waitNow rfl rfl rfl)
  have r5 := Later.reachable (Later.toReturned rfl rfl) r4
  have r6 := Mgr.Reachable.step r5 (.stopCancel rfl rfl)
  have r7 := Mgr.Reachable.step r6 (.stopLock (l := []) (l' := []) rfl rfl rfl (List.Perm.refl _))
  have r8 := Mgr.Reachable.step r7 (.stopDone rfl rfl)
  exact ⟨_, .step r8 (.addNil (a := []) (b := []) (ip := [49]) (ips := []) rfl rfl rfl rfl), rfl⟩

theorem C63_violated : ¬ NeverPanics := by
  intro h
  obtain ⟨σ, h1, h2⟩ := C63_violated_close
  have := h 1 30 σ h1
  rw [h2] at this
  exact absurd this (by simp)

/-- C63, what holds of the causes of a panic. Sending on the closed channel: only by a peer that was started after `wg.Wait()`
had returned. A nil connection: only for a peer whose handshake has failed or is still in progress when `Stop` runs. The nil
map: only by a tracker goroutine that is still adding peers when `Stop` has returned. And the wait group: only while
`Download` waits for peers. Besides, `Announce` may panic at what a tracker sent, at any time. -/
theorem C63_causes_partial {n limit : Nat} {σ σ' : Mgr} (h : Mgr.Reachable n limit σ) (hp : σ.panicked = none)
    (st : Mgr.Step σ σ') (r : String) (hr : σ'.panicked = some r) :
    (r = "send on closed channel" ∧ hasReturned σ.main ∧ ∃ p ∈ σ.running, p.late = true) ∨
    (r = "nil pointer dereference" ∧ hasReturned σ.main ∧ ∃ a, a ∈ handshaking σ.trackers ∨ a ∈ σ.failed) ∨
    (r = "assignment to entry in nil map" ∧ σ.main = .stopped ∧ ∃ ip ips, .adding (ip :: ips) ∈ σ.trackers) ∨
    (r = "sync: WaitGroup is reused before previous Wait has returned" ∧ σ.main = .waitWoken ∧ σ.running ≠ []) ∨
    (r = "panic in Announce" ∧ .announcing ∈ σ.trackers) := by
  have hm := Mgr.mainInv h
  have hpi := Mgr.poolInv h
  have hsr := h
  cases st with
  | waitReused _ h1 h2 =>
    simp only [Option.some.injEq] at hr
    refine .inr (.inr (.inr (.inl ⟨hr.symm, h1, ?_⟩)))
    intro e; rw [hm.wg, e] at h2; exact h2 rfl
  | @stopNilConn a rest _ h1 h2 =>
    simp only [Option.some.injEq] at hr
    refine .inr (.inl ⟨hr.symm, by rw [h1]; trivial, a, ?_⟩)
    have ha : a ∈ wasAdded σ.adds := Mgr.stopRest hsr h1 a (by simp)
    by_cases k1 : a ∈ handshaking σ.trackers
    · exact .inl k1
    · by_cases k2 : a ∈ σ.failed
      · exact .inr k2
      · have := hpi.conn a ha k1 k2; rw [h2] at this; exact absurd this (by decide)
  | @addNil a b ip ips _ h1 h2 h3 =>
    simp only [Option.some.injEq] at hr
    exact .inr (.inr (.inl ⟨hr.symm, hm.pool.1 h3, ip, ips, by rw [h1]; simp⟩))
  | announceCrash _ h1 =>
    simp only [Option.some.injEq] at hr
    exact .inr (.inr (.inr (.inr ⟨hr.symm, by rw [h1]; simp⟩)))
  | @deliverClosed a p b _ h1 h2 =>
    simp only [Option.some.injEq] at hr
    have hret := hm.closed.1 h2
    refine .inl ⟨hr.symm, hret, p, by rw [h1]; simp, hm.late ?_ p (by rw [h1]; simp)⟩
    cases hmm : σ.main <;> rw [hmm] at hret <;> simp [hasReturned, MainLoc.waited] at hret ⊢
  | _ => rw [show _ = none from hp] at hr; exact absurd hr (by simp)

/-- C63, a sufficient condition: if when `Download` returns all tracker goroutines have ended, no peer is running any more and
every handshake succeeded, then nothing panics from there on, whatever the schedule. -/
theorem C63_orderly_partial {n limit : Nat} {σ σ' : Mgr} (h : Mgr.Reachable n limit σ) (hp : σ.panicked = none)
    (hret : hasReturned σ.main) (ht : ∀ t ∈ σ.trackers, t = .ended) (hr : σ.running = []) (hf : σ.failed = [])
    (hl : Later σ σ') : σ'.panicked = none := by
  have key : Mgr.Reachable n limit σ' ∧ σ'.panicked = none ∧ hasReturned σ'.main ∧ (∀ t ∈ σ'.trackers, t = .ended) ∧
      σ'.running = [] ∧ σ'.failed = [] := by
    induction hl with
    | here => exact ⟨h, hp, hret, ht, hr, hf⟩
    | @step σ' σ'' hl st ih =>
      obtain ⟨i0, i1, i2, i3, i4, i5⟩ := ih
      have nt : ∀ a x b, σ'.trackers = a ++ x :: b → x = .ended := fun a x b e => i3 x (by rw [e]; simp)
      have hh : handshaking σ'.trackers = [] := by
        unfold handshaking
        rw [List.filterMap_eq_nil_iff]
        intro t htm; rw [i3 t htm]
      refine ⟨.step i0 st, ?_⟩
      have nopanic : σ''.panicked = none := by
        cases hpp : σ''.panicked with
        | none => rfl
        | some r =>
          rcases C63_causes_partial i0 i1 st r hpp with ⟨_, _, p, hpm, _⟩ | ⟨_, _, a, ha⟩ | ⟨_, _, ip, ips, ha⟩ | ⟨_, hw, _⟩ | ⟨_, ha⟩
          · rw [i4] at hpm; exact absurd hpm (by simp)
          · rw [hh, i5] at ha; simp at ha
          · have := i3 _ ha; exact absurd this (by simp)
          · rw [hw] at i2; exact absurd i2 (by simp [hasReturned])
          · have := i3 _ ha; exact absurd this (by simp)
      refine ⟨nopanic, ?_⟩
      cases st with
      | stopCancel => exact ⟨trivial, i3, i4, i5⟩
      | stopLock => exact ⟨trivial, i3, i4, i5⟩
      | stopClose => exact ⟨trivial, i3, i4, i5⟩
      | stopDone => exact ⟨trivial, i3, i4, i5⟩
      | waitNow _ hm => rw [hm] at i2; exact absurd i2 (by simp [hasReturned])
      | waitBlock _ hm => rw [hm] at i2; exact absurd i2 (by simp [hasReturned])
      | waitReturn _ hm => rw [hm] at i2; exact absurd i2 (by simp [hasReturned])
      | ctxDone _ hm => rw [hm] at i2; exact absurd i2 (by simp [hasReturned])
      | close _ hm => rw [hm] at i2; exact absurd i2 (by simp [hasReturned])
      | trackerBad _ e => exact absurd (nt _ _ _ e) (by simp)
      | trackerNew _ e => exact absurd (nt _ _ _ e) (by simp)
      | announced _ _ e => exact absurd (nt _ _ _ e) (by simp)
      | announceFailed _ e => exact absurd (nt _ _ _ e) (by simp)
      | announceCanceled _ e => exact absurd (nt _ _ _ e) (by simp)
      | addKnown _ e => exact absurd (nt _ _ _ e) (by simp)
      | addNew _ e => exact absurd (nt _ _ _ e) (by simp)
      | addedAll _ e => exact absurd (nt _ _ _ e) (by simp)
      | dial _ _ e => exact absurd (nt _ _ _ e) (by simp)
      | connectFailed _ e => exact absurd (nt _ _ _ e) (by simp)
      | connected _ e => exact absurd (nt _ _ _ e) (by simp)
      | intervalOver _ e => exact absurd (nt _ _ _ e) (by simp)
      | intervalCanceled _ e => exact absurd (nt _ _ _ e) (by simp)
      | deliver _ _ e => rw [i4] at e; exact absurd e (by simp)
      | peerEnds _ e => rw [i4] at e; exact absurd e (by simp)
      | _ => exact ⟨i2, i3, i4, i5⟩
  exact key.2.1

/-- Such a state: a peer was added, connected and has ended, its tracker goroutine has noticed the cancellation, and `Download`
has returned. -/
example : ∃ σ, Mgr.Reachable 1 30 σ ∧ σ.panicked = none ∧ hasReturned σ.main ∧ (∀ t ∈ σ.trackers, t = .ended) ∧ σ.running = [] ∧
    σ.failed = [] ∧ σ.pool = some [[49]] := by
  have r0 := reach_announced 0 30 ([[49]] ++ [])
  obtain ⟨σ1, k1, k2, k3, k4, k5, k6, k7, k8, k9, k10, k11, k12, k13, k14, k15, k16⟩ :=
    Later.connectAll [] [] [] [[49]] (announcedState 0 ([[49]] ++ [])) [] rfl rfl rfl rfl (by simp)
  have r1 := Later.reachable k1 r0
  have hrun : σ1.running = [] ++ ⟨[49], false⟩ :: [] := by rw [k6]; rfl
  have hwg : σ1.wg = 1 := by rw [k7]; rfl
  have r3 := Mgr.Reachable.step r1 (.peerEnds (a := []) (p := ⟨[49], false⟩) (b := []) k2 hrun)
  have hmain : wakeIfZero (σ1.wg - 1) σ1.main = .waitPeers := by
    rw [k4]; exact wakeIfZero_other _ _ (by simp [Mgr.start])
  let σ4 : Mgr := { σ1 with main := .waitCtx, running := [], wg := σ1.wg - 1 }
  have r4 : Mgr.Reachable 1 30 σ4 := Mgr.Reachable.step r3 (.waitNow k2 hmain (by show σ1.wg - 1 = 0; rw [hwg]))
  have r5 := Later.reachable (Later.toReturned (σ := σ4) k2 rfl) r4
  have r6 := Mgr.Reachable.step r5 (.addedAll (a := []) (b := []) k2 k3)
  have r7 := Mgr.Reachable.step r6 (.intervalCanceled (a := []) (b := []) k2 rfl rfl)
  exact ⟨_, r7, k2, trivial, by simp, rfl, k16, k5⟩

/-- C70, what is claimed: as long as the context is not cancelled, nothing in the manager panics. -/
def NoPanicBeforeCancel : Prop := ∀ n limit σ, Mgr.Reachable n limit σ → σ.cancelled = false → σ.panicked = none

/-- C70 fails: while `Download` waits for the first peer, that peer ends and, before the waiting goroutine runs again, a
tracker goroutine starts the next peer. -/
theorem C70_violated : ¬ NoPanicBeforeCancel := by
  intro h
  have r0 := reach_announced 0 30 ([[49]] ++ [[50]])
  obtain ⟨σ1, k1, k2, k3, k4, k5, k6, k7, _, k9, _⟩ := Later.connectAll [] [] [[50]] [[49]] (announcedState 0 ([[49]] ++ [[50]])) [] rfl rfl rfl rfl (by simp)
  have r1 := Later.reachable k1 r0
  have hwg : σ1.wg = 1 := by rw [k7]; rfl
  have r2 := Mgr.Reachable.step r1 (.waitBlock k2 k4 (by rw [hwg]; decide))
  have hrun : σ1.running = [] ++ ⟨[49], false⟩ :: [] := by rw [k6]; rfl
  have r3 := Mgr.Reachable.step r2 (.peerEnds (a := []) (p := ⟨[49], false⟩) (b := []) k2 hrun)
  let σ3 : Mgr := { σ1 with running := [], wg := 0, main := .waitWoken }
  have e3 : ({ { σ1 with main := .waitBlocked } with running := [] ++ [], wg := σ1.wg - 1, main := wakeIfZero (σ1.wg - 1) .waitBlocked } : Mgr) = σ3 := by
    rw [hwg]; rfl
  have r3' : Mgr.Reachable 1 30 σ3 := e3 ▸ r3
  obtain ⟨σ4, j1, j2, _, j4, _, _, j7, _, j9, _⟩ := Later.connectAll [] [] [] [[50]] σ3 [[49]] k2 k3 rfl k5 (by simp)
  have r4 := Later.reachable j1 r3'
  have r5 := Mgr.Reachable.step r4 (.waitReused j2 j4 (by rw [j7]; simp))
  have := h 1 30 _ r5 (by
    show σ4.cancelled = false
    rw [j9]
    show σ1.cancelled = false
    rw [k9]; rfl)
  exact absurd this (by simp)

/-- C70, what holds: before the context is cancelled there is no other panic than this and that of `Announce` (see C137_reply_violated). -/
theorem C70_partial {n limit : Nat} {σ : Mgr} (h : Mgr.Reachable n limit σ) (hc : σ.cancelled = false) (r : String)
    (hr : σ.panicked = some r) : r = "sync: WaitGroup is reused before previous Wait has returned" ∨ r = "panic in Announce" := by
  induction h with
  | start => exact absurd hr (by simp [Mgr.start])
  | @step σ σ' hs st ih =>
    have hm := Mgr.mainInv hs
    cases hp : σ.panicked with
    | some r' =>
      cases st <;> simp_all
    | none =>
      have hcc : hasReturned σ.main → False := by
        intro hret
        have := hm.cancelled (.inl hret)
        cases st <;> simp_all
      rcases C63_causes_partial hs hp st r hr with ⟨_, h, _⟩ | ⟨_, h, _⟩ | ⟨_, h, _⟩ | ⟨h, _⟩ | ⟨h, _⟩
      · exact absurd h hcc
      · exact absurd h hcc
      · exact absurd (by rw [h]; trivial) hcc
      · exact .inl h
      · exact .inr h

/-! ### C64 -/

/-- Without outside intervention the context is never cancelled and `Download` never returns: whatever the peers, the
trackers and the writer do, in particular however complete the torrent is. -/
theorem never_returns {n limit : Nat} {σ σ' : Mgr} (h : Mgr.Reachable n limit σ) (hc : σ.cancelled = false)
    (hu : Undisturbed σ σ') : Mgr.Reachable n limit σ' ∧ σ'.cancelled = false ∧ ¬ hasReturned σ'.main := by
  induction hu with
  | here =>
    refine ⟨h, hc, fun hret => ?_⟩
    have := (Mgr.mainInv h).cancelled (.inl hret)
    rw [hc] at this; exact absurd this (by decide)
  | @step σ' σ'' _ st hd ih =>
    obtain ⟨i1, i2, i3⟩ := ih
    have r : Mgr.Reachable n limit σ'' := .step i1 st
    have hc'' : σ''.cancelled = false := by
      cases hcc : σ''.cancelled with
      | false => rfl
      | true => exact absurd (hd i2 hcc) i3
    refine ⟨r, hc'', fun hret => ?_⟩
    have := (Mgr.mainInv r).cancelled (.inl hret)
    rw [hc''] at this; exact absurd this (by decide)

/-- A peer delivers messages one by one, each of which is written at once. -/
theorem Later.deliverAll (a b : List PeerRef) (p : PeerRef) : ∀ (ms : List PeerMessage) (σ : Mgr), σ.panicked = none →
    σ.running = a ++ p :: b → σ.closed = false → σ.buffer = [] → σ.inHand = none → σ.writerDone = false →
    Later σ { σ with accepted := σ.accepted ++ ms, written := σ.written ++ ms } := by
  intro ms
  induction ms with
  | nil => intro σ _ _ _ _ _ _; simp only [List.append_nil]; exact .here
  | cons m ms ih =>
    intro σ h1 h2 h3 h4 h5 h6
    have s1 : Mgr.Step σ { σ with buffer := [m], accepted := σ.accepted ++ [m] } := by
      have := Mgr.Step.deliver (σ := σ) (a := a) (p := p) (b := b) m h1 h2 h3 (by rw [h4]; decide)
      rw [h4] at this; exact this
    have s2 : Mgr.Step { σ with buffer := [m], accepted := σ.accepted ++ [m] }
        { σ with buffer := [], inHand := some m, accepted := σ.accepted ++ [m] } := .receive h1 h5 h6 rfl
    have s3 : Mgr.Step { σ with buffer := [], inHand := some m, accepted := σ.accepted ++ [m] }
        { σ with buffer := [], inHand := none, accepted := σ.accepted ++ [m], written := σ.written ++ [m] } := .write h1 rfl
    have := ih { σ with buffer := [], inHand := none, accepted := σ.accepted ++ [m], written := σ.written ++ [m] } h1 h2 h3 rfl rfl h6
    have k := Later.trans (.step (.step (.step .here s1) s2) s3) this
    simp only [List.append_assoc, List.singleton_append] at k
    rw [← h4, ← h5] at k
    exact k

/-- C64 fails: whatever messages have been written (in particular those of a complete torrent), with all peers gone and
nothing left to write, `Download` does not return unless somebody cancels the context from outside. -/
theorem C64_violated (ms : List PeerMessage) : ∃ σ, Mgr.Reachable 1 30 σ ∧ σ.panicked = none ∧ σ.cancelled = false ∧
    σ.accepted = ms ∧ σ.written = ms ∧ σ.running = [] ∧ ∀ σ', Undisturbed σ σ' → ¬ hasReturned σ'.main := by
  have r0 := reach_announced 0 30 ([[49]] ++ [])
  obtain ⟨σ1, k1, k2, k3, k4, k5, k6, k7, k8, k9, k10, k11, k12, k13, k14, k15, _⟩ :=
    Later.connectAll [] [] [] [[49]] (announcedState 0 ([[49]] ++ [])) [] rfl rfl rfl rfl (by simp)
  have r1 := Later.reachable k1 r0
  have hrun : σ1.running = [] ++ ⟨[49], false⟩ :: [] := by rw [k6]; rfl
  have hw : σ1.writerDone = false := by
    cases hw : σ1.writerDone with
    | false => rfl
    | true => have := ((Mgr.chanInv r1).ended hw).1; rw [k8] at this; exact absurd this (by decide)
  have r2 := Later.reachable (Later.deliverAll [] [] ⟨[49], false⟩ ms σ1 k2 hrun k8 k10 k13 hw) r1
  have r3 := Mgr.Reachable.step r2 (.peerEnds (a := []) (p := ⟨[49], false⟩) (b := []) k2 hrun)
  refine ⟨_, r3, k2, k9, ?_, ?_, rfl, fun σ' hu => (never_returns r3 k9 hu).2.2⟩
  · show σ1.accepted ++ ms = ms; rw [k11]; rfl
  · show σ1.written ++ ms = ms; rw [k12]; rfl

/-- C64, what holds: once the context is cancelled and the peers have ended, `Download` returns by its own steps alone. -/
theorem C64_partial {n limit : Nat} {σ : Mgr} (h : Mgr.Reachable n limit σ) (hp : σ.panicked = none) (hc : σ.cancelled = true)
    (hr : σ.running = []) : ∃ σ', Later σ σ' ∧ hasReturned σ'.main ∧ σ'.panicked = none := by
  have hm := Mgr.mainInv h
  have hw : σ.wg = 0 := by rw [hm.wg, hr]; rfl
  have fromClosing : ∀ σ : Mgr, σ.panicked = none → σ.main = .closing → ∃ σ', Later σ σ' ∧ hasReturned σ'.main ∧ σ'.panicked = none :=
    fun σ h1 h2 => ⟨_, Later.one (.close h1 h2), trivial, h1⟩
  have fromCtx : ∀ σ : Mgr, σ.panicked = none → σ.cancelled = true → σ.main = .waitCtx →
      ∃ σ', Later σ σ' ∧ hasReturned σ'.main ∧ σ'.panicked = none := by
    intro σ h1 h2 h3
    obtain ⟨σ', k1, k2, k3⟩ := fromClosing { σ with main := .closing } h1 rfl
    exact ⟨σ', Later.trans (Later.one (.ctxDone h1 h3 h2)) k1, k2, k3⟩
  cases hmm : σ.main with
  | waitPeers =>
    obtain ⟨σ', k1, k2, k3⟩ := fromCtx { σ with main := .waitCtx } hp hc rfl
    exact ⟨σ', Later.trans (Later.one (.waitNow hp hmm hw)) k1, k2, k3⟩
  | waitBlocked => exact absurd hw (hm.blocked hmm)
  | waitWoken =>
    obtain ⟨σ', k1, k2, k3⟩ := fromCtx { σ with main := .waitCtx } hp hc rfl
    exact ⟨σ', Later.trans (Later.one (.waitReturn hp hmm hw)) k1, k2, k3⟩
  | waitCtx => exact fromCtx σ hp hc hmm
  | closing => exact fromClosing σ hp hmm
  | returned => exact ⟨σ, .here, by rw [hmm]; trivial, hp⟩
  | stopLock => exact ⟨σ, .here, by rw [hmm]; trivial, hp⟩
  | stopClose l => exact ⟨σ, .here, by rw [hmm]; trivial, hp⟩
  | stopped => exact ⟨σ, .here, by rw [hmm]; trivial, hp⟩

/-! ### C65 -/

/-- C65, what is claimed. -/
def WrittenOnReturn : Prop := ∀ n limit σ, Mgr.Reachable n limit σ → hasReturned σ.main → ∀ m ∈ σ.accepted, m ∈ σ.written

/-- C65 fails, even at the end of the program: nothing waits for the writer, so a message may still be in the channel when
`Stop` has returned and the program ends. -/
theorem C65_violated (m : PeerMessage) : (∃ σ, Mgr.Reachable 1 30 σ ∧ σ.main = .stopped ∧ σ.accepted = [m] ∧ σ.written = []) ∧
    ¬ WrittenOnReturn := by
  have key : ∃ σ, Mgr.Reachable 1 30 σ ∧ σ.main = .stopped ∧ σ.accepted = [m] ∧ σ.written = [] := by
    have r0 := reach_announced 0 30 ([[49]] ++ [])
    obtain ⟨σ1, k1, k2, k3, k4, k5, k6, k7, k8, k9, k10, k11, k12, k13, k14, k15, _⟩ := Later.connectAll [] [] [] [[49]] (announcedState 0 ([[49]] ++ [])) [] rfl rfl rfl rfl (by simp)
    have r1 := Later.reachable k1 r0
    have hrun : σ1.running = [] ++ ⟨[49], false⟩ :: [] := by rw [k6]; rfl
    have hwg : σ1.wg = 1 := by rw [k7]; rfl
    have r2 := Mgr.Reachable.step r1 (.deliver (a := []) (p := ⟨[49], false⟩) (b := []) m k2 hrun (by rw [k8]; rfl) (by rw [k10]; decide))
    have r3 := Mgr.Reachable.step r2 (.peerEnds (a := []) (p := ⟨[49], false⟩) (b := []) k2 hrun)
    have hmain : wakeIfZero (σ1.wg - 1) σ1.main = .waitPeers := by
      rw [k4]; exact wakeIfZero_other _ _ (by simp [Mgr.start])
    let σ4 : Mgr := { σ1 with
      main := .waitCtx
      running := []
      wg := σ1.wg - 1
      buffer := σ1.buffer ++ [m]
      accepted := σ1.accepted ++ [m] }
    have r4 : Mgr.Reachable 1 30 σ4 := Mgr.Reachable.step r3 (.waitNow k2 hmain (by show σ1.wg - 1 = 0; rw [hwg]))
    have r5 := Later.reachable (Later.toReturned (σ := σ4) k2 rfl) r4
    have r6 := Mgr.Reachable.step r5 (.stopCancel k2 rfl)
    have r7 := Mgr.Reachable.step r6 (.stopLock (l := [[49]]) (l' := [[49]]) k2 rfl k5 (List.Perm.refl _))
    have r8 := Mgr.Reachable.step r7 (.stopClose (a := [49]) (rest := []) k2 rfl (k15 [49] (by simp)))
    have r9 := Mgr.Reachable.step r8 (.stopDone k2 rfl)
    refine ⟨_, r9, rfl, ?_, ?_⟩
    · show σ1.accepted ++ [m] = [m]; rw [k11]; rfl
    · exact k12
  refine ⟨key, fun h => ?_⟩
  obtain ⟨σ, h1, h2, h3, h4⟩ := key
  have := h 1 30 σ h1 (by rw [h2]; trivial) m (by rw [h3]; simp)
  rw [h4] at this
  exact absurd this (by simp)

/-- C65, what holds: nothing is lost or reordered between the peers and the writer. What the writer is done with is a prefix of
what was accepted; the rest, at most 1025 messages, is in the writer's hand or in the channel; and when the writer has
returned, everything accepted has been through it. -/
theorem C65_partial {n limit : Nat} {σ : Mgr} (h : Mgr.Reachable n limit σ) :
    σ.accepted = σ.written ++ σ.inHand.toList ++ σ.buffer ∧ σ.accepted.length ≤ σ.written.length + 1025 ∧
    (σ.writerDone = true → σ.written = σ.accepted) := by
  have hi := Mgr.chanInv h
  refine ⟨hi.order, ?_, fun hw => ?_⟩
  · rw [hi.order]
    have := hi.room
    have hc : pieceChCap = 1024 := rfl
    have : σ.inHand.toList.length ≤ 1 := by cases σ.inHand <;> simp
    simp only [List.length_append]
    omega
  · obtain ⟨_, h1, h2⟩ := hi.ended hw
    rw [hi.order, h1, h2]; simp

/-- C65: once the channel is closed, the writer can always get to its end, by its own steps alone. -/
theorem C65_drains_partial {n limit : Nat} {σ : Mgr} (h : Mgr.Reachable n limit σ) (hp : σ.panicked = none) (hc : σ.closed = true) :
    ∃ σ', Later σ σ' ∧ σ'.writerDone = true ∧ σ'.written = σ.accepted := by
  have go : ∀ (k : Nat) (σ : Mgr), Mgr.Reachable n limit σ → σ.panicked = none → σ.closed = true → σ.buffer.length = k →
      σ.inHand = none → ∃ σ', Later σ σ' ∧ σ'.writerDone = true ∧ σ'.accepted = σ.accepted ∧ Mgr.Reachable n limit σ' := by
    intro k
    induction k with
    | zero =>
      intro σ hr h1 h2 h3 h4
      have hb := List.eq_nil_of_length_eq_zero h3
      cases hw : σ.writerDone with
      | true => exact ⟨σ, .here, hw, rfl, hr⟩
      | false => exact ⟨_, Later.one (.writerEnds h1 h4 hw hb h2), rfl, rfl, .step hr (.writerEnds h1 h4 hw hb h2)⟩
    | succ k ih =>
      intro σ hr h1 h2 h3 h4
      cases hb : σ.buffer with
      | nil => rw [hb] at h3; exact absurd h3 (by simp)
      | cons m rest =>
        have hw : σ.writerDone = false := by
          cases hw : σ.writerDone with
          | false => rfl
          | true => have := ((Mgr.chanInv hr).ended hw).2.1; rw [hb] at this; exact absurd this (by simp)
        have s1 : Mgr.Step σ _ := .receive h1 h4 hw hb
        have r1 := Mgr.Reachable.step hr s1
        have s2 : Mgr.Step { σ with inHand := some m, buffer := rest } _ := .write h1 rfl
        have r2 := Mgr.Reachable.step r1 s2
        obtain ⟨σ', k1, k2, k3, k4⟩ := ih _ r2 h1 h2 (by rw [hb] at h3; simpa using h3) rfl
        exact ⟨σ', Later.trans (.step (.step .here s1) s2) k1, k2, k3, k4⟩
  cases hh : σ.inHand with
  | none =>
    obtain ⟨σ', k1, k2, k3, k4⟩ := go _ σ h hp hc rfl hh
    exact ⟨σ', k1, k2, by rw [(C65_partial k4).2.2 k2, k3]⟩
  | some m =>
    have s1 : Mgr.Step σ _ := .write hp hh
    obtain ⟨σ', k1, k2, k3, k4⟩ := go _ _ (.step h s1) hp hc rfl rfl
    exact ⟨σ', Later.trans (Later.one s1) k1, k2, by rw [(C65_partial k4).2.2 k2, k3]⟩

end Gotit.Props
