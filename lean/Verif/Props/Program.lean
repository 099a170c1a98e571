import Verif.Model.Program
import Verif.Spec.Program
import Verif.Props.Session
import Verif.Props.PeerAnnounce
import Verif.Props.HttpTracker
import Verif.Props.UdpTracker
import Verif.Props.Paths
/-
  The whole program, and C136: where stored bytes come from.
-/
namespace Gotit.Props
open Gotit Gotit.Spec

/-! ## The manager's part -/

/-- The addresses a tracker's goroutine still deals with. -/
def mentions : TrackerLoc → List Bytes
  | .adding ips => ips
  | .connecting ip ips => ip :: ips
  | _ => []

/-- The addresses of the other tracker's goroutines are the same, and there are no new ones. -/
def Fewer (l l' : List TrackerLoc) : Prop := ∀ (k : Nat) (x : TrackerLoc), l'[k]? = some x → ∃ y, l[k]? = some y ∧ ∀ ip ∈ mentions x, ip ∈ mentions y

theorem Fewer.refl (l : List TrackerLoc) : Fewer l l := fun _ x h => ⟨x, h, fun _ h => h⟩

theorem fewer_set {l a b : List TrackerLoc} {x y : TrackerLoc} (hl : l = a ++ y :: b) (h : ∀ ip ∈ mentions x, ip ∈ mentions y) : Fewer l (a ++ x :: b) := by
  subst hl
  intro k z hz
  rcases Nat.lt_trichotomy k a.length with hk | hk | hk
  · rw [List.getElem?_append_left hk] at hz ⊢
    exact ⟨z, hz, fun _ h => h⟩
  · subst hk
    simp only [List.getElem?_append_right (Nat.le_refl _), Nat.sub_self, List.getElem?_cons_zero, Option.some.injEq] at hz
    subst hz
    exact ⟨y, by simp, h⟩
  · rw [List.getElem?_append_right (by omega)] at hz ⊢
    obtain ⟨j, hj⟩ : ∃ j, k - a.length = j + 1 := ⟨k - a.length - 1, by omega⟩
    rw [hj, List.getElem?_cons_succ] at hz ⊢
    exact ⟨z, hz, fun _ h => h⟩

theorem private_fewer {σ σ' : Mgr} (h : σ.Private σ') : Fewer σ.trackers σ'.trackers := by
  have hr := h.replies
  cases h.step with
  | @announced a b ips _ e =>
    exfalso
    exact hr a.length ips (by rw [e]; simp) (by simp)
  | trackerBad _ e => exact fewer_set e (by simp [mentions])
  | trackerNew _ e => exact fewer_set e (by simp [mentions])
  | announceFailed _ e => exact fewer_set e (by simp [mentions])
  | announceCanceled _ e _ => exact fewer_set e (by simp [mentions])
  | addKnown _ e _ _ _ => exact fewer_set e (by simp [mentions]; intro x hx; exact .inr hx)
  | addNew _ e _ _ _ => exact fewer_set e (by simp [mentions])
  | addedAll _ e => exact fewer_set e (by simp [mentions])
  | connectFailed _ e => exact fewer_set e (by simp [mentions]; intro x hx; exact .inr hx)
  | connected _ e _ => exact fewer_set e (by simp [mentions]; intro x hx; exact .inr hx)
  | intervalOver _ e => exact fewer_set e (by simp [mentions])
  | intervalCanceled _ e _ => exact fewer_set e (by simp [mentions])
  | _ => exact Fewer.refl _

theorem closing_cancelled {n limit : Nat} {σ : Mgr} (h : Mgr.Reachable n limit σ) : σ.main = .closing → σ.cancelled = true := by
  induction h with
  | start => intro h; cases h
  | step _ st ih =>
    intro h
    cases st <;> first
      | exact ih h
      | assumption
      | (cases h; done)
      | rfl
      | (simp only [wakeIfZero] at h
         split at h
         · cases h
         · exact ih h)

/-! ## The events of a step -/

/-- A step of `Run` that gives a message to the writer does nothing else, and the channel is open. -/
theorem step_accepts {sha1 : Bytes → Bytes} {t : Torrent} {s s' : Run} (st : Run.Step sha1 t s s') {es : List RunEv} (hl : s'.log = s.log ++ es) :
    (∀ m, RunEv.accepted m ∉ es) ∨ ∃ m, es = [.accepted m] ∧ s.closed = false := by
  cases st with
  | uRead f e =>
    left
    have := (handle_frame sha1 t s f true).1
    rw [this] at hl
    rw [← List.append_cancel_left hl]
    simp
  | read f e =>
    left
    have := (handle_frame sha1 t s f false).1
    rw [this] at hl
    rw [← List.append_cancel_left hl]
    simp
  | delivered e hc =>
    right
    have := List.append_cancel_left (show s.log ++ [_] = s.log ++ es from hl)
    exact ⟨_, this.symm, hc⟩
  | next failed nxt e _ _ _ _ =>
    left
    rw [← List.append_cancel_left hl]
    intro m hm
    simp at hm
  | _ =>
    left
    first
      | (have := List.append_cancel_left (show s.log ++ [_] = s.log ++ es from hl)
         rw [← this]; simp; done)
      | (have := List.append_cancel_left (show s.log ++ [] = s.log ++ es from by rw [List.append_nil]; exact hl)
         rw [← this]; simp; done)

theorem afterEvents_none (σ : Mgr) : ∀ es : List RunEv, (∀ m, RunEv.accepted m ∉ es) → σ.afterEvents es = σ := by
  intro es
  induction es generalizing σ with
  | nil => intro _; rfl
  | cons e es ih =>
    intro h
    have := ih σ (fun m hm => h m (by simp [hm]))
    cases e <;> first
      | exact this
      | exact absurd (List.mem_cons_self) (h _)

/-! ## Both parts are executions of their own models -/

/-- What the two parts share is the same in both. -/
structure ProgJoined (S : JobSetup) (disk : Disk) (P : Prog) : Prop where
  mgr : Mgr.Reachable S.urls.length 0 P.mgr
  world : World.Reachable S.sha1 S.t (newPeer S.t) disk P.world
  buffer : P.mgr.buffer = P.world.buffer
  inHand : P.mgr.inHand = P.world.inHand
  closed : P.mgr.closed = P.world.closed
  cancelled : P.mgr.cancelled = P.world.cancelled
  written : P.mgr.written = P.world.written
  runs : P.runs.length = P.mgr.running.length
  conn : ∀ ip, (P.contacts ip).ok = true → P.mgr.conn ip = true

theorem peerAnnounce_dialled {hash cid : Bytes} {a : Attempt} {l : Link} (h : (peerAnnounce hash cid a l).2.isOk = true) : a.dial = none := by
  unfold peerAnnounce at h
  split at h
  · cases h
  · assumption

theorem effects_shared {q : Nat} {b : BitSet} {W W' : World} {es : List RunEv} (h : World.Effects q b W es W') (hn : ∀ m, RunEv.accepted m ∉ es) :
    W'.buffer = W.buffer := by
  induction h with
  | nil => rfl
  | cons he _ ih =>
    rw [ih (fun m hm => hn m (by simp [hm]))]
    cases he with
    | accepted _ => exact absurd List.mem_cons_self (hn _)
    | _ => rfl

theorem effects_rest {q : Nat} {b : BitSet} {W W' : World} {es : List RunEv} (h : World.Effects q b W es W') :
    W'.inHand = W.inHand ∧ W'.closed = W.closed ∧ W'.cancelled = W.cancelled ∧ W'.written = W.written ∧ W'.out = W.out ∧ W'.dead = W.dead := by
  induction h with
  | nil => simp
  | cons he _ ih =>
    obtain ⟨h1, h2, h3, h4, h5, h6⟩ := ih
    rw [h1, h2, h3, h4, h5, h6]
    cases he <;> simp

theorem progJoined {S : JobSetup} {disk : Disk} {P : Prog} (h : Prog.Reachable S disk P) : ProgJoined S disk P := by
  induction h with
  | start => exact ⟨.start, .start, rfl, rfl, rfl, rfl, rfl, rfl, by intro ip h; cases h⟩
  | @step P P' _ st ih =>
    cases st with
    | manager ha hp =>
      exact ⟨ih.mgr.step hp.step, ih.world, hp.buffer.trans ih.buffer, hp.inHand.trans ih.inHand, hp.closed.trans ih.closed,
        hp.cancelled.trans ih.cancelled, hp.written.trans ih.written, by rw [hp.running]; exact ih.runs,
        fun ip hc => by rw [hp.conn]; exact ih.conn ip hc⟩
    | cancel ha =>
      exact ⟨ih.mgr.step (.signal ha.1), ih.world.step (.cancel ha.2), ih.buffer, ih.inHand, ih.closed, rfl, ih.written, ih.runs, ih.conn⟩
    | close ha hm =>
      exact ⟨ih.mgr.step (.close ha.1 hm), ih.world.step (.close ha.2 (by rw [← ih.cancelled]; exact closing_cancelled ih.mgr hm)),
        ih.buffer, ih.inHand, rfl, ih.cancelled, ih.written, ih.runs, ih.conn⟩
    | announcedHttp ht ht' ha ht hu hk hr =>
      exact ⟨ih.mgr.step (.announced _ ha.1 ht), ih.world, ih.buffer, ih.inHand, ih.closed, ih.cancelled, ih.written, ih.runs, ih.conn⟩
    | announcedUdp ut d rnd we evs spare ha ht hu hk he hs hr =>
      exact ⟨ih.mgr.step (.announced _ ha.1 ht), ih.world, ih.buffer, ih.inHand, ih.closed, ih.cancelled, ih.written, ih.runs, ih.conn⟩
    | announceCrash ht ha htr hu hk hr =>
      exact ⟨ih.mgr.step (.announceCrash ha.1 htr), ih.world, ih.buffer, ih.inHand, ih.closed, ih.cancelled, ih.written, ih.runs, ih.conn⟩
    | announceCrashUdp ut d rnd we evs spare ha ht hu hk he hs hr =>
      exact ⟨ih.mgr.step (.announceCrash ha.1 ht), ih.world, ih.buffer, ih.inHand, ih.closed, ih.cancelled, ih.written, ih.runs, ih.conn⟩
    | @attempt a b ip ips att ha ht hk hn hz =>
      refine ⟨ih.mgr.step (.dial att.dial.isNone ha.1 ht), ih.world, ih.buffer, ih.inHand, ih.closed, ih.cancelled, ih.written, ih.runs, ?_⟩
      intro x hx
      simp only at hx ⊢
      by_cases he : x = ip
      · rw [if_pos he] at hx ⊢
        simp only at hx
        rw [peerAnnounce_dialled hx]
        rfl
      · rw [if_neg he] at hx ⊢
        exact ih.conn x hx
    | connectFailed ha ht hk hn =>
      exact ⟨ih.mgr.step (.connectFailed ha.1 ht), ih.world, ih.buffer, ih.inHand, ih.closed, ih.cancelled, ih.written, ih.runs, ih.conn⟩
    | connected ha ht hk hn =>
      exact ⟨ih.mgr.step (.connected ha.1 ht (ih.conn _ hk)), ih.world.step (.spawn _ ha.2), ih.buffer, ih.inHand, ih.closed, ih.cancelled,
        ih.written, by simp [ih.runs], ih.conn⟩
    | @peer i q r r' es W' c' ha hi hp hs hl he hr =>
      obtain ⟨e1, e2, e3, e4, _, _⟩ := effects_rest he
      have hw := ih.world.step (.peer ha.2 hp hs hl he)
      rcases step_accepts hs hl with hn | ⟨m, rfl, hc⟩
      · rw [afterEvents_none _ _ hn]
        exact ⟨ih.mgr, hw, by rw [ih.buffer]; exact (effects_shared he hn).symm, by rw [ih.inHand]; exact e1.symm, by rw [ih.closed]; exact e2.symm,
          by rw [ih.cancelled]; exact e3.symm, by rw [ih.written]; exact e4.symm, ih.runs, ih.conn⟩
      · have hb : P.world.buffer.length < pieceChCap ∧ W'.buffer = P.world.buffer ++ [m] := by
          cases he with
          | cons h1 h2 => cases h2; cases h1 with | accepted h => exact ⟨h, rfl⟩
        have hrun : ∃ a p b, P.mgr.running = a ++ p :: b := by
          cases hm : P.mgr.running with
          | nil =>
            have := ih.runs
            rw [hm] at this
            cases hq : P.runs with
            | nil => rw [hq] at hi; cases hi
            | cons _ _ => rw [hq] at this; cases this
          | cons p b => exact ⟨[], p, b, rfl⟩
        obtain ⟨a, p, b, hrun⟩ := hrun
        exact ⟨ih.mgr.step (.deliver m ha.1 hrun (ih.closed.trans hc) (by rw [ih.buffer]; exact hb.1)), hw, by simp only [Mgr.afterEvents]; rw [ih.buffer]; exact hb.2.symm,
          by simp only [Mgr.afterEvents]; rw [ih.inHand]; exact e1.symm, by simp only [Mgr.afterEvents]; rw [ih.closed]; exact e2.symm,
          by simp only [Mgr.afterEvents]; rw [ih.cancelled]; exact e3.symm, by simp only [Mgr.afterEvents]; rw [ih.written]; exact e4.symm, ih.runs, ih.conn⟩
    | @peerEnds i q r x y a p b ha hx hr hlen hp hloc =>
      refine ⟨ih.mgr.step (.peerEnds ha.1 hr), ih.world, ih.buffer, ih.inHand, ih.closed, ih.cancelled, ih.written, ?_, ih.conn⟩
      have := ih.runs
      rw [hx, hr] at this
      simp at this ⊢
      omega
    | receive ha hd hi hb =>
      exact ⟨ih.mgr.step (.receive ha.1 hi hd hb), ih.world.step (.receive ha.2 (ih.inHand ▸ hi) (ih.buffer ▸ hb)), rfl, rfl, ih.closed, ih.cancelled,
        ih.written, ih.runs, ih.conn⟩
    | write fl ha hi hw =>
      exact ⟨ih.mgr.step (.write ha.1 hi), ih.world.step (.write fl ha.2 (ih.inHand ▸ hi) hw), ih.buffer, rfl, ih.closed, ih.cancelled,
        by simp only; rw [ih.written], ih.runs, ih.conn⟩
    | writeCrash fl ha hi hw =>
      exact ⟨ih.mgr, ih.world.step (.writeCrash fl ha.2 (ih.inHand ▸ hi) hw), ih.buffer, ih.inHand, ih.closed, ih.cancelled, ih.written, ih.runs,
        ih.conn⟩

/-! ## Where peers come from -/

/-- A good reply of an HTTP tracker of the torrent has the address. -/
def NamedIn (S : JobSetup) (rs : List (Bytes × HttpReply)) (ip : Bytes) : Prop :=
  ∃ u r ht ht' addrs, (u, r) ∈ rs ∧ u ∈ S.urls ∧ httpAnnounce S.parseAddr ht r = (ht', .ok addrs) ∧ ip ∈ addrs.map S.name

theorem NamedIn.more {S : JobSetup} {rs : List (Bytes × HttpReply)} {ip : Bytes} (h : NamedIn S rs ip) (x : Bytes × HttpReply) : NamedIn S (rs ++ [x]) ip := by
  obtain ⟨u, r, ht, ht', addrs, h1, h2⟩ := h
  exact ⟨u, r, ht, ht', addrs, by simp [h1], h2⟩

/-- The connection of a peer whose handshake was accepted. -/
def Greeted (S : JobSetup) (wire : List Ev) (rest : Bytes) : Prop :=
  ∃ hs, arriving wire = hs ++ rest ∧ isHandshakeValid hs S.t.hash = true ∧ hs.length = 68

theorem peerAnnounce_greeted {S : JobSetup} {a : Attempt} {l : Link} (h : (peerAnnounce S.t.hash S.clientId a l).2.isOk = true) :
    ∃ k evs, (peerAnnounce S.t.hash S.clientId a l).1.conn = some (k, evs) ∧ Greeted S a.evs (arriving evs) := by
  unfold peerAnnounce at h ⊢
  split at h
  · cases h
  · simp only at h ⊢
    split at h
    · cases h
    · split at h
      · cases h
      · cases h
      · rename_i response evs hr
        obtain ⟨g1, _, g3⟩ := readFull_exact _ _ _ _ hr
        split at h
        · rename_i hv
          rw [if_pos hv]
          exact ⟨_, _, rfl, response, g1, hv, g3⟩
        · cases h

structure Traced (S : JobSetup) (P : Prog) : Prop where
  named : ∀ (k : Nat) (x : TrackerLoc), P.mgr.trackers[k]? = some x → ∀ ip ∈ mentions x, NamedIn S P.replies ip
  contact : ∀ ip, (P.contacts ip).ok = true → ip ≠ S.name .zero ∧ ∃ k evs, (P.contacts ip).link.conn = some (k, evs) ∧
    Greeted S (P.contacts ip).wire (arriving evs)
  addrs : P.addrs.length = P.world.peers.length
  wires : P.wires.length = P.world.peers.length
  peers : ∀ i, i < P.world.peers.length → ∃ ip wire rest, P.addrs[i]? = some ip ∧ P.wires[i]? = some wire ∧ ip ≠ S.name .zero ∧
    NamedIn S P.replies ip ∧ Greeted S wire rest ∧
    ∀ fs, CutFrom fs (arriving (P.conns i)) → CutFrom (heard (eventsOf P.world.trace i) ++ fs) rest
  silent : ∀ i, P.world.peers.length ≤ i → eventsOf P.world.trace i = []

theorem eventsOf_map (es : List RunEv) (i j : Nat) : eventsOf (es.map (fun e => (i, e))) j = if i = j then es else [] := by
  by_cases h : i = j
  · rw [if_pos h]
    induction es with
    | nil => rfl
    | cons e es ih =>
      simp only [eventsOf, List.map_cons, List.filterMap_cons, if_pos h] at ih ⊢
      rw [ih]
  · rw [if_neg h]
    induction es with
    | nil => rfl
    | cons e es ih =>
      simp only [eventsOf, List.map_cons, List.filterMap_cons, if_neg h] at ih ⊢
      exact ih

theorem named_after {S : JobSetup} {rs rs' : List (Bytes × HttpReply)} {a b : List TrackerLoc} {x y : TrackerLoc} {l : List TrackerLoc}
    (h : ∀ (k : Nat) (x : TrackerLoc), l[k]? = some x → ∀ ip ∈ mentions x, NamedIn S rs ip) (hl : l = a ++ y :: b)
    (hm : ∀ ip, NamedIn S rs ip → NamedIn S rs' ip) (hx : ∀ ip ∈ mentions x, NamedIn S rs' ip) :
    ∀ (k : Nat) (z : TrackerLoc), (a ++ x :: b)[k]? = some z → ∀ ip ∈ mentions z, NamedIn S rs' ip := by
  subst hl
  intro k z hz ip hip
  rcases Nat.lt_trichotomy k a.length with hk | hk | hk
  · rw [List.getElem?_append_left hk] at hz
    exact hm _ (h k z (by rw [List.getElem?_append_left hk]; exact hz) ip hip)
  · subst hk
    simp only [List.getElem?_append_right (Nat.le_refl _), Nat.sub_self, List.getElem?_cons_zero, Option.some.injEq] at hz
    subst hz
    exact hx ip hip
  · have hj : k - a.length = (k - a.length - 1) + 1 := by omega
    rw [List.getElem?_append_right (by omega), hj, List.getElem?_cons_succ] at hz
    exact hm _ (h k z (by rw [List.getElem?_append_right (by omega), hj, List.getElem?_cons_succ]; exact hz) ip hip)

theorem traced {S : JobSetup} {disk : Disk} {P : Prog} (h : Prog.Reachable S disk P) : Traced S P := by
  induction h with
  | start =>
    refine ⟨?_, ?_, rfl, rfl, ?_, ?_⟩
    · intro k x hx ip hip
      have hx' : (List.replicate S.urls.length TrackerLoc.start)[k]? = some x := hx
      rw [List.getElem?_replicate] at hx'
      split at hx'
      · simp only [Option.some.injEq] at hx'
        subst hx'
        cases hip
      · cases hx'
    · intro ip h; cases h
    · intro i h; cases h
    · intro i _; rfl
  | @step P P' _ st ih =>
    cases st with
    | manager ha hp =>
      refine ⟨?_, ih.contact, ih.addrs, ih.wires, ih.peers, ih.silent⟩
      intro k x hx ip hip
      obtain ⟨y, hy, hm⟩ := private_fewer hp k x hx
      exact ih.named k y hy ip (hm ip hip)
    | cancel ha => exact ⟨ih.named, ih.contact, ih.addrs, ih.wires, ih.peers, ih.silent⟩
    | close ha hm => exact ⟨ih.named, ih.contact, ih.addrs, ih.wires, ih.peers, ih.silent⟩
    | announcedHttp ht ht' ha htr hu hk hr =>
      refine ⟨?_, ih.contact, ih.addrs, ih.wires, ?_, ih.silent⟩
      · refine named_after ih.named htr (fun ip h => h.more _) ?_
        intro ip hip
        exact ⟨_, _, ht, ht', _, by simp, (List.getElem?_eq_some_iff.1 hu).2 ▸ List.getElem_mem _, hr, hip⟩
      · intro i hi
        obtain ⟨ip, wire, rest, h1, h2, h3, h4, h5⟩ := ih.peers i hi
        exact ⟨ip, wire, rest, h1, h2, h3, h4.more _, h5⟩
    | announceCrash ht ha htr hu hk hr => exact ⟨ih.named, ih.contact, ih.addrs, ih.wires, ih.peers, ih.silent⟩
    | announceCrashUdp ut d rnd we evs spare ha ht hu hk he hs hr => exact ⟨ih.named, ih.contact, ih.addrs, ih.wires, ih.peers, ih.silent⟩
    | announcedUdp ut d rnd we evs spare ha ht hu hk he hs hr =>
      obtain ⟨e, he'⟩ := C25_announce_violated S.clientId ut S.t.hash d rnd we evs spare hs he
      rw [hr] at he'
      cases he'
    | @attempt a b ip ips att ha ht hk hn hz =>
      refine ⟨ih.named, ?_, ih.addrs, ih.wires, ih.peers, ih.silent⟩
      intro x hx
      simp only at hx ⊢
      by_cases he : x = ip
      · simp only [if_pos he] at hx ⊢
        refine ⟨?_, peerAnnounce_greeted hx⟩
        intro hzero
        exact hz (by rw [← he]; exact hzero) (peerAnnounce_dialled hx)
      · simp only [if_neg he] at hx ⊢
        exact ih.contact x hx
    | @connectFailed a b ip ips ha ht hk hn =>
      refine ⟨?_, ih.contact, ih.addrs, ih.wires, ih.peers, ih.silent⟩
      refine named_after ih.named ht (fun _ h => h) ?_
      intro x hx
      exact ih.named a.length (.connecting ip ips) (by rw [ht]; simp) x (by simp only [mentions] at hx ⊢; simp [hx])
    | @connected a b ip ips k evs ha ht hk hn =>
      refine ⟨?_, ih.contact, ?_, ?_, ?_, ?_⟩
      · refine named_after ih.named ht (fun _ h => h) ?_
        intro x hx
        exact ih.named a.length (.connecting ip ips) (by rw [ht]; simp) x (by simp only [mentions] at hx ⊢; simp [hx])
      · simp [ih.addrs]
      · simp [ih.wires]
      · intro i hi
        simp only [List.length_append, List.length_singleton] at hi
        by_cases he : i = P.world.peers.length
        · subst he
          obtain ⟨g1, k', evs', g2, g3⟩ := ih.contact ip hk
          rw [hn] at g2
          simp only [Option.some.injEq, Prod.mk.injEq] at g2
          obtain ⟨_, rfl⟩ := g2
          refine ⟨ip, (P.contacts ip).wire, arriving evs, ?_, ?_, g1, ih.named a.length (.connecting ip ips) (by rw [ht]; simp) ip (by simp [mentions]), g3, ?_⟩
          · rw [List.getElem?_append_right (by rw [ih.addrs]; exact Nat.le_refl _), ih.addrs]; simp
          · rw [List.getElem?_append_right (by rw [ih.wires]; exact Nat.le_refl _), ih.wires]; simp
          · intro fs hfs
            simp only [if_pos] at hfs
            rw [ih.silent _ (Nat.le_refl _)]
            exact hfs
        · obtain ⟨ip', wire, rest, h1, h2, h3, h4, h5, h6⟩ := ih.peers i (by omega)
          refine ⟨ip', wire, rest, ?_, ?_, h3, h4, h5, ?_⟩
          · rw [List.getElem?_append_left (by rw [ih.addrs]; omega)]; exact h1
          · rw [List.getElem?_append_left (by rw [ih.wires]; omega)]; exact h2
          · intro fs hfs
            simp only [if_neg he] at hfs
            exact h6 fs hfs
      · intro i hi
        simp only [List.length_append, List.length_singleton] at hi
        exact ih.silent i (by omega)
    | @peer i q r r' es W' c' ha hi hp hs hl he hr =>
      have hlt : i < P.world.peers.length := (List.getElem?_eq_some_iff.1 hp).1
      refine ⟨?_, ih.contact, ?_, ?_, ?_, ?_⟩
      · have : (P.mgr.afterEvents es).trackers = P.mgr.trackers := by
          rcases step_accepts hs hl with hn | ⟨m, rfl, hc⟩
          · rw [afterEvents_none _ _ hn]
          · rfl
        simp only [this]
        exact ih.named
      · simp [ih.addrs]
      · simp [ih.wires]
      · intro j hj
        simp only [List.length_set] at hj
        obtain ⟨ip', wire, rest, h1, h2, h3, h4, h5, h6⟩ := ih.peers j hj
        refine ⟨ip', wire, rest, h1, h2, h3, h4, h5, ?_⟩
        intro fs hfs
        simp only [eventsOf_append, eventsOf_map]
        by_cases he : j = i
        · subst he
          simp only [if_pos] at hfs
          rw [if_pos rfl, heard_append, List.append_assoc]
          exact h6 _ (readsAll_cut hr fs hfs)
        · simp only [if_neg he] at hfs
          rw [if_neg (fun h => he h.symm), List.append_nil]
          exact h6 fs hfs
      · intro j hj
        simp only [List.length_set] at hj
        simp only [eventsOf_append, eventsOf_map]
        rw [ih.silent j hj, if_neg (by omega)]
        rfl
    | peerEnds ha hx hr hlen hp hloc => exact ⟨ih.named, ih.contact, ih.addrs, ih.wires, ih.peers, ih.silent⟩
    | receive ha hd hi hb => exact ⟨ih.named, ih.contact, ih.addrs, ih.wires, ih.peers, ih.silent⟩
    | write fl ha hi hw => exact ⟨ih.named, ih.contact, ih.addrs, ih.wires, ih.peers, ih.silent⟩
    | writeCrash fl ha hi hw => exact ⟨ih.named, ih.contact, ih.addrs, ih.wires, ih.peers, ih.silent⟩

theorem peerTexts_mem : ∀ {vs : List Bencode} {ps : List (Bytes × Bytes)} {p : Bytes × Bytes}, peerTexts vs = some ps → p ∈ ps → ∃ v ∈ vs, peerText v = some p := by
  intro vs
  induction vs with
  | nil => intro ps p h hp; simp [peerTexts] at h; subst h; cases hp
  | cons v vs ih =>
    intro ps p h hp
    simp only [peerTexts] at h
    split at h
    · rename_i q qs h1 h2
      simp only [Option.some.injEq] at h
      subst h
      rcases List.mem_cons.1 hp with rfl | hp
      · exact ⟨v, by simp, h1⟩
      · obtain ⟨w, hw, h3⟩ := ih h2 hp
        exact ⟨w, by simp [hw], h3⟩
    · cases h

theorem named_spec {S : JobSetup} {mi : Metainfo} {rs : List (Bytes × HttpReply)} {ip : Bytes} (h : NamedIn S rs ip) (hz : ip ≠ S.name .zero)
    (hu : ∀ u ∈ S.urls, u = mi.announce ∨ (∃ tier ∈ mi.announceList, u ∈ tier) ∨ u ∈ mi.urlList) : NamedByTracker S mi rs ip := by
  obtain ⟨u, r, ht, ht', addrs, h1, h2, h3, h4⟩ := h
  unfold httpAnnounce at h3
  split at h3
  · simp at h3
  · rename_i status body
    split at h3
    · simp at h3
    · rename_i hst
      have hst : status = 200 := by omega
      subst hst
      obtain ⟨n, vs, ps, ⟨kvs, ⟨b, raw, g1⟩, g2, _, ⟨b', raw', g3⟩, g4⟩, rfl, _⟩ := (C17_success_iff_partial _ _ _ _ _).1 h3
      simp only [List.map_map, List.mem_map, Function.comp_apply] at h4
      obtain ⟨p, hp, rfl⟩ := h4
      obtain ⟨v, hv, g5⟩ := peerTexts_mem g4 hp
      unfold peerAddr at hz ⊢
      split at hz
      · rename_i x n e1 e2
        exact ⟨u, _, p.1, p.2, x, n, h1, hu u h2, ⟨body, kvs, b, b', raw, raw', vs, v, rfl, g1, g2, g3, hv, g5⟩, e1, e2, rfl⟩
      · exact absurd rfl hz

theorem greeted_spec {S : JobSetup} {wire : List Ev} {rest : Bytes} (h : Greeted S wire rest) (hh : S.t.hash.length = 20) : IntroducedThen S.t.hash wire rest := by
  obtain ⟨hs, h1, h2, h3⟩ := h
  obtain ⟨reserved, id, g1, g2, g3⟩ := (C34_accept_iff _ _ hh).1 h2
  refine ⟨reserved, id, g2, ?_, ?_⟩
  · rw [g1, ← torrentGreeting_eq] at h3
    simp only [List.length_append, torrentGreeting_length, g2, hh] at h3
    omega
  · rw [h1, g1, torrentGreeting_eq]
    simp

theorem hear_piece {f d : Bytes} {index begin_ : Nat} (h : hear f = .piece index begin_ d) :
    ∃ x y, f = 7 :: (x ++ (y ++ d)) ∧ x.length = 4 ∧ y.length = 4 ∧ bigEndian x = index ∧ bigEndian y = begin_ := by
  cases f with
  | nil => simp [hear] at h
  | cons id q =>
    simp only [hear] at h
    repeat' split at h
    all_goals try (simp at h; done)
    rename_i hid hq
    simp only [Heard.piece.injEq] at h
    refine ⟨q.take 4, (q.drop 4).take 4, ?_, by rw [List.length_take]; omega, by rw [List.length_take, List.length_drop]; omega, ?_, ?_⟩
    · rw [hid, ← h.2.2, show q.drop 8 = (q.drop 4).drop 4 by rw [List.drop_drop], List.take_append_drop, List.take_append_drop]
    · rw [← h.1]; simp [num4]
    · rw [← h.2.1]; simp [num4]

/-- C136: at any moment of the whole program, whatever trackers, peers, disk and scheduler do, every byte of the torrent's files is zero, as `New` left it, or
is the byte at its place in a block that came from a peer which a tracker of the metainfo had named, over a connection on which that peer had
introduced itself with the torrent's hash, in a piece message whose block has the SHA-1 the metainfo lists for its piece. No other file is
touched. -/
theorem C136_provenance (S : JobSetup) (os : Os) (mi : Metainfo) (root : Bytes) (disk0 disk : Disk)
    (hn : newTorrent S.sha1 os mi root disk0 = (.ok S.t, disk)) (hs : Sensible mi) (pl : Nat) (hpl : mi.pieceLength = pl)
    (hsm : S.t.pieces.length * pl + 2 ^ 32 ≤ 2 ^ 63) (hh : (S.sha1 mi.infoDictRaw).length = 20) (hu : ∀ u ∈ S.urls, u ∈ S.t.trackers)
    (P : Prog) (hP : Prog.Reachable S disk P) :
    OldOrFrom (CameFrom S mi pl P.replies (P.addrs.zip P.wires)) (List.replicate (total (extents S.t)) 0) (layout P.world.out.disk (extents S.t)) ∧
    OnlyTouches (extents S.t) disk P.world.out.disk := by
  obtain ⟨hpieces, _, _, _, _, hpl', _, htr, hhash, _⟩ := newTorrent_ok hn
  obtain ⟨⟨h1, h2⟩, h3⟩ := C76_verified S.sha1 os mi root disk0 disk S.t hn hs pl (hpl'.trans hpl) hsm (newPeer S.t) P.world (progJoined hP).world
  refine ⟨⟨h1, ?_⟩, h3⟩
  intro x hx
  rcases h2 x hx with h | ⟨pos, d, ⟨i, f, index, begin_, p, g1, g2, g3, g4, g5⟩, k⟩
  · exact .inl h
  · right
    refine ⟨pos, d, ?_, k⟩
    have ht := traced hP
    have hlt : i < P.world.peers.length := by
      rcases Nat.lt_or_ge i P.world.peers.length with h | h
      · exact h
      · have := ht.silent i h
        have hm : RunEv.received f ∈ eventsOf P.world.trace i := by
          simp only [eventsOf, List.mem_filterMap]
          exact ⟨(i, .received f), g1, by simp⟩
        rw [this] at hm
        cases hm
    obtain ⟨ip, wire, rest, k1, k2, k3, k4, k5, k6⟩ := ht.peers i hlt
    have hc := k6 [] .nil
    rw [List.append_nil] at hc
    obtain ⟨a, hdr, b, c1, c2, c3⟩ := CutFrom.mem hc f (by
      simp only [heard, eventsOf, List.mem_filterMap]
      exact ⟨.received f, ⟨(i, .received f), g1, by simp⟩, rfl⟩)
    obtain ⟨xs, ys, e1, e2, e3, e4, e5⟩ := hear_piece g2
    obtain ⟨_, htab, _⟩ := C35_table _ _ hpieces
    obtain ⟨hi, _⟩ := List.getElem?_eq_some_iff.1 g3
    obtain ⟨p', q1, _, q2, _⟩ := htab index hi
    rw [g3] at q1
    cases q1
    refine ⟨ip, wire, rest, index, begin_, ?_, ?_, ?_, ?_, ?_, g5⟩
    · have : (P.addrs.zip P.wires)[i]? = some (ip, wire) := by
        rw [List.getElem?_zip_eq_some]
        exact ⟨k1, k2⟩
      exact List.mem_of_getElem? this
    · refine named_spec k4 k3 ?_
      intro u huu
      exact ((C48_trackers S.sha1 os mi root disk0 disk S.t hn).2 u).1 (hu u huu)
    · rw [← hhash]
      exact greeted_spec k5 (by rw [hhash]; exact hh)
    · refine ⟨a, hdr, xs, ys, b, ?_, c2, ?_, e2, e3, e4, e5⟩
      · rw [c1, e1]; simp
      · rw [c3, e1]
        simp only [List.length_cons, List.length_append, e2, e3]
        omega
    · rw [← q2, g4]

/-- C136: the whole program is made of its parts. What holds for every execution of the manager (C61 to C65, C70, …) and for every execution of the
peers and the writer (C74 to C79, …) holds for it. -/
theorem C136_parts (S : JobSetup) (disk : Disk) (P : Prog) (hP : Prog.Reachable S disk P) :
    Mgr.Reachable S.urls.length 0 P.mgr ∧ World.Reachable S.sha1 S.t (newPeer S.t) disk P.world ∧ P.mgr.buffer = P.world.buffer ∧
    P.mgr.inHand = P.world.inHand ∧ P.mgr.closed = P.world.closed ∧ P.mgr.cancelled = P.world.cancelled ∧ P.mgr.written = P.world.written :=
  have h := progJoined hP
  ⟨h.mgr, h.world, h.buffer, h.inHand, h.closed, h.cancelled, h.written⟩

end Gotit.Props
