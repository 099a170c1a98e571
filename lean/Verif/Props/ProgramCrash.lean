import Verif.Props.ProgramAny
import Verif.Props.TrackerCrash
import Verif.Props.WorldCrash
import Verif.Props.ManagerRun
/-
  C137: crashes of the whole program.
-/
namespace Gotit.Props
open Gotit Gotit.Spec

/-- The text of the panic of a wait group. -/
def reusedText : String := "sync: WaitGroup is reused before previous Wait has returned"

/-- C137, exact until the download is cancelled: whatever trackers, peers, disk and scheduler do, the program has crashed (one of its
goroutines other than the display, for which see C137_shown_partial) if and only if a peer sent a
message that is too short for its type or names a piece that does not exist, or `Download` found its wait group in use again when it woke up, or an
HTTP tracker of the torrent sent one of the replies of C148.
Missing: that it does not crash in these cases (see the theorems below and C148_violated: all occur). -/
theorem C137_exact_partial (S : JobSetup) (os : Os) (mi : Metainfo) (root : Bytes) (disk0 disk : Disk) (hm : Measured mi)
    (hn : newTorrent S.sha1 os mi root disk0 = (.ok S.t, disk)) (P : Prog) (hP : Prog.Reachable S disk P) (hc : P.mgr.cancelled = false) :
    ¬ P.alive ↔ (∃ i f, (i, RunEv.received f) ∈ P.world.trace ∧ Poison S.t.pieces.length f) ∨ P.mgr.panicked = some reusedText ∨
      ∃ u r, P.fatal = some (u, r) ∧ u ∈ S.urls ∧ DeadlyReply r := by
  have j := progJoined hP
  have fo := fatalOk hP
  have key := C74_download_partial S.sha1 os mi root disk0 disk S.t P.world hm hn j.world (j.cancelled ▸ hc)
  rw [← key]
  constructor
  · intro h
    cases hp : P.mgr.panicked with
    | none => exact .inl (fun ha => h ⟨hp, ha⟩)
    | some r =>
      rcases C70_partial j.mgr hc r hp with rfl | rfl
      · exact .inr (.inl rfl)
      · obtain ⟨u, x, hf⟩ := fo.known hp
        exact .inr (.inr ⟨u, x, hf, (fo.fatal u x hf).2.1, (fo.fatal u x hf).2.2.2⟩)
  · rintro (h | h | ⟨u, x, hf, _⟩) ha
    · exact h ha.2
    · rw [ha.1] at h; cases h
    · have := (fo.fatal u x hf).1
      rw [ha.1] at this; cases this

/-- C137, in general: before or after an interrupt there are six ways to crash, besides the display. Three of them are those of `C137_exact_partial`; the
others need that `Download` has returned: a `Run` that goes on sends to the closed channel, `Stop` closes a peer that has no connection, a tracker's
goroutine adds a peer to the map that `Stop` has removed. -/
theorem C137_causes_partial (S : JobSetup) (os : Os) (mi : Metainfo) (root : Bytes) (disk0 disk : Disk) (hm : Measured mi)
    (hn : newTorrent S.sha1 os mi root disk0 = (.ok S.t, disk)) (P : Prog) (hP : Prog.Reachable S disk P) (h : ¬ P.alive) :
    (∃ i f, (i, RunEv.received f) ∈ P.world.trace ∧ Poison S.t.pieces.length f) ∨ P.mgr.panicked = some reusedText ∨
    (∃ u r, P.fatal = some (u, r) ∧ u ∈ S.urls ∧ DeadlyReply r) ∨
    (P.mgr.cancelled = true ∧ (P.mgr.closed = true ∧ (∃ x ∈ P.world.peers, x.2.loc = .panicked) ∨
      P.mgr.panicked = some "nil pointer dereference" ∨ P.mgr.panicked = some "assignment to entry in nil map")) := by
  have j := progJoined hP
  cases hc : P.mgr.cancelled with
  | false =>
    rcases (C137_exact_partial S os mi root disk0 disk hm hn P hP hc).1 h with h | h | h
    · exact .inl h
    · exact .inr (.inl h)
    · exact .inr (.inr (.inl h))
  | true =>
    cases hp : P.mgr.panicked with
    | none =>
      have hd := C107_partial S.sha1 os mi root disk0 disk S.t P.world hm hn j.world
      have : ∃ x ∈ P.world.peers, x.2.loc = .panicked := by
        apply Classical.byContradiction
        intro hno
        exact h ⟨hp, hd, fun x hx hl => hno ⟨x, hx, hl⟩⟩
      obtain ⟨x, hx, hl⟩ := this
      cases hcl : P.world.closed with
      | true => exact .inr (.inr (.inr ⟨rfl, .inl ⟨j.closed.trans hcl, x, hx, hl⟩⟩))
      | false =>
        obtain ⟨g1, _, g3⟩ := world_proj j.world x hx
        obtain ⟨f, k1, k2⟩ := (C74_crash_iff_partial S.sha1 S.t (newPeer S.t) x.2 g1 (by
          cases h' : x.2.closed with
          | false => rfl
          | true => rw [g3 h'] at hcl; cases hcl)).1 hl
        obtain ⟨i, hi, rfl⟩ := List.getElem_of_mem hx
        obtain ⟨_, t2⟩ := world_trace j.world
        rw [t2 i P.world.peers[i].1 P.world.peers[i].2 (by rw [List.getElem?_eq_getElem hi]), List.mem_filterMap] at k1
        obtain ⟨⟨i', e⟩, h1, h2⟩ := k1
        simp only at h2
        split at h2
        · cases h2; exact .inl ⟨i', f, h1, k2⟩
        · cases h2
    | some r =>
      have key : ∀ P, Prog.Reachable S disk P → ∀ r, P.mgr.panicked = some r →
          r = reusedText ∨ r = "nil pointer dereference" ∨ r = "assignment to entry in nil map" ∨ r = "panic in Announce" := by
        intro P hP
        induction hP with
        | start => intro r hr; cases hr
        | @step P P' hP st ih =>
          intro r hr
          cases st with
          | manager ha hpr =>
            rcases C63_causes_partial (progJoined hP).mgr ha.1 hpr.step r hr with h | h | h | h | h
            · exact absurd (hr.trans (by rw [h.1])) hpr.panicked.1
            · exact .inr (.inl h.1)
            · exact .inr (.inr (.inl h.1))
            · exact .inl h.1
            · exact .inr (.inr (.inr h.1))
          | peer => exact ih r (((afterEvents_same _ _).2.2.2.2.2.1).symm.trans hr)
          | announceCrash => cases hr; exact .inr (.inr (.inr rfl))
          | announceCrashUdp => cases hr; exact .inr (.inr (.inr rfl))
          | _ => exact ih r hr
      rcases key P hP r hp with rfl | rfl | rfl | rfl
      · exact .inr (.inl rfl)
      · exact .inr (.inr (.inr ⟨rfl, .inr (.inl rfl)⟩))
      · exact .inr (.inr (.inr ⟨rfl, .inr (.inr rfl)⟩))
      · obtain ⟨u, x, hf⟩ := (fatalOk hP).known hp
        exact .inr (.inr (.inl ⟨u, x, hf, ((fatalOk hP).fatal u x hf).2.1, ((fatalOk hP).fatal u x hf).2.2.2⟩))

/-- C137: until the download is cancelled, trackers alone crash the program exactly by the replies of C148: for everything else it takes a peer that has
introduced itself. -/
theorem C137_trackers_partial (S : JobSetup) (os : Os) (mi : Metainfo) (root : Bytes) (disk0 disk : Disk) (hm : Measured mi)
    (hn : newTorrent S.sha1 os mi root disk0 = (.ok S.t, disk)) (P : Prog) (hP : Prog.Reachable S disk P) (hc : P.mgr.cancelled = false)
    (hp : P.world.peers = []) : ¬ P.alive ↔ ∃ u r, P.fatal = some (u, r) ∧ u ∈ S.urls ∧ DeadlyReply r := by
  refine ⟨fun h => ?_, fun h => (C137_exact_partial S os mi root disk0 disk hm hn P hP hc).2 (.inr (.inr h))⟩
  have inv : P.world.peers = [] → P.mgr.wg = 0 ∧ P.mgr.main ≠ .waitBlocked ∧ P.mgr.main ≠ .waitWoken ∧ P.mgr.panicked ≠ some reusedText := by
    clear h hp hc
    induction hP with
    | start => intro _; exact ⟨rfl, by simp [Prog.start, Mgr.start], by simp [Prog.start, Mgr.start], by simp [Prog.start, Mgr.start]⟩
    | @step P P' hP st ih =>
      cases st with
      | manager ha hpr =>
        intro hp
        obtain ⟨h1, h2, h3, h4⟩ := ih hp
        refine ⟨hpr.wg.trans h1, ?_⟩
        have hst := hpr.step
        cases hst <;> simp_all [reusedText, wakeIfZero]
      | connected => intro hp; simp at hp
      | peer _ _ hi =>
        intro hp
        have : P.world.peers = [] := by
          have := congrArg List.length hp
          simp only [List.length_set, List.length_nil] at this
          exact List.length_eq_zero_iff.1 this
        rw [this] at hi; cases hi
      | peerEnds _ _ _ _ hi =>
        intro hp
        simp only at hp
        rw [hp] at hi; cases hi
      | close => intro hp; obtain ⟨h1, _, _, h4⟩ := ih hp; exact ⟨h1, by simp, by simp, h4⟩
      | announceCrash => intro hp; obtain ⟨h1, h2, h3, _⟩ := ih hp; exact ⟨h1, h2, h3, by simp [reusedText]⟩
      | announceCrashUdp => intro hp; obtain ⟨h1, h2, h3, _⟩ := ih hp; exact ⟨h1, h2, h3, by simp [reusedText]⟩
      | _ => exact ih
  rcases (C137_exact_partial S os mi root disk0 disk hm hn P hP hc).1 h with ⟨i, f, h1, _⟩ | h1 | h1
  · have := (world_trace (progJoined hP).world).1 _ h1
    rw [hp] at this
    exact absurd this (Nat.not_lt_zero _)
  · exact absurd h1 (inv hp).2.2.2
  · exact h1

/-- A peer that waits to be unchoked. -/
theorem at_reading (sha1 : Bytes → Bytes) (t : Torrent) (disk : Disk) (hd : t.downloaded.all = false) :
    ∃ r, At sha1 t (newPeer t) disk r [] none ⟨disk, t.downloaded, 0⟩ [] [(0, .sent interestedMessage)] ∧ r.loc = .unchokeRead := by
  obtain ⟨r, a0, a1, a2, a3⟩ := At.start (sha1 := sha1) (t := t) (p0 := newPeer t) (disk := disk) rfl
  have s1 := a0.silent (.ctxOk a1 rfl) rfl (by simp [Run.goto])
  have s2 := s1.silent (.notDone rfl hd) rfl (by simp [Run.goto])
  have s3 := s2.silent (.notDue rfl) rfl (by simp [Run.goto])
  have s4 := s3.silent (.choked rfl a2) rfl (by simp [Run.goto])
  have s5 := s4.silent (.uCtxOk rfl rfl) rfl (by simp [Run.goto])
  exact ⟨_, s5.quiet [.sent interestedMessage] (.uSent rfl) rfl (by simp [quietEv]) (by simp [Run.emit]), rfl⟩

theorem one_queue {W : World} {r : Run} (h : W.peers = [(0, r)]) : ∀ (i q : Nat) (x : Run), W.peers[i]? = some (q, x) → q = i := by
  intro i q x hi
  rw [h] at hi
  cases i with
  | zero => simp at hi; exact hi.1.symm
  | succ i => simp at hi

/-- C137 is false of the code: one message of a peer that a tracker named is enough. The message is any of those of C74. -/
theorem C137_violated (S : JobSetup) (disk : Disk) (ipOf : Nat → AddrPort) (reply : Nat → HttpReply) (hs : Supply S ipOf reply 1)
    (hh : S.t.hash.length = 20) (hd : S.t.downloaded.all = false) (f : Bytes) (hf : Poison S.t.pieces.length f) (hl : f.length < 2 ^ 32) :
    ∃ P, Prog.Reachable S disk P ∧ P.mgr.cancelled = false ∧ P.world.trace = [(0, .sent interestedMessage), (0, .received f)] ∧ ¬ P.alive := by
  obtain ⟨r, ⟨W, hW, s⟩, h1⟩ := at_reading S.sha1 S.t disk hd
  obtain ⟨r', st, hr'⟩ : ∃ r', Run.Step S.sha1 S.t (r.sync W) r' ∧ r' = (r.sync W).handle S.sha1 S.t f true := ⟨_, .uRead f h1, rfl⟩
  have hpan : r'.loc = .panicked := by
    have := (handle_panic_iff S.sha1 S.t (r.sync W).peer f).2 hf
    rw [hr']
    unfold Run.handle
    simp only
    cases hr : (newPeerMessage f).bind ((r.sync W).peer.handlePeerMessage S.sha1 S.t) with
    | ok x => rw [hr] at this; simp [Res.isPanic] at this
    | err e => rfl
    | panic e => rfl
  have hlog : r'.log = r.log ++ [.received f] := by rw [hr']; exact (handle_frame _ _ _ _ _).1
  have hW' := hW.step (.peer (i := 0) (q := 0) s.isAlive (by rw [s.peers]; rfl) st hlog (quiet_effects (by simp [quietEv])))
  obtain ⟨P, hP, hw⟩ := C136_any hs hh hW' (one_queue (r := r') (by simp [s.peers])) (by
    intro i g hg
    simp only [s.trace, List.map_cons, List.map_nil] at hg
    simp at hg
    rw [hg.2]; exact hl) (by simp [s.peers])
  refine ⟨P, hP, ?_, ?_, ?_⟩
  · rw [(progJoined hP).cancelled, hw]; exact s.cancelled
  · rw [hw]; simp [s.trace]
  · intro ha
    have := ha.2
    rw [hw] at this
    exact this.2 (0, r') (by simp [s.peers]) hpan

/-- C137 is false of the code even if every peer sends nothing but verified pieces: an interrupt while a peer is about to send one. -/
theorem C137_send_violated (S : JobSetup) (disk : Disk) (ipOf : Nat → AddrPort) (reply : Nat → HttpReply) (hs : Supply S ipOf reply 1)
    (hh : S.t.hash.length = 20) (hd : S.t.downloaded.all = false) (f : Bytes) (m : PeerMessage) (hf : newPeerMessage f = .ok m) (ht : m.type = pieceType)
    (ha : acceptPiece S.sha1 S.t m = .ok (some m)) (hl : f.length < 2 ^ 32) :
    ∃ P, Prog.Reachable S disk P ∧ P.world.trace = [(0, .sent interestedMessage), (0, .received f)] ∧ P.mgr.closed = true ∧ ¬ P.alive := by
  obtain ⟨r, ⟨W, hW, s⟩, h1⟩ := at_reading S.sha1 S.t disk hd
  have hal := s.isAlive
  have w1 := hW.step (.cancel hal)
  have w2 := w1.step (.close hal rfl)
  have hh' : ∀ s : Run, s.handle S.sha1 S.t f true = gotPiece s m f := by
    intro s
    unfold Run.handle gotPiece
    rw [hf]
    simp [Res.bind, Peer.handlePeerMessage, ht, ha, keepaliveType, bitfieldType, haveType, interestedType, notInterestedType, chokeType, unchokeType, pieceType]
  have hstep : ∀ s : Run, s.loc = .unchokeRead → Run.Step S.sha1 S.t s (gotPiece s m f) := by
    intro s hs
    rw [← hh' s]
    exact .uRead f hs
  have w3 := w2.step (.peer (i := 0) (q := 0) (r := r) (es := [.received f]) hal (by simp only [s.peers]; rfl) (hstep _ h1) rfl
    (quiet_effects (by simp [quietEv])))
  have w4 := w3.step (.peer (i := 0) (q := 0) (es := []) ⟨s.dead, by simp [s.peers, gotPiece]⟩ (by simp [s.peers]; rfl) (.deliverClosed rfl rfl) (by simp [Run.goto, Run.sync]) .nil)
  obtain ⟨P, hP, hw⟩ := C136_any hs hh w4 (one_queue (by simp only [s.peers, List.set_cons_zero]; rfl)) (by
    intro i g hg
    simp only [s.trace, List.map_cons, List.map_nil, List.append_nil] at hg
    simp at hg
    rw [hg.2]; exact hl) (by simp [s.peers])
  refine ⟨P, hP, ?_, ?_, ?_⟩
  · rw [hw]; simp [s.trace]
  · rw [(progJoined hP).closed, hw]
  · intro ha
    have := ha.2
    rw [hw] at this
    exact this.2 (0, _) (by simp only [s.peers, List.set_cons_zero]; exact List.mem_cons_self) rfl

/-- A step of a peer that does not touch its connection. -/
theorem lifted_silent {S : JobSetup} {disk : Disk} {ipOf : Nat → AddrPort} {N : Nat} {w : MainLoc} {W : World} {P : Prog} {i q : Nat} {r r' : Run}
    {es : List RunEv} (h : Lifted S disk ipOf N w (fun _ => []) W P) (ha : W.alive) (hi : W.peers[i]? = some (q, r))
    (st : Run.Step S.sha1 S.t (r.sync W) r') (hlog : r'.log = r.log ++ es) (hes : ∀ e ∈ es, ∃ m, e = .sendFailed m) :
    ∃ P', Lifted S disk ipOf N w (fun _ => []) { W with peers := W.peers.set i (q, r'), trace := W.trace ++ es.map (fun e => (i, e)) } P' ∧
      P'.runs = P.runs ∧ P'.mgr.wg = P.mgr.wg := by
  have hc : connFor es = [] := by
    induction es with
    | nil => rfl
    | cons e es ih =>
      obtain ⟨m, rfl⟩ := hes e (by simp)
      clear ih hlog
      induction es with
      | nil => rfl
      | cons e es ih =>
        obtain ⟨m', rfl⟩ := hes e (by simp)
        simp only [connFor] at ih ⊢
        exact ih (fun x hx => hes x (by simp at hx ⊢; rcases hx with h | h <;> simp [h]))
  refine lifted_peer (rest := fun _ => []) (fun f hf => ?_) ?_ ha hi st hlog (quiet_effects (fun e he => ?_))
  · obtain ⟨m, hm⟩ := hes _ hf
    cases hm
  · have : (fun j => if j = i then connFor es ++ (fun _ => ([] : List Ev)) i else (fun _ => []) j) = fun _ => [] := by
      funext j
      simp [hc]
    rw [this]; exact h
  · obtain ⟨m, rfl⟩ := hes e he
    rfl

/-- C137 is false of the code even if nobody interrupts it and no peer ever sends anything: the connection of a peer breaks, `Run` ends, and before
`Download` is awake the next peer is started. -/
theorem C137_wait_violated (S : JobSetup) (disk : Disk) (ipOf : Nat → AddrPort) (reply : Nat → HttpReply) (hs : Supply S ipOf reply 2)
    (hh : S.t.hash.length = 20) (hd : S.t.downloaded.all = false) :
    ∃ P, Prog.Reachable S disk P ∧ P.mgr.cancelled = false ∧ P.world.trace = [(0, .sendFailed keepaliveMessage)] ∧ P.world.alive ∧
      P.mgr.panicked = some reusedText := by
  obtain ⟨P0, l0, u0, v0⟩ := lifted_start (disk := disk) (rest := fun _ => []) hs
  have al0 : (World.start S.t disk).alive := ⟨rfl, fun x hx => by cases hx⟩
  obtain ⟨P1, l1, u1, v1⟩ := lifted_spawn hs hh l0 al0 (by simp [World.start])
  rw [u0] at u1
  rw [v0] at v1
  have al1 : ({ World.start S.t disk with peers := (World.start S.t disk).peers ++ [((World.start S.t disk).peers.length, Run.start (newPeer S.t))] } : World).alive := by
    refine ⟨rfl, fun x hx => ?_⟩
    simp only [World.start, List.nil_append, List.mem_singleton] at hx
    rw [hx]; intro e; cases e
  have l2 := lifted_main (w' := .waitBlocked) l1 al1 rfl (fun l => by simp) (fun hm => .waitBlock l1.panicked hm (by rw [v1]; decide))
  generalize hP2 : ({ P1 with mgr := { P1.mgr with main := .waitBlocked } } : Prog) = P2 at l2
  have u2 : P2.runs = [0] := by subst hP2; exact u1
  have v2 : P2.mgr.wg = 1 := by subst hP2; exact v1
  obtain ⟨P3, l3, u3, v3⟩ := lifted_silent (i := 0) (q := 0) (es := []) l2 al1 rfl (.ctxOk rfl rfl) (by simp [Run.goto, Run.sync]) (by simp)
  have al3 := al1.1
  obtain ⟨P4, l4, u4, v4⟩ := lifted_silent (i := 0) (q := 0) (es := []) l3 ⟨rfl, by simp [World.start, Run.goto]⟩ rfl (.notDone rfl hd)
    (by simp [Run.goto, Run.sync]) (by simp)
  obtain ⟨P5, l5, u5, v5⟩ := lifted_silent (i := 0) (q := 0) (es := [.sendFailed keepaliveMessage]) l4 ⟨rfl, by simp [World.start, Run.goto]⟩ rfl (.keepFail rfl)
    rfl (by simp)
  obtain ⟨W5, l5', al5, hcl5, htr5, hca5, r5, hp5, hr5⟩ : ∃ W5 : World, Lifted S disk ipOf 2 .waitBlocked (fun _ => []) W5 P5 ∧ W5.alive ∧
      W5.closed = false ∧ W5.trace = [(0, .sendFailed keepaliveMessage)] ∧ W5.cancelled = false ∧ ∃ r : Run, W5.peers = [(0, r)] ∧ r.loc = .returned :=
    ⟨_, l5, ⟨rfl, by simp [World.start, Run.emit]⟩, rfl, rfl, rfl, _, rfl, rfl⟩
  have u5' : P5.runs = [] ++ 0 :: [] := by rw [u5, u4, u3, u2]; rfl
  have v5' : P5.mgr.wg = 1 := by rw [v5, v4, v3, v2]
  obtain ⟨p, hp⟩ : ∃ p, P5.mgr.running = [] ++ p :: [] := by
    have := (progJoined l5'.reach).runs
    rw [u5'] at this
    match hrun : P5.mgr.running, this with
    | [p], _ => exact ⟨p, rfl⟩
  have hm5 : P5.mgr.main = .waitBlocked := by rw [l5'.main, hcl5]; rfl
  have r6 := l5'.reach.step (.peerEnds (i := 0) (q := 0) (r := r5) (l5'.alive al5) u5' hp rfl (by rw [l5'.world, hp5]; rfl) hr5)
  generalize hP6 : ({ P5 with
        mgr := { P5.mgr with running := [] ++ [], wg := P5.mgr.wg - 1, main := wakeIfZero (P5.mgr.wg - 1) P5.mgr.main }
        runs := [] ++ [] } : Prog) = P6 at r6
  have l6 : Lifted S disk ipOf 2 .waitWoken (fun _ => []) W5 P6 := by
    subst hP6
    exact {
      reach := r6, world := l5'.world, main := (by simp [v5', hm5, hcl5, wakeIfZero]), free := (fun l => by simp), trackers := l5'.trackers,
      fresh := l5'.fresh, conns := l5'.conns, runs := (fun i q x hi hx => by
        rw [hp5] at hi
        cases i with
        | zero => simp at hi; rw [← hi.2] at hx; exact absurd hr5 hx
        | succ i => simp at hi),
      pool := l5'.pool, contacts := l5'.contacts, conn := l5'.conn, linked := l5'.linked, writer := l5'.writer, panicked := l5'.panicked }
  obtain ⟨P7, l7, _, v7⟩ := lifted_spawn hs hh l6 al5 (by rw [hp5]; simp)
  have al7 : ({ W5 with peers := W5.peers ++ [(W5.peers.length, Run.start (newPeer S.t))] } : World).alive := by
    refine ⟨al5.1, fun x hx => ?_⟩
    rcases List.mem_append.1 hx with hx | hx
    · exact al5.2 x hx
    · rw [List.mem_singleton.1 hx]; intro e; cases e
  have hm7 : P7.mgr.main = .waitWoken := by rw [l7.main]; simp only [hcl5]; rfl
  have r8 := l7.reach.step (.manager (σ' := { P7.mgr with panicked := some reusedText }) (l7.alive al7)
    ⟨.waitReused l7.panicked hm7 (by rw [v7]; omega), by simp [reusedText], rfl, rfl, rfl, rfl, rfl, rfl, rfl, rfl, rfl, rfl, replies_same _⟩)
  refine ⟨_, r8, ?_, ?_, ?_, rfl⟩
  · rw [(progJoined r8).cancelled]
    show P7.world.cancelled = _
    rw [l7.world]; exact hca5
  · show P7.world.trace = _
    rw [l7.world]; exact htr5
  · show P7.world.alive
    rw [l7.world]; exact al7

/-- C137 is false of the code: one peer cannot be reached, and then the program is interrupted. -/
theorem C137_close_violated (S : JobSetup) (disk : Disk) (ipOf : Nat → AddrPort) (reply : Nat → HttpReply) (hs : Supply S ipOf reply 1) :
    ∃ P, Prog.Reachable S disk P ∧ P.world.peers = [] ∧ P.mgr.panicked = some "nil pointer dereference" := by
  obtain ⟨u, tail, hu, hk⟩ := hs.url
  obtain ⟨ht, ht', hr⟩ := hs.good 0 (by omega)
  obtain ⟨P, h, _, h0⟩ := lifted_start (disk := disk) (rest := fun _ => []) hs
  obtain ⟨b, hb⟩ := h.trackers
  have hal : P.alive := h.alive ⟨rfl, fun x hx => by cases hx⟩
  have hpan := h.panicked
  have hpool : P.mgr.pool = some [] := by
    obtain ⟨l, h1, h2⟩ := h.pool
    cases l with
    | nil => exact h1
    | cons x l => obtain ⟨i, hi, _⟩ := h2 x (by simp); exact absurd hi (Nat.not_lt_zero _)
  have hc : P.contacts (S.name (ipOf 0)) = untouched := h.contacts 0 (Nat.le_refl _) (by omega)
  have hcf : P.mgr.conn (S.name (ipOf 0)) = false := h.conn 0 (Nat.le_refl _) (by omega)
  have hm : P.mgr.main = .waitPeers := h.main
  have hlock : P.mgr.locked = false := by simp [Mgr.locked, hm]
  have hw := h.world
  have r1 := h.reach.step (.announcedHttp (a := []) (b := b) (u := u) (addrs := [ipOf 0]) (r := reply 0) ht ht' hal hb (by rw [hu]; rfl) hk hr)
  simp only [List.map_cons, List.map_nil, List.nil_append, List.length_nil] at r1
  generalize S.name (ipOf 0) = ip at *
  generalize hP1 : ({ P with
      mgr := { P.mgr with trackers := .adding [ip] :: b }, queue := (fun k => if k = 0 then P.fresh else P.queue k),
      fresh := P.fresh + 1, replies := P.replies ++ [(u, reply 0)] } : Prog) = P1 at r1
  have r2 := r1.step (.manager (σ' := { P1.mgr with
      trackers := [] ++ .connecting ip [] :: b, pool := some [ip], peerNum := P1.mgr.peerNum + 1,
      conn := fun x => if x = ip then false else P1.mgr.conn x, adds := P1.mgr.adds ++ [(ip, true)] }) (by subst hP1; exact hal)
    ⟨.addNew (a := []) (b := b) (by subst hP1; exact hpan) (by subst hP1; rfl) (by subst hP1; exact hlock) (by subst hP1; exact hpool) (by simp),
      by subst hP1; simp [hpan], rfl, rfl, by
        funext x
        simp only
        by_cases he : x = ip
        · rw [if_pos he, he]; subst hP1; exact hcf.symm
        · rw [if_neg he], rfl, rfl, rfl, rfl, rfl, rfl, rfl,
      replies_set (y := .adding [ip]) (by subst hP1; rfl) (.inl (by simp))⟩)
  have r3 := r2.step (.attempt (a := []) (b := b) (ip := ip) (ips := []) { dial := some "refused", write := none, evs := [] } (by subst hP1; exact hal)
    rfl (by subst hP1; simp only; rw [hc]; rfl) (by subst hP1; simp only; rw [hc]; simp [untouched]) (fun _ => by simp))
  have r4 := r3.step (.cancel (by subst hP1; exact hal))
  have r5 := r4.step (.connectFailed (a := []) (b := b) (ip := ip) (ips := []) (by subst hP1; exact hal) rfl (by
    simp [peerAnnounce, Res.isOk]) (.inr rfl))
  generalize hP5 : ({ P1 with
      mgr := { P1.mgr with
        trackers := [] ++ .adding [] :: b, pool := some [ip], peerNum := P1.mgr.peerNum + 1 - 1,
        conn := fun x => if x = ip then false else if x = ip then false else P1.mgr.conn x, adds := P1.mgr.adds ++ [(ip, true)], cancelled := true,
        failed := P1.mgr.failed ++ [ip] } } : Prog).mgr = σ5
  have e5 : _ = σ5 := hP5
  have r6 := r5.step (.manager (σ' := { σ5 with main := .waitCtx }) (by subst hP1; exact hal)
    ⟨by rw [← hP5]; exact .waitNow (by subst hP1; exact hpan) (by subst hP1; exact hm) (by subst hP1; exact h0), by rw [← hP5]; subst hP1; simp [hpan],
      by rw [← hP5], by rw [← hP5], by rw [← hP5]; rfl, by rw [← hP5], by rw [← hP5], by rw [← hP5], by rw [← hP5], by rw [← hP5], by rw [← hP5], by rw [← hP5],
      by rw [← hP5]; exact replies_same _⟩)
  have hpan5 : σ5.panicked = none := by rw [← hP5]; subst hP1; exact hpan
  have r7 := r6.step (.manager (σ' := { σ5 with main := .closing }) (by subst hP1; exact ⟨hpan5, hal.2⟩)
    ⟨.ctxDone hpan5 rfl (by rw [← hP5]), by simp [hpan5], rfl, rfl, rfl, rfl, rfl, rfl, rfl, rfl, rfl, rfl, replies_same _⟩)
  have r8 := r7.step (.close (by subst hP1; exact ⟨hpan5, hal.2⟩) rfl)
  have r9 := r8.step (.manager (σ' := { σ5 with main := .stopLock, closed := true, cancelled := true }) (by subst hP1; exact ⟨hpan5, hal.2⟩)
    ⟨.stopCancel hpan5 rfl, by simp [hpan5], rfl, rfl, rfl, rfl, by rw [← hP5], rfl, rfl, rfl, rfl, rfl, replies_same _⟩)
  have r10 := r9.step (.manager (σ' := { σ5 with main := .stopClose [ip], closed := true, cancelled := true }) (by subst hP1; exact ⟨hpan5, hal.2⟩)
    ⟨.stopLock (l := [ip]) hpan5 rfl (by rw [← hP5]) (List.Perm.refl _), by simp [hpan5], rfl, rfl, rfl, rfl, rfl, rfl, rfl, rfl, rfl, rfl, replies_same _⟩)
  have r11 := r10.step (.manager (σ' := { σ5 with main := .stopClose [ip], closed := true, cancelled := true, panicked := some "nil pointer dereference" })
    (by subst hP1; exact ⟨hpan5, hal.2⟩)
    ⟨.stopNilConn (a := ip) (rest := []) hpan5 rfl (by rw [← hP5]; simp), by simp, rfl, rfl, rfl, rfl, rfl, rfl, rfl, rfl, rfl, rfl, replies_same _⟩)
  refine ⟨_, r11, ?_, rfl⟩
  subst hP1
  show P.world.peers = []
  rw [hw]; rfl

/-- C137 is false of the code: a tracker answers just after the program was interrupted. -/
theorem C137_map_violated (S : JobSetup) (disk : Disk) (ipOf : Nat → AddrPort) (reply : Nat → HttpReply) (hs : Supply S ipOf reply 1) :
    ∃ P, Prog.Reachable S disk P ∧ P.world.peers = [] ∧ P.mgr.panicked = some "assignment to entry in nil map" := by
  obtain ⟨u, tail, hu, hk⟩ := hs.url
  obtain ⟨ht, ht', hr⟩ := hs.good 0 (by omega)
  obtain ⟨P, h, _, h0⟩ := lifted_start (disk := disk) (rest := fun _ => []) hs
  obtain ⟨b, hb⟩ := h.trackers
  have hal : P.alive := h.alive ⟨rfl, fun x hx => by cases hx⟩
  have hpan := h.panicked
  have hpool : P.mgr.pool = some [] := by
    obtain ⟨l, h1, h2⟩ := h.pool
    cases l with
    | nil => exact h1
    | cons x l => obtain ⟨i, hi, _⟩ := h2 x (by simp); exact absurd hi (Nat.not_lt_zero _)
  have hw := h.world
  have r1 := h.reach.step (.cancel hal)
  have r2 := r1.step (.manager (σ' := { P.mgr with cancelled := true, main := .waitCtx }) hal
    ⟨.waitNow hpan h.main h0, by simp [hpan], rfl, rfl, rfl, rfl, rfl, rfl, rfl, rfl, rfl, rfl, replies_same _⟩)
  have r3 := r2.step (.manager (σ' := { P.mgr with cancelled := true, main := .closing }) hal
    ⟨.ctxDone hpan rfl rfl, by simp [hpan], rfl, rfl, rfl, rfl, rfl, rfl, rfl, rfl, rfl, rfl, replies_same _⟩)
  have r4 := r3.step (.close hal rfl)
  have r5 := r4.step (.manager (σ' := { P.mgr with cancelled := true, main := .stopLock, closed := true }) hal
    ⟨.stopCancel hpan rfl, by simp [hpan], rfl, rfl, rfl, rfl, rfl, rfl, rfl, rfl, rfl, rfl, replies_same _⟩)
  have r6 := r5.step (.manager (σ' := { P.mgr with cancelled := true, main := .stopClose [], closed := true }) hal
    ⟨.stopLock (l := []) hpan rfl hpool (List.Perm.refl _), by simp [hpan], rfl, rfl, rfl, rfl, rfl, rfl, rfl, rfl, rfl, rfl, replies_same _⟩)
  have r7 := r6.step (.manager (σ' := { P.mgr with cancelled := true, main := .stopped, closed := true, pool := none }) hal
    ⟨.stopDone hpan rfl, by simp [hpan], rfl, rfl, rfl, rfl, rfl, rfl, rfl, rfl, rfl, rfl, replies_same _⟩)
  have r8 := r7.step (.announcedHttp (a := []) (b := b) (u := u) (addrs := [ipOf 0]) (r := reply 0) ht ht' hal hb (by rw [hu]; rfl) hk hr)
  have r9 := r8.step (.manager (σ' := { P.mgr with
      cancelled := true, main := .stopped, closed := true, pool := none, trackers := [] ++ .adding ([ipOf 0].map S.name) :: b,
      panicked := some "assignment to entry in nil map" }) hal
    ⟨.addNil (a := []) (b := b) (ip := S.name (ipOf 0)) (ips := []) hpan rfl rfl rfl, by simp, rfl, rfl, rfl, rfl, rfl, rfl, rfl, rfl, rfl, rfl, replies_same _⟩)
  refine ⟨_, r9, ?_, rfl⟩
  show P.world.peers = []
  rw [hw]; rfl

/-- The response `d5:peersld2:ip1:x4:port1:6eee`. -/
theorem sixBody_good : GoodResponse (ascii "d5:peersld2:ip1:x4:port1:6eee") 0
    [.dict true [(ascii "ip", .str (ascii "x")), (ascii "port", .str (ascii "6"))] (ascii "d2:ip1:x4:port1:6e")] [(ascii "x", ascii "6")] := by
  have hi := DenotesEntries.cons _ _ _ _ _ _ (denotes_a (ascii "ip") (by decide)) (denotes_a (ascii "x") (by decide))
    (.cons _ _ _ _ _ _ (denotes_a (ascii "port") (by decide)) (denotes_a (ascii "6") (by decide)) .nil)
  have hl := DenotesSeq.cons _ _ _ _ (Denotes.dict _ _ hi) .nil
  have h := DenotesEntries.cons _ _ _ _ _ _ (denotes_a (ascii "peers") (by decide)) (Denotes.list _ _ hl) .nil
  exact ⟨_, ⟨true, _, parse_complete (.dict _ _ h) []⟩, rfl, rfl, ⟨_, _, rfl⟩, by decide⟩

/-- A download with one tracker, which can name two peers. -/
def twoPeers (t : Torrent) : JobSetup :=
  { sha1 := fun _ => List.replicate 20 1, t := t, clientId := [], parseAddr := fun _ => some (.v4 1 2 3 4), name := fun a => ascii (toString a.port),
    rest := fun _ _ _ => some [], dial := fun _ => true, urls := [ascii "http://t/a"] }

theorem twoPeers_supply (t : Torrent) : Supply (twoPeers t) (fun k => ⟨some (.v4 1 2 3 4), if k = 0 then 5 else 6⟩)
    (fun k => .reply 200 (if k = 0 then ascii "d5:peersld2:ip1:x4:port1:5eee" else ascii "d5:peersld2:ip1:x4:port1:6eee")) 2 := by
  refine ⟨⟨_, [], rfl, show trackerNew (fun _ _ _ => some []) (fun _ => true) (ascii "http://t/a") = _ by decide⟩, fun k hk => ?_, fun i j hi hj h => ?_,
    fun i hi => ?_⟩
  · rcases (by omega : k = 0 ∨ k = 1) with rfl | rfl
    · exact ⟨⟨[], [], [], 0⟩, _, (C17_success_iff_partial _ _ _ _ _).2 ⟨_, _, _, badIpBody_good, by
        simp [peerAddr, twoPeers, show portNumber (ascii "5") = some 5 from by decide], rfl⟩⟩
    · exact ⟨⟨[], [], [], 0⟩, _, (C17_success_iff_partial _ _ _ _ _).2 ⟨_, _, _, sixBody_good, by
        simp [peerAddr, twoPeers, show portNumber (ascii "6") = some 6 from by decide], rfl⟩⟩
  · rcases (by omega : i = 0 ∨ i = 1) with rfl | rfl <;> rcases (by omega : j = 0 ∨ j = 1) with rfl | rfl
    · rfl
    · exact absurd h (show ascii (toString 5) ≠ ascii (toString 6) by decide)
    · exact absurd h (show ascii (toString 6) ≠ ascii (toString 5) by decide)
    · rfl
  · rcases (by omega : i = 0 ∨ i = 1) with rfl | rfl
    · exact show ascii (toString 5) ≠ ascii (toString 0) by decide
    · exact show ascii (toString 6) ≠ ascii (toString 0) by decide

theorem Supply.less {S : JobSetup} {ipOf : Nat → AddrPort} {reply : Nat → HttpReply} {n m : Nat} (h : Supply S ipOf reply n) (hm : m ≤ n) :
    Supply S ipOf reply m :=
  ⟨h.url, fun k hk => h.good k (by omega), fun i j hi hj => h.distinct i j (by omega) (by omega), fun i hi => h.valid i (by omega)⟩

/-- All five crashes, in downloads of the same eight bytes; the theorems that say when they occur apply to them. -/
example : ∃ t disk, newTorrent (twoPeers t).sha1 goodOs (fewBytes 8 2) (ascii "/r") (fun _ => []) = (.ok (twoPeers t).t, disk) ∧ Measured (fewBytes 8 2) ∧
    (∃ P, Prog.Reachable (twoPeers t) disk P ∧ P.mgr.cancelled = false ∧ P.world.trace = [(0, .sent interestedMessage), (0, .received [4])] ∧ ¬ P.alive) ∧
    (∃ P, Prog.Reachable (twoPeers t) disk P ∧ P.world.trace = [(0, .sent interestedMessage), (0, .received (pieceFrame 0 0 [1, 2, 3, 4]))] ∧
      P.mgr.closed = true ∧ ¬ P.alive) ∧
    (∃ P, Prog.Reachable (twoPeers t) disk P ∧ P.mgr.cancelled = false ∧ P.world.alive ∧ P.mgr.panicked = some reusedText) ∧
    (∃ P, Prog.Reachable (twoPeers t) disk P ∧ P.mgr.panicked = some "nil pointer dereference") ∧
    (∃ P, Prog.Reachable (twoPeers t) disk P ∧ P.mgr.panicked = some "assignment to entry in nil map") := by
  obtain ⟨t, d', h1, h2, h3, h4, _⟩ := fewBytes_opens 8 2 (by omega) (by omega) (by omega) [1, 2, 3, 4, 5, 6, 7, 8] rfl
  have hm : Measured (fewBytes 8 2) := ⟨by decide, by decide, by decide⟩
  obtain ⟨k, k0, hdown, _⟩ := new_count h1 h2 h3 (by simp) (by simp) (by omega)
  have hall : t.downloaded.all = false := by
    cases h : t.downloaded.all with
    | false => rfl
    | true =>
      rw [BitSet.all_iff, hdown] at h
      exact absurd (h 0 k0) (by simp [BitSet.new])
  obtain ⟨_, _, _, _, _, _, _, _, hhash, _⟩ := newTorrent_ok h1
  have hh : t.hash.length = 20 := by rw [hhash]; rfl
  have hs := twoPeers_supply t
  have hs1 := hs.less (m := 1) (by omega)
  refine ⟨t, d', h1, hm, C137_violated (twoPeers t) d' _ _ hs1 hh hall [4] (by simp [Poison]) (by decide), ?_, ?_, ?_, ?_⟩
  · obtain ⟨b1, b2, -⟩ := pieceMsg_ok 0 0 [1, 2, 3, 4] (by omega) (by omega)
    exact C137_send_violated (twoPeers t) d' _ _ hs1 hh hall _ _ b1 b2 (pieceMsg_accepted h3 (by omega) (by omega) (by omega)) (by decide)
  · obtain ⟨P, g1, g2, _, g4, g5⟩ := C137_wait_violated (twoPeers t) d' _ _ hs hh hall
    exact ⟨P, g1, g2, g4, g5⟩
  · obtain ⟨P, g1, _, g2⟩ := C137_close_violated (twoPeers t) d' _ _ hs1
    exact ⟨P, g1, g2⟩
  · obtain ⟨P, g1, _, g2⟩ := C137_map_violated (twoPeers t) d' _ _ hs1
    exact ⟨P, g1, g2⟩

end Gotit.Props
