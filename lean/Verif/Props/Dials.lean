import Verif.Spec.Dials
import Verif.Props.ResponseQueue
/-
  C145: how often an address is dialled; nobody of a response keeps the others from being dealt with.
-/
namespace Gotit.Props
open Gotit Gotit.Spec

theorem peerAnnounce_conn {hash cid : Bytes} {a : Attempt} {l : Link} (h : (peerAnnounce hash cid a l).2.isOk = true) :
    ∃ k evs, (peerAnnounce hash cid a l).1.conn = some (k, evs) := by
  unfold peerAnnounce at h ⊢
  split at h
  · cases h
  · simp only at h ⊢
    split at h
    · cases h
    · split at h
      · cases h
      · cases h
      · split at h
        · rename_i hv
          rw [if_pos hv]
          exact ⟨_, _, rfl⟩
        · cases h

theorem peerAnnounce_opened (hash cid : Bytes) (a : Attempt) (l : Link) : (peerAnnounce hash cid a l).1.opened ≤ l.opened + 1 := by
  unfold peerAnnounce
  split
  · simp
  · simp only
    split
    · simp
    · split
      · simp
      · simp
      · split <;> simp

/-- The attempts of one address. -/
structure Tried (P : Prog) (ip : Bytes) (n : Nat) : Prop where
  tries : (P.contacts ip).tries = n
  few : n ≤ 5
  opened : (P.contacts ip).link.opened ≤ n
  conn : (P.contacts ip).ok = true → ∃ k evs, (P.contacts ip).link.conn = some (k, evs)
  failed : ip ∈ P.mgr.failed → P.mgr.cancelled = false → n = 5
  running : ip ∈ P.addrs → (P.contacts ip).ok = true

theorem tried_same {P P' : Prog} {ip : Bytes} {n : Nat} (h : Tried P ip n) (hc : P'.contacts ip = P.contacts ip)
    (hf : P'.mgr.failed = P.mgr.failed) (hx : P'.mgr.cancelled = P.mgr.cancelled ∨ P'.mgr.cancelled = true) (ha : P'.addrs = P.addrs) : Tried P' ip n := by
  refine ⟨by rw [hc]; exact h.tries, h.few, by rw [hc]; exact h.opened, by rw [hc]; exact h.conn, ?_, by rw [hc, ha]; exact h.running⟩
  rw [hf]
  intro h1 h2
  rcases hx with hx | hx
  · exact h.failed h1 (hx ▸ h2)
  · rw [hx] at h2; cases h2

theorem afterEvents_failed (es : List RunEv) : ∀ σ : Mgr, (σ.afterEvents es).failed = σ.failed ∧ (σ.afterEvents es).cancelled = σ.cancelled := by
  induction es with
  | nil => intro σ; exact ⟨rfl, rfl⟩
  | cons e es ih => intro σ; cases e <;> exact ih _

theorem tried_step {S : JobSetup} {P P' : Prog} (st : Prog.Step S P P') {ip : Bytes} {n : Nat} (h : Tried P ip n) :
    (P'.contacts ip = P.contacts ip ∧ Tried P' ip n) ∨ (P'.contacts ip ≠ P.contacts ip ∧ Tried P' ip (n + 1)) := by
  cases st with
  | manager _ hp => exact .inl ⟨rfl, tried_same h rfl hp.failed (.inl hp.cancelled) rfl⟩
  | cancel _ => exact .inl ⟨rfl, tried_same h rfl rfl (.inr rfl) rfl⟩
  | close _ _ => exact .inl ⟨rfl, tried_same h rfl rfl (.inl rfl) rfl⟩
  | announcedHttp _ _ _ _ _ _ _ => exact .inl ⟨rfl, tried_same h rfl rfl (.inl rfl) rfl⟩
  | announceCrash _ _ _ _ _ _ => exact .inl ⟨rfl, tried_same h rfl rfl (.inl rfl) rfl⟩
  | announceCrashUdp _ _ _ _ _ _ _ _ _ _ _ _ _ => exact .inl ⟨rfl, tried_same h rfl rfl (.inl rfl) rfl⟩
  | announcedUdp _ _ _ _ _ _ _ _ _ _ _ _ _ => exact .inl ⟨rfl, tried_same h rfl rfl (.inl rfl) rfl⟩
  | @attempt a b x ips att _ _ hok hn _ =>
    by_cases he : ip = x
    · subst he
      right
      refine ⟨?_, ?_, ?_, ?_, ?_, ?_, ?_⟩
      · intro hh
        have := congrArg Contacted.tries hh
        simp at this
      · simp [h.tries]
      · have := h.tries; omega
      · have := peerAnnounce_opened S.t.hash S.clientId att (P.contacts ip).link
        have := h.opened
        simp only [if_pos]
        omega
      · simp only [if_pos]
        intro hh
        exact peerAnnounce_conn hh
      · intro h1 h2
        have := h.failed h1 h2
        have := h.tries
        omega
      · intro h1
        have := h.running h1
        rw [hok] at this
        cases this
    · exact .inl ⟨if_neg he, tried_same h (if_neg he) rfl (.inl rfl) rfl⟩
  | @connectFailed a b x ips _ _ hok hc =>
    refine .inl ⟨rfl, h.tries, h.few, h.opened, h.conn, ?_, h.running⟩
    intro h1 h2
    rcases List.mem_append.1 h1 with h1 | h1
    · exact h.failed h1 h2
    · rw [List.mem_singleton.1 h1] at h
      rcases hc with hc | hc
      · rw [← h.tries]; exact hc
      · rw [h2] at hc; cases hc
  | @connected a b x ips k evs _ _ hok _ =>
    refine .inl ⟨rfl, h.tries, h.few, h.opened, h.conn, h.failed, ?_⟩
    intro h1
    rcases List.mem_append.1 h1 with h1 | h1
    · exact h.running h1
    · rw [List.mem_singleton.1 h1]; exact hok
  | @peer i q r r' es W' c' _ _ _ _ _ _ _ => exact .inl ⟨rfl, tried_same h rfl (afterEvents_failed es _).1 (.inl (afterEvents_failed es _).2) rfl⟩
  | peerEnds _ _ _ _ _ _ => exact .inl ⟨rfl, tried_same h rfl rfl (.inl rfl) rfl⟩
  | receive _ _ _ _ => exact .inl ⟨rfl, tried_same h rfl rfl (.inl rfl) rfl⟩
  | write _ _ _ _ => exact .inl ⟨rfl, tried_same h rfl rfl (.inl rfl) rfl⟩
  | writeCrash _ _ _ _ => exact .inl ⟨rfl, tried_same h rfl rfl (.inl rfl) rfl⟩

theorem tried_start (S : JobSetup) (disk : Disk) (ip : Bytes) : Tried (Prog.start S disk) ip 0 :=
  ⟨rfl, by omega, Nat.le_refl _, (fun h => by cases h), (fun h => by cases h), (fun h => by cases h)⟩

theorem dialled_tried {S : JobSetup} {disk : Disk} {ip : Bytes} {P : Prog} {n : Nat} (h : Dialled S disk ip P n) : Tried P ip n := by
  induction h with
  | start => exact tried_start S disk ip
  | other _ st hc ih =>
    rcases tried_step st ih with ⟨_, h⟩ | ⟨h, _⟩
    · exact h
    · exact absurd hc h
  | dial _ st hc ih =>
    rcases tried_step st ih with ⟨h, _⟩ | ⟨_, h⟩
    · exact absurd h hc
    · exact h

/-- Every state of the program is reached with some number of attempts. -/
theorem dialled_of {S : JobSetup} {disk : Disk} {P : Prog} (h : Prog.Reachable S disk P) (ip : Bytes) : ∃ n, Dialled S disk ip P n := by
  induction h with
  | start => exact ⟨0, .start⟩
  | @step P P' _ st ih =>
    obtain ⟨n, hn⟩ := ih
    by_cases he : P'.contacts ip = P.contacts ip
    · exact ⟨n, .other hn st he⟩
    · exact ⟨n + 1, .dial hn st he⟩

/-- C145: in a whole run of the program, however many trackers name an address however often, at most five attempts are made to reach it,
with at most so many connections; an address that was given up although nothing was cancelled had its five attempts; and once the
handshake has succeeded there is no further attempt. -/
theorem C145_dials (S : JobSetup) (disk : Disk) (ip : Bytes) (P : Prog) (n : Nat) (h : Dialled S disk ip P n) :
    n ≤ 5 ∧ (P.contacts ip).link.opened ≤ n ∧ (ip ∈ P.mgr.failed → P.mgr.cancelled = false → n = 5) ∧
    (ip ∈ P.addrs → ∀ P', GoesOn S P P' → P'.contacts ip = P.contacts ip) := by
  have ht := dialled_tried h
  refine ⟨ht.few, ht.opened, ht.failed, ?_⟩
  intro hr P' hs
  have key : P'.contacts ip = P.contacts ip := by
    have hok := ht.running hr
    induction hs with
    | refl => rfl
    | @step P' P'' _ st ih =>
      rw [← ih] at hok ⊢
      cases st with
      | @attempt a b x ips att _ _ hk hn _ =>
        by_cases he : ip = x
        · subst he; rw [hok] at hk; cases hk
        · exact if_neg he
      | _ => rfl
  exact key

theorem _root_.Gotit.Spec.GoesOn.trans {S : JobSetup} {a b c : Prog} (h1 : GoesOn S a b) (h2 : GoesOn S b c) : GoesOn S a c := by
  induction h2 with
  | refl => exact h1
  | step _ st ih => exact .step ih st

theorem _root_.Gotit.Spec.GoesOn.reach {S : JobSetup} {disk : Disk} {P P' : Prog} (h : GoesOn S P P') (hP : Prog.Reachable S disk P) : Prog.Reachable S disk P' := by
  induction h with
  | refl => exact hP
  | step _ st ih => exact ih.step st

/-- What the goroutine of a tracker leaves as it is. -/
structure Beside (P P' : Prog) : Prop where
  main : P'.mgr.main = P.mgr.main
  cancelled : P'.mgr.cancelled = P.mgr.cancelled
  buffer : P'.mgr.buffer = P.mgr.buffer
  out : P'.world.out = P.world.out
  alive : P.alive → P'.alive
  pool : P.mgr.pool ≠ none → P'.mgr.pool ≠ none

theorem Beside.refl (P : Prog) : Beside P P := ⟨rfl, rfl, rfl, rfl, id, id⟩
theorem Beside.trans {a b c : Prog} (h1 : Beside a b) (h2 : Beside b c) : Beside a c :=
  ⟨h2.main.trans h1.main, h2.cancelled.trans h1.cancelled, h2.buffer.trans h1.buffer, h2.out.trans h1.out, fun h => h2.alive (h1.alive h),
    fun h => h2.pool (h1.pool h)⟩

theorem Beside.after {b c : Prog} (h2 : Beside b c) {a : Prog} (h1 : Beside a b) : Beside a c := h1.trans h2

/-- An address that is being dialled is done with after some steps. -/
theorem connecting_over {S : JobSetup} {disk : Disk} {a b : List TrackerLoc} {ip : Bytes} {ips : List Bytes} :
    ∀ (m : Nat) (P : Prog), Prog.Reachable S disk P → P.alive → P.mgr.trackers = a ++ .connecting ip ips :: b → 5 - (P.contacts ip).tries = m →
      ∃ P', GoesOn S P P' ∧ Beside P P' ∧ P'.mgr.trackers = a ++ .adding ips :: b ∧ ((P.contacts ip).ok = false → ip ∈ P'.mgr.failed)
  | m, P, hP, ha, ht, hm => by
    obtain ⟨n, hn⟩ := dialled_of hP ip
    have htr := dialled_tried hn
    cases hok : (P.contacts ip).ok with
    | true =>
      obtain ⟨k, evs, hc⟩ := htr.conn hok
      refine ⟨_, .step .refl (.connected ha ht hok hc), ⟨rfl, rfl, rfl, rfl, fun _ => ⟨ha.1, ⟨ha.2.1, fun x hx => ?_⟩⟩, id⟩, rfl, fun h => by cases h⟩
      rcases List.mem_append.1 hx with hx | hx
      · exact ha.2.2 x hx
      · rw [List.mem_singleton.1 hx]
        simp [Run.start]
    | false =>
      cases m with
      | zero =>
        have h5 : (P.contacts ip).tries = 5 := by have := htr.few; have := htr.tries; omega
        exact ⟨_, .step .refl (.connectFailed ha ht hok (.inl h5)), ⟨rfl, rfl, rfl, rfl, id, id⟩, rfl, fun _ => by simp⟩
      | succ m =>
        have st := Prog.Step.attempt (S := S) (P := P) (a := a) (b := b) (ip := ip) (ips := ips) ⟨some "refused", none, []⟩ ha ht hok (by omega) (fun _ => by simp)
        obtain ⟨P', h1, h2, h3, h4⟩ := connecting_over m _ (hP.step st) ⟨ha.1, ha.2⟩ ht (by simp; omega)
        exact ⟨P', (GoesOn.step .refl st).trans h1, h2.after ⟨rfl, rfl, rfl, rfl, fun _ => ⟨ha.1, ha.2⟩, id⟩, h3, fun _ => h4 (by simp [peerAnnounce, Res.isOk])⟩

/-- An address that was not added has no connection. -/
theorem conn_unknown {n limit : Nat} {σ : Mgr} (h : Mgr.Reachable n limit σ) {x : Bytes} : x ∉ wasAdded σ.adds → σ.conn x = false := by
  induction h with
  | start => intro _; rfl
  | @step σ σ' h st ih =>
    have hi := Mgr.poolInv h
    cases st with
    | addKnown _ _ _ _ _ =>
      intro hx
      simp only [wasAdded_append, List.mem_append, not_or] at hx
      exact ih hx.1
    | addNew _ _ _ _ _ =>
      intro hx
      simp only [wasAdded_append, List.mem_append, not_or] at hx
      simp only
      split
      · rfl
      · exact ih hx.1
    | @dial a b ip ips ok _ ht =>
      intro hx
      simp only
      split
      · rename_i he
        subst he
        have h1 := hi.parts x
        have h2 : 0 < (handshaking σ.trackers).count x := by
          rw [ht, List.count_pos_iff]
          simp [handshaking]
        have h3 : 0 < (wasAdded σ.adds).count x := by omega
        exact absurd (List.count_pos_iff.1 h3) hx
      · exact ih hx
    | _ => exact ih

theorem adding_over {S : JobSetup} {disk : Disk} {a b : List TrackerLoc} :
    ∀ (ips : List Bytes) (P : Prog), Prog.Reachable S disk P → P.alive → P.mgr.trackers = a ++ .adding ips :: b → P.mgr.locked = false → P.mgr.pool ≠ none →
      ∃ P', GoesOn S P P' ∧ Beside P P' ∧ P'.mgr.trackers = a ++ .waiting :: b
  | [], P, hP, ha, ht, hl, hp => by
    refine ⟨_, .step .refl (.manager (σ' := { P.mgr with trackers := a ++ .waiting :: b }) ha
      ⟨.addedAll ha.1 ht, by simp [ha.1], rfl, rfl, rfl, rfl, rfl, rfl, rfl, rfl, rfl, rfl, replies_set ht (.inl (by simp))⟩), ⟨rfl, rfl, rfl, rfl, id, id⟩, rfl⟩
  | ip :: ips, P, hP, ha, ht, hl, hp => by
    obtain ⟨l, hpl⟩ := Option.ne_none_iff_exists'.1 hp
    by_cases hm : ip ∈ l
    · have st := Prog.Step.manager (S := S) (P := P) (σ' := { P.mgr with trackers := a ++ .adding ips :: b, adds := P.mgr.adds ++ [(ip, false)] }) ha
        ⟨.addKnown ha.1 ht hl hpl hm, by simp [ha.1], rfl, rfl, rfl, rfl, rfl, rfl, rfl, rfl, rfl, rfl, replies_set ht (.inl (by simp))⟩
      obtain ⟨P', h1, h2, h3⟩ := adding_over ips _ (hP.step st) ⟨ha.1, ha.2⟩ rfl hl hp
      exact ⟨P', (GoesOn.step .refl st).trans h1, h2.after ⟨rfl, rfl, rfl, rfl, fun _ => ⟨ha.1, ha.2⟩, id⟩, h3⟩
    · have hconn : (fun x => if x = ip then false else P.mgr.conn x) = P.mgr.conn := by
        funext x
        by_cases he : x = ip
        · subst he
          rw [if_pos rfl]
          refine (conn_unknown (progJoined hP).mgr ?_).symm
          intro hw
          exact hm (((Mgr.poolInv (progJoined hP).mgr).known l hpl x).2.2 hw)
        · rw [if_neg he]
      have st := Prog.Step.manager (S := S) (P := P) (σ' := { P.mgr with
          trackers := a ++ .connecting ip ips :: b, pool := some (ip :: l), peerNum := P.mgr.peerNum + 1,
          conn := fun x => if x = ip then false else P.mgr.conn x, adds := P.mgr.adds ++ [(ip, true)] }) ha
        ⟨.addNew ha.1 ht hl hpl hm, by simp [ha.1], rfl, rfl, hconn, rfl, rfl, rfl, rfl, rfl, rfl, rfl, replies_set ht (.inl (by simp))⟩
      obtain ⟨P1, h1, h2, h3, -⟩ := connecting_over (S := S) (disk := disk) (a := a) (b := b) (ip := ip) (ips := ips) _ _ (hP.step st) ⟨ha.1, ha.2⟩ rfl rfl
      have al1 := h2.alive ⟨ha.1, ha.2⟩
      obtain ⟨P2, g1, g2, g3⟩ := adding_over ips P1 (h1.reach (hP.step st)) al1 h3 (by
        unfold Mgr.locked at hl ⊢; rw [h2.main]; exact hl) (h2.pool (by simp))
      exact ⟨P2, (GoesOn.step .refl st).trans (h1.trans g1), (h2.trans g2).after ⟨rfl, rfl, rfl, rfl, fun _ => ⟨ha.1, ha.2⟩, fun _ => by simp⟩, g3⟩

/-- C145: wherever the goroutine of a tracker is in a response, as long as nothing has crashed and `Stop` has not begun to close peers, it
can get to the end of the response by its own steps, whatever the peers do and even if none of them can be reached; meanwhile nothing else
need happen. -/
theorem C145_response (S : JobSetup) (disk : Disk) (P : Prog) (hP : Prog.Reachable S disk P) (ha : P.alive) (hs : P.mgr.main ≠ .stopped)
    (hc : ∀ l, P.mgr.main ≠ .stopClose l) (a b : List TrackerLoc) (x : TrackerLoc) (ips : List Bytes) (ht : P.mgr.trackers = a ++ x :: b)
    (hx : Remaining x = some ips) :
    ∃ P', GoesOn S P P' ∧ P'.alive ∧ P'.mgr.trackers = a ++ .waiting :: b ∧ P'.mgr.main = P.mgr.main ∧ P'.mgr.cancelled = P.mgr.cancelled ∧
      P'.mgr.buffer = P.mgr.buffer ∧ P'.world.out = P.world.out := by
  have hp : P.mgr.pool ≠ none := fun h => hs ((Mgr.mainInv (progJoined hP).mgr).pool.1 h)
  have hl : P.mgr.locked = false := by
    unfold Mgr.locked
    split
    · rename_i h; exact absurd h (hc _)
    · rfl
  have fin : ∀ {Q : Prog} {jps : List Bytes}, GoesOn S P Q → Beside P Q → Q.mgr.trackers = a ++ .adding jps :: b → ∃ P', GoesOn S P P' ∧ P'.alive ∧ P'.mgr.trackers = a ++ .waiting :: b ∧
      P'.mgr.main = P.mgr.main ∧ P'.mgr.cancelled = P.mgr.cancelled ∧ P'.mgr.buffer = P.mgr.buffer ∧ P'.world.out = P.world.out := by
    intro Q jps g1 g2 g3
    obtain ⟨P', h1, h2, h3⟩ := adding_over jps Q (g1.reach hP) (g2.alive ha) g3 (by unfold Mgr.locked at hl ⊢; rw [g2.main]; exact hl) (g2.pool hp)
    have h4 := g2.trans h2
    exact ⟨P', g1.trans h1, h4.alive ha, h3, h4.main, h4.cancelled, h4.buffer, h4.out⟩
  cases x with
  | adding jps => exact fin .refl (Beside.refl P) ht
  | connecting ip jps =>
    obtain ⟨Q, g1, g2, g3, -⟩ := connecting_over _ P hP ha ht rfl
    exact fin g1 g2 g3
  | start => cases hx
  | announcing => cases hx
  | waiting => cases hx
  | ended => cases hx

/-- A tracker has named an address that is not in the pool: the response can be gone through. -/
example (t : Torrent) : ∃ (S : JobSetup) (disk : Disk) (P : Prog) (b : List TrackerLoc) (ips : List Bytes), Prog.Reachable S disk P ∧ P.alive ∧ P.mgr.main = .waitPeers ∧
    P.mgr.trackers = [] ++ .adding ips :: b ∧ ips.length = 1 := by
  have hs := twoPeers_supply t
  obtain ⟨P, hP, _⟩ := lifted_start (disk := fun _ => []) (rest := fun _ => []) hs
  obtain ⟨b, hb⟩ := hP.trackers
  obtain ⟨u, tail, hu, hk⟩ := hs.url
  obtain ⟨ht, ht', hr⟩ := hs.good 0 (by omega)
  have al := hP.alive ⟨rfl, fun x hx => by cases hx⟩
  exact ⟨_, _, _, b, _, hP.reach.step (.announcedHttp (a := []) (b := b) ht ht' al hb (by rw [hu]; rfl) hk hr), al, hP.main, rfl, rfl⟩

/-- Five attempts occur: an address that refuses connections is given up after them. -/
example (t : Torrent) : ∃ (S : JobSetup) (disk : Disk) (ip : Bytes) (P : Prog), Dialled S disk ip P 5 ∧ ip ∈ P.mgr.failed ∧ P.mgr.cancelled = false := by
  have hs := twoPeers_supply t
  obtain ⟨P, hP, _⟩ := lifted_start (disk := fun _ => []) (rest := fun _ => []) hs
  obtain ⟨b, hb⟩ := hP.trackers
  obtain ⟨u, tail, hu, hk⟩ := hs.url
  obtain ⟨ht, ht', hr⟩ := hs.good 0 (by omega)
  obtain ⟨l, hl, hl'⟩ := hP.pool
  have al := hP.alive ⟨rfl, fun x hx => by cases hx⟩
  have hc := hP.contacts 0 (by simp [World.start]) (by omega)
  have hcf := hP.conn 0 (by simp [World.start]) (by omega)
  have hcan : P.mgr.cancelled = false := by rw [(progJoined hP.reach).cancelled, hP.world]; rfl
  have hlock : P.mgr.locked = false := by unfold Mgr.locked; rw [hP.main]; rfl
  have r1 := hP.reach.step (.announcedHttp (a := []) (b := b) ht ht' al hb (by rw [hu]; rfl) hk hr)
  have hnot : (twoPeers t).name ⟨some (.v4 1 2 3 4), 5⟩ ∉ l := by
    intro hm
    obtain ⟨i, hi, _⟩ := hl' _ hm
    simp [World.start] at hi
  have r2 := r1.step (.manager (σ' := { P.mgr with
      trackers := [] ++ .connecting ((twoPeers t).name ⟨some (.v4 1 2 3 4), 5⟩) [] :: b, pool := some ((twoPeers t).name ⟨some (.v4 1 2 3 4), 5⟩ :: l), peerNum := P.mgr.peerNum + 1,
      conn := fun x => if x = (twoPeers t).name ⟨some (.v4 1 2 3 4), 5⟩ then false else P.mgr.conn x, adds := P.mgr.adds ++ [((twoPeers t).name ⟨some (.v4 1 2 3 4), 5⟩, true)] }) al
    ⟨.addNew (a := []) (b := b) al.1 rfl hlock hl hnot, by simp [al.1], rfl, rfl, by
        funext x
        simp only
        by_cases he : x = (twoPeers t).name ⟨some (.v4 1 2 3 4), 5⟩
        · rw [if_pos he, he]; exact hcf.symm
        · rw [if_neg he], rfl, rfl, rfl, rfl, rfl, rfl, rfl,
      replies_set (y := .adding [(twoPeers t).name ⟨some (.v4 1 2 3 4), 5⟩]) rfl (.inl (by simp))⟩)
  obtain ⟨Q, g1, g2, _, g4⟩ := connecting_over (a := []) (b := b) (ips := []) _ _ r2 al rfl rfl
  have hf := g4 (congrArg Contacted.ok hc)
  obtain ⟨n, hn⟩ := dialled_of (g1.reach r2) ((twoPeers t).name ⟨some (.v4 1 2 3 4), 5⟩)
  have hcq : Q.mgr.cancelled = false := g2.cancelled.trans hcan
  have h5 := (C145_dials _ _ _ _ _ hn).2.2.1 hf hcq
  subst h5
  exact ⟨_, _, _, Q, hn, hf, hcq⟩

end Gotit.Props
