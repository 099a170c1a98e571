import Verif.Props.Program
/-
  C136, the other direction: what peers can do in Model/World.lean they can do in the whole program.
-/
namespace Gotit.Props
open Gotit Gotit.Spec

/-- Trackers and addresses for a download with `N` peers: the first tracker is an HTTP tracker that can name them one at a time. -/
structure Supply (S : JobSetup) (ipOf : Nat → AddrPort) (reply : Nat → HttpReply) (N : Nat) : Prop where
  url : ∃ u tail, S.urls = u :: tail ∧ trackerNew S.rest S.dial u = .http u
  good : ∀ k, k < N → ∃ ht ht', httpAnnounce S.parseAddr ht (reply k) = (ht', .ok [ipOf k])
  distinct : ∀ i j, i < N → j < N → S.name (ipOf i) = S.name (ipOf j) → i = j
  valid : ∀ i, i < N → S.name (ipOf i) ≠ S.name .zero

/-- A peer that has not been contacted. -/
def untouched : Contacted := { link := Link.new, tries := 0, ok := false, wire := [] }

/-- A state of the program that continues a state of Model/World.lean; `Download` is at `w` unless it has closed the channel. -/
structure Lifted (S : JobSetup) (disk : Disk) (ipOf : Nat → AddrPort) (N : Nat) (w : MainLoc) (rest : Nat → List Ev) (W : World) (P : Prog) : Prop where
  reach : Prog.Reachable S disk P
  world : P.world = W
  main : P.mgr.main = if W.closed then .returned else w
  free : ∀ l, w ≠ .stopClose l
  trackers : ∃ b, P.mgr.trackers = .announcing :: b
  fresh : P.fresh = W.peers.length
  conns : ∀ i, i < W.peers.length → P.conns i = rest i
  runs : ∀ i q r, W.peers[i]? = some (q, r) → r.loc ≠ .returned → i ∈ P.runs
  pool : ∃ l, P.mgr.pool = some l ∧ ∀ x ∈ l, ∃ i, i < W.peers.length ∧ x = S.name (ipOf i)
  contacts : ∀ k, W.peers.length ≤ k → k < N → P.contacts (S.name (ipOf k)) = untouched
  conn : ∀ k, W.peers.length ≤ k → k < N → P.mgr.conn (S.name (ipOf k)) = false
  linked : ∀ l x, P.mgr.pool = some l → x ∈ l → P.mgr.conn x = true
  writer : P.mgr.writerDone = false
  panicked : P.mgr.panicked = none

theorem replies_set {l a b : List TrackerLoc} {x y : TrackerLoc} (hl : l = a ++ y :: b) (h : y ≠ .announcing ∨ ∀ ips, x ≠ .adding ips) :
    ∀ (k : Nat) (ips : List Bytes), l[k]? = some TrackerLoc.announcing → (a ++ x :: b)[k]? ≠ some (TrackerLoc.adding ips) := by
  subst hl
  intro k ips h1 h2
  rcases Nat.lt_trichotomy k a.length with hk | hk | hk
  · rw [List.getElem?_append_left hk] at h1 h2
    rw [h1] at h2; cases h2
  · subst hk
    simp only [List.getElem?_append_right (Nat.le_refl _), Nat.sub_self, List.getElem?_cons_zero, Option.some.injEq] at h1 h2
    rcases h with h | h
    · exact h h1
    · exact h _ h2
  · have hj : k - a.length = (k - a.length - 1) + 1 := by omega
    rw [List.getElem?_append_right (by omega), hj, List.getElem?_cons_succ] at h1 h2
    rw [h1] at h2; cases h2

theorem replies_same (l : List TrackerLoc) :
    ∀ (k : Nat) (ips : List Bytes), l[k]? = some TrackerLoc.announcing → l[k]? ≠ some (TrackerLoc.adding ips) := by
  intro k ips h1 h2
  rw [h1] at h2; cases h2

theorem handshake_read (hash : Bytes) (hh : hash.length = 20) (rest : List Ev) :
    readPeerHandshake (.data (createHandshake hash (createClientId [])) :: rest) = (.ok (createHandshake hash (createClientId [])), rest) := by
  have hl := (C34_own hash [] hash hh hh).1
  unfold readPeerHandshake readExactly
  rw [readFull.eq_def]
  simp only [hl, Nat.le_refl, if_true, putBack, Nat.lt_irrefl, if_false]
  rw [List.take_of_length_le (by omega)]

/-- An attempt that succeeds: the peer answers with our own handshake. -/
def goodAttempt (hash : Bytes) (rest : List Ev) : Attempt :=
  { dial := none, write := none, evs := .data (createHandshake hash (createClientId [])) :: rest }

theorem goodAttempt_ok (hash cid : Bytes) (hh : hash.length = 20) (rest : List Ev) (l : Link) :
    ∃ l', peerAnnounce hash cid (goodAttempt hash rest) l = (l', .ok ()) ∧ l'.conn = some (l.opened, rest) := by
  unfold peerAnnounce goodAttempt
  simp only [handshake_read hash hh rest, ((C34_own hash [] hash hh hh).2).2 rfl, if_true]
  exact ⟨_, rfl, rfl⟩

variable {S : JobSetup} {disk : Disk} {ipOf : Nat → AddrPort} {reply : Nat → HttpReply} {rest : Nat → List Ev} {W : World} {P : Prog} {N : Nat} {w : MainLoc}

theorem Lifted.alive (h : Lifted S disk ipOf N w rest W P) (ha : W.alive) : P.alive := ⟨h.panicked, by rw [h.world]; exact ha⟩

theorem lifted_start (hs : Supply S ipOf reply N) : ∃ P, Lifted S disk ipOf N .waitPeers rest (World.start S.t disk) P ∧ P.runs = [] ∧ P.mgr.wg = 0 := by
  obtain ⟨u, tail, hu, _⟩ := hs.url
  have r0 := Prog.Reachable.start (S := S) (disk := disk)
  have ht : (Prog.start S disk).mgr.trackers = [] ++ .start :: List.replicate tail.length .start := by
    show List.replicate S.urls.length _ = _
    rw [hu]; rfl
  have r2 := r0.step (.manager (σ' := { (Prog.start S disk).mgr with trackers := [] ++ .announcing :: List.replicate tail.length .start })
    ⟨rfl, rfl, fun x hx => by cases hx⟩
    ⟨.trackerNew rfl ht, by simp [Prog.start, Mgr.start], rfl, rfl, rfl, rfl, rfl, rfl, rfl, rfl, rfl, rfl, replies_set ht (.inl (by simp))⟩)
  exact ⟨_, {
    reach := r2, world := rfl, main := rfl, free := (fun l => by simp), trackers := ⟨_, rfl⟩, fresh := rfl, conns := (fun i hi => absurd hi (Nat.not_lt_zero _)),
    runs := (fun i q r hi => by simp [World.start] at hi),
    pool := ⟨[], rfl, fun x hx => absurd hx List.not_mem_nil⟩, contacts := fun k _ _ => rfl, conn := fun k _ _ => rfl,
    linked := (fun l x hl hx => by cases hl; cases hx), writer := rfl, panicked := rfl },
    rfl, rfl⟩

/-- `Download` goes on. -/
theorem lifted_main {w' : MainLoc} (h : Lifted S disk ipOf N w rest W P) (ha : W.alive) (hc : W.closed = false) (hf : ∀ l, w' ≠ .stopClose l)
    (st : P.mgr.main = w → Mgr.Step P.mgr { P.mgr with main := w' }) :
    Lifted S disk ipOf N w' rest W { P with mgr := { P.mgr with main := w' } } := by
  have hm : P.mgr.main = w := by rw [h.main, hc]; rfl
  have r1 := h.reach.step (.manager (σ' := { P.mgr with main := w' }) (h.alive ha)
    ⟨st hm, by simp [h.panicked], rfl, rfl, rfl, rfl, rfl, rfl, rfl, rfl, rfl, rfl, replies_same _⟩)
  exact {
    reach := r1, world := h.world, main := (by rw [hc]; rfl), free := hf, trackers := h.trackers, fresh := h.fresh, conns := h.conns,
    runs := h.runs, pool := h.pool, contacts := h.contacts, conn := h.conn, linked := h.linked, writer := h.writer, panicked := h.panicked }

theorem lifted_spawn_at (hs : Supply S ipOf reply N) (hh : S.t.hash.length = 20) (h : Lifted S disk ipOf N w rest W P) (ha : W.alive) (hN : W.peers.length < N) :
    ∃ P', Lifted S disk ipOf N w rest { W with peers := W.peers ++ [(W.peers.length, Run.start (newPeer S.t))] } P' ∧
      P'.runs = W.peers.length :: P.runs ∧ P'.mgr.wg = P.mgr.wg + 1 ∧ P'.addrs = P.addrs ++ [S.name (ipOf W.peers.length)] := by
  obtain ⟨u, tail, hu, hk⟩ := hs.url
  obtain ⟨ht, ht', hr⟩ := hs.good W.peers.length hN
  obtain ⟨b, hb⟩ := h.trackers
  obtain ⟨l, hl, hin⟩ := h.pool
  have hal := h.alive ha
  have hpan := h.panicked
  generalize hip : S.name (ipOf W.peers.length) = ip at *
  have hnot : ip ∉ l := by
    intro hm
    obtain ⟨i, hi, he⟩ := hin ip hm
    rw [← hip] at he
    have := hs.distinct _ _ hN (by omega) he
    omega
  have hlock : P.mgr.locked = false := by
    have := h.free
    simp only [Mgr.locked, h.main]
    cases W.closed
    · cases w <;> first | rfl | exact absurd rfl (this _)
    · rfl
  have hc : P.contacts ip = untouched := by rw [← hip]; exact h.contacts _ (Nat.le_refl _) hN
  have hcf : P.mgr.conn ip = false := by rw [← hip]; exact h.conn _ (Nat.le_refl _) hN
  -- the reply
  have r1 := h.reach.step (.announcedHttp (a := []) (b := b) (u := u) (addrs := [ipOf W.peers.length]) (r := reply W.peers.length) ht ht' hal hb
    (by rw [hu]; rfl) hk hr)
  simp only [List.map_cons, List.map_nil, hip, List.nil_append, List.length_nil] at r1
  generalize hP1 : ({ P with
      mgr := { P.mgr with trackers := .adding [ip] :: b }, queue := (fun k => if k = 0 then P.fresh else P.queue k),
      fresh := P.fresh + 1, replies := P.replies ++ [(u, reply W.peers.length)] } : Prog) = P1 at r1
  -- AddPeer
  have r2 := r1.step (.manager (σ' := { P1.mgr with
      trackers := [] ++ .connecting ip [] :: b, pool := some (ip :: l), peerNum := P1.mgr.peerNum + 1,
      conn := fun x => if x = ip then false else P1.mgr.conn x, adds := P1.mgr.adds ++ [(ip, true)] }) (by subst hP1; exact hal)
    ⟨.addNew (a := []) (b := b) (by subst hP1; exact hpan) (by subst hP1; rfl) (by subst hP1; exact hlock) (by subst hP1; exact hl) hnot,
      by subst hP1; simp [hpan], rfl, rfl, by
        funext x
        simp only
        by_cases he : x = ip
        · rw [if_pos he, he]; subst hP1; exact hcf.symm
        · rw [if_neg he], rfl, rfl, rfl, rfl, rfl, rfl, rfl,
      replies_set (y := .adding [ip]) (by subst hP1; rfl) (.inl (by simp))⟩)
  generalize hP2 : ({ P1 with mgr := { P1.mgr with
      trackers := [] ++ .connecting ip [] :: b, pool := some (ip :: l), peerNum := P1.mgr.peerNum + 1,
      conn := fun x => if x = ip then false else P1.mgr.conn x, adds := P1.mgr.adds ++ [(ip, true)] } } : Prog) = P2 at r2
  -- the handshake
  have hc2 : P2.contacts ip = untouched := by subst hP2; subst hP1; exact hc
  obtain ⟨l', hl', hconn⟩ := goodAttempt_ok S.t.hash S.clientId hh (rest W.peers.length) untouched.link
  have r3 := r2.step (.attempt (a := []) (b := b) (ip := ip) (ips := []) (goodAttempt S.t.hash (rest W.peers.length)) (by subst hP2; subst hP1; exact hal)
    (by subst hP2; rfl) (by rw [hc2]; rfl) (by rw [hc2]; simp [untouched]) (fun he => absurd (hip.trans he) (hs.valid _ hN)))
  simp only [hc2, hl', Res.isOk] at r3
  generalize hP3 : ({ P2 with
      mgr := { P2.mgr with conn := fun x => if x = ip then (goodAttempt S.t.hash (rest W.peers.length)).dial.isNone else P2.mgr.conn x }
      contacts := fun x => if x = ip then { link := l', tries := untouched.tries + 1, ok := true, wire := (goodAttempt S.t.hash (rest W.peers.length)).evs }
        else P2.contacts x } : Prog) = P3 at r3
  -- Run
  have hc3 : P3.contacts ip = { link := l', tries := untouched.tries + 1, ok := true, wire := (goodAttempt S.t.hash (rest W.peers.length)).evs } := by
    subst hP3; simp
  have r4 := r3.step (.connected (a := []) (b := b) (ip := ip) (ips := []) (by subst hP3; subst hP2; subst hP1; exact hal) (by subst hP3; subst hP2; rfl)
    (by rw [hc3]) (by rw [hc3]; exact hconn))
  generalize hP4 : ({ P3 with
        mgr := { P3.mgr with trackers := [] ++ .adding [] :: b, wg := P3.mgr.wg + 1, running := ⟨ip, P3.mgr.main.waited⟩ :: P3.mgr.running }
        world := { P3.world with peers := P3.world.peers ++ [(P3.queue ([] : List TrackerLoc).length, Run.start (newPeer S.t))] }
        runs := P3.world.peers.length :: P3.runs
        addrs := P3.addrs ++ [ip]
        conns := fun i => if i = P3.world.peers.length then rest W.peers.length else P3.conns i
        wires := P3.wires ++ [(P3.contacts ip).wire] } : Prog) = P4 at r4
  have hw4 : P4.world = { W with peers := W.peers ++ [(W.peers.length, Run.start (newPeer S.t))] } := by
    subst hP4; subst hP3; subst hP2; subst hP1
    simp only [h.world, h.fresh, List.length_nil, if_true]
  have hal4 : P4.alive := by
    refine ⟨by subst hP4; subst hP3; subst hP2; subst hP1; exact hpan, ?_⟩
    rw [hw4]
    refine ⟨ha.1, ?_⟩
    intro x hx
    rcases List.mem_append.1 hx with hx | hx
    · exact ha.2 x hx
    · rw [List.mem_singleton.1 hx]; intro e; cases e
  have hpan4 : P4.mgr.panicked = none := hal4.1
  -- the rest of initPeers and the wait
  have r5 := r4.step (.manager (σ' := { P4.mgr with trackers := [] ++ .waiting :: b }) hal4
    ⟨.addedAll (a := []) (b := b) hpan4 (by subst hP4; rfl), by simp [hpan4], rfl, rfl, rfl, rfl, rfl, rfl, rfl, rfl, rfl, rfl,
      replies_set (y := .adding []) (by subst hP4; rfl) (.inl (by simp))⟩)
  have r6 := r5.step (.manager (σ' := { P4.mgr with trackers := [] ++ .announcing :: b }) hal4
    ⟨.intervalOver (a := []) (b := b) hpan4 rfl, by simp [hpan4], rfl, rfl, rfl, rfl, rfl, rfl, rfl, rfl, rfl, rfl,
      replies_set (y := .waiting) rfl (.inl (by simp))⟩)
  refine ⟨_, {
    reach := r6, world := hw4, main := ?_, free := h.free, trackers := ⟨b, rfl⟩, fresh := ?_, conns := ?_, runs := ?_, pool := ?_, contacts := ?_, conn := ?_,
    linked := ?_, writer := ?_, panicked := hpan4 }, by subst hP4; subst hP3; subst hP2; subst hP1; rw [← h.world], by subst hP4; subst hP3; subst hP2; subst hP1; rfl,
    by subst hP4; subst hP3; subst hP2; subst hP1; rfl⟩
  · subst hP4; subst hP3; subst hP2; subst hP1; exact h.main
  · subst hP4; subst hP3; subst hP2; subst hP1; simp [h.fresh]
  · intro i hi
    simp only [List.length_append, List.length_singleton] at hi
    subst hP4; subst hP3; subst hP2; subst hP1
    simp only [h.world]
    by_cases he : i = W.peers.length
    · rw [if_pos he, he]
    · rw [if_neg he]; exact h.conns i (by omega)
  · intro i q x hi hx
    subst hP4; subst hP3; subst hP2; subst hP1
    simp only [h.world]
    by_cases he : i = W.peers.length
    · rw [he]; exact List.mem_cons_self
    · refine List.mem_cons_of_mem _ (h.runs i q x ?_ hx)
      simp only [List.getElem?_append] at hi
      split at hi
      · exact hi
      · obtain ⟨k, hk'⟩ : ∃ k, i - W.peers.length = k + 1 := ⟨i - W.peers.length - 1, by omega⟩
        rw [hk'] at hi; simp at hi
  · subst hP4; subst hP3; subst hP2; subst hP1
    refine ⟨ip :: l, rfl, ?_⟩
    intro x hx
    rcases List.mem_cons.1 hx with rfl | hx
    · exact ⟨W.peers.length, by simp, hip.symm⟩
    · obtain ⟨i, hi, he⟩ := hin x hx
      exact ⟨i, by simp; omega, he⟩
  · intro k hk' hkN
    simp only [List.length_append, List.length_singleton] at hk'
    have hne : S.name (ipOf k) ≠ ip := by
      intro he
      rw [← hip] at he
      have := hs.distinct _ _ hkN hN he
      omega
    subst hP4; subst hP3; subst hP2; subst hP1
    simp only [if_neg hne]
    exact h.contacts k (by omega) hkN
  · intro k hk' hkN
    simp only [List.length_append, List.length_singleton] at hk'
    have hne : S.name (ipOf k) ≠ ip := by
      intro he
      rw [← hip] at he
      have := hs.distinct _ _ hkN hN he
      omega
    subst hP4; subst hP3; subst hP2; subst hP1
    simp only [if_neg hne]
    exact h.conn k (by omega) hkN
  · intro l2 x h2 hx
    subst hP4; subst hP3; subst hP2; subst hP1
    simp only [Option.some.injEq] at h2
    subst h2
    simp only
    by_cases he : x = ip
    · rw [if_pos he]; rfl
    · rw [if_neg he, if_neg he]
      exact h.linked l x hl ((List.mem_cons.1 hx).resolve_left he)
  · subst hP4; subst hP3; subst hP2; subst hP1; exact h.writer

theorem lifted_spawn (hs : Supply S ipOf reply N) (hh : S.t.hash.length = 20) (h : Lifted S disk ipOf N w rest W P) (ha : W.alive) (hN : W.peers.length < N) :
    ∃ P', Lifted S disk ipOf N w rest { W with peers := W.peers ++ [(W.peers.length, Run.start (newPeer S.t))] } P' ∧
      P'.runs = W.peers.length :: P.runs ∧ P'.mgr.wg = P.mgr.wg + 1 := by
  obtain ⟨P', h1, h2, h3, _⟩ := lifted_spawn_at hs hh h ha hN
  exact ⟨P', h1, h2, h3⟩

theorem afterEvents_same (es : List RunEv) : ∀ σ : Mgr, (σ.afterEvents es).main = σ.main ∧ (σ.afterEvents es).trackers = σ.trackers ∧
    (σ.afterEvents es).pool = σ.pool ∧ (σ.afterEvents es).conn = σ.conn ∧ (σ.afterEvents es).writerDone = σ.writerDone ∧
    (σ.afterEvents es).panicked = σ.panicked ∧ (σ.afterEvents es).wg = σ.wg := by
  induction es with
  | nil => intro σ; exact ⟨rfl, rfl, rfl, rfl, rfl, rfl, rfl⟩
  | cons e es ih =>
    intro σ
    cases e <;> simp only [Mgr.afterEvents] <;> exact ih _

theorem effects_closed {q : Nat} {b : BitSet} {W W' : World} {es : List RunEv} (h : World.Effects q b W es W') : W'.closed = W.closed := by
  induction h with
  | nil => rfl
  | cons he _ ih => rw [ih]; cases he <;> rfl

theorem lifted_peer {i q : Nat} {r r' : Run} {es : List RunEv} {W' : World} (hf : ∀ f, RunEv.received f ∈ es → f.length < 2 ^ 32)
    (h : Lifted S disk ipOf N w (fun j => if j = i then connFor es ++ rest i else rest j) W P) (ha : W.alive) (hi : W.peers[i]? = some (q, r))
    (st : Run.Step S.sha1 S.t (r.sync W) r') (hlog : r'.log = r.log ++ es) (he : World.Effects q r.peer.bitset W es W') :
    ∃ P', Lifted S disk ipOf N w rest { W' with peers := W.peers.set i (q, r'), trace := W.trace ++ es.map (fun e => (i, e)) } P' ∧
      P'.runs = P.runs ∧ P'.mgr.wg = P.mgr.wg := by
  have hlt : i < W.peers.length := by
    rcases Nat.lt_or_ge i W.peers.length with h' | h'
    · exact h'
    · rw [List.getElem?_eq_none h'] at hi; cases hi
  have hw := h.world
  have hc : P.conns i = connFor es ++ rest i := by rw [h.conns i hlt, if_pos rfl]
  obtain ⟨h1, h2, h3, h4, h5, h6, h7⟩ := afterEvents_same es P.mgr
  have hnr : r.loc ≠ .returned := by
    intro e
    cases st <;> simp_all [Run.sync]
  have rd : ReadsAll (P.conns i) es (rest i) := by rw [hc]; exact readsAll_connFor es (rest i) hf
  subst hw
  have r1 := h.reach.step (.peer (h.alive ha) (h.runs i q r hi hnr) hi st hlog he rd)
  refine ⟨_, {
    reach := r1, world := rfl, main := ?_, free := h.free, trackers := ?_, fresh := ?_, conns := ?_, runs := ?_, pool := ?_, contacts := ?_, conn := ?_,
    linked := ?_, writer := ?_, panicked := ?_ }, rfl, h7⟩
  · show (P.mgr.afterEvents es).main = if W'.closed = true then _ else _
    rw [h1, effects_closed he]; exact h.main
  · show ∃ b, (P.mgr.afterEvents es).trackers = _
    rw [h2]; exact h.trackers
  · simp only [List.length_set]; exact h.fresh
  · intro j hj
    simp only [List.length_set] at hj
    by_cases hji : j = i
    · simp [hji]
    · simp only [if_neg hji]
      rw [h.conns j hj, if_neg hji]
  · intro j q' x hj hx
    by_cases hji : i = j
    · subst hji; exact h.runs i q r hi hnr
    · simp only [List.getElem?_set_ne hji] at hj
      exact h.runs j q' x hj hx
  · simp only [List.length_set]
    show ∃ l, (P.mgr.afterEvents es).pool = _ ∧ _
    rw [h3]; exact h.pool
  · simp only [List.length_set]; exact h.contacts
  · simp only [List.length_set]
    show ∀ k, _ → _ → (P.mgr.afterEvents es).conn _ = _
    rw [h4]; exact h.conn
  · show ∀ l x, (P.mgr.afterEvents es).pool = _ → _ → (P.mgr.afterEvents es).conn _ = _
    rw [h3, h4]; exact h.linked
  · show (P.mgr.afterEvents es).writerDone = _
    rw [h5]; exact h.writer
  · show (P.mgr.afterEvents es).panicked = _
    rw [h6]; exact h.panicked

theorem lifted_close (h : Lifted S disk ipOf N .waitCtx rest W P) (ha : W.alive) (hc : W.cancelled = true) :
    ∃ P', Lifted S disk ipOf N .waitCtx rest { W with closed := true } P' := by
  have hw := h.world
  have hcan : P.mgr.cancelled = true := by rw [(progJoined h.reach).cancelled, hw]; exact hc
  subst hw
  by_cases hcl : P.world.closed = true
  · refine ⟨P, ?_⟩
    have e : ({ P.world with closed := true } : World) = P.world := by
      generalize hW : P.world = W at hcl
      cases W
      simp only at hcl
      subst hcl; rfl
    rw [e]; exact h
  · have hm : P.mgr.main = .waitCtx := by rw [h.main, if_neg hcl]
    have r1 := h.reach.step (.manager (σ' := { P.mgr with main := .closing }) (h.alive ha)
      ⟨.ctxDone h.panicked hm hcan, by simp [h.panicked], rfl, rfl, rfl, rfl, rfl, rfl, rfl, rfl, rfl, rfl, replies_same _⟩)
    have r2 := r1.step (.close ⟨h.panicked, ha⟩ rfl)
    exact ⟨_, {
      reach := r2, world := rfl, main := rfl, free := h.free, trackers := h.trackers, fresh := h.fresh, conns := h.conns, runs := h.runs, pool := h.pool,
      contacts := h.contacts, conn := h.conn, linked := h.linked, writer := h.writer, panicked := h.panicked }⟩

theorem lifted_simple {W' : World} {P' : Prog} (h : Lifted S disk ipOf N w rest W P) (r1 : Prog.Reachable S disk P') (hw : P'.world = W')
    (hp : W'.peers = W.peers) (hc : W'.closed = W.closed) (h1 : P'.mgr.main = P.mgr.main) (h2 : P'.mgr.trackers = P.mgr.trackers)
    (h3 : P'.fresh = P.fresh) (h4 : P'.conns = P.conns) (h5 : P'.runs = P.runs) (h6 : P'.mgr.pool = P.mgr.pool)
    (h7 : P'.contacts = P.contacts) (h8 : P'.mgr.conn = P.mgr.conn) (h9 : P'.mgr.writerDone = P.mgr.writerDone)
    (h10 : P'.mgr.panicked = P.mgr.panicked) : Lifted S disk ipOf N w rest W' P' :=
  { reach := r1, world := hw, main := by rw [h1, hc]; exact h.main, free := h.free, trackers := by rw [h2]; exact h.trackers,
    fresh := by rw [h3, hp]; exact h.fresh, conns := by rw [h4, hp]; exact h.conns, runs := by rw [h5, hp]; exact h.runs,
    pool := by rw [h6, hp]; exact h.pool, contacts := by rw [h7, hp]; exact h.contacts, conn := by rw [h8, hp]; exact h.conn,
    linked := by rw [h6, h8]; exact h.linked, writer := by rw [h9]; exact h.writer, panicked := by rw [h10]; exact h.panicked }

/-- What happens in Model/World.lean, in the whole program. -/
theorem lifted_any (hs : Supply S ipOf reply N) (hh : S.t.hash.length = 20)
    (hW : World.Reachable S.sha1 S.t (newPeer S.t) disk W) (hq : ∀ (i q : Nat) (r : Run), W.peers[i]? = some (q, r) → q = i)
    (hf : ∀ (i : Nat) (f : Bytes), (i, RunEv.received f) ∈ W.trace → f.length < 2 ^ 32) (hN : W.peers.length ≤ N) :
    ∀ rest : Nat → List Ev, ∃ P, Lifted S disk ipOf N .waitCtx rest W P := by
  induction hW with
  | start =>
    intro rest
    obtain ⟨P, hP, _, h0⟩ := lifted_start (disk := disk) (rest := rest) hs
    exact ⟨_, lifted_main hP ⟨rfl, fun x hx => by cases hx⟩ rfl (fun l => by simp) (fun hm => .waitNow hP.panicked hm h0)⟩
  | step _ st ih =>
    intro rest
    cases st with
    | spawn q ha =>
      obtain ⟨P, hP⟩ := ih (fun i q' r hi => hq i q' r (by
        rw [List.getElem?_append_left]
        · exact hi
        · rcases Nat.lt_or_ge i _ with h' | h'
          · exact h'
          · rw [List.getElem?_eq_none h'] at hi; cases hi)) hf (by simp only [List.length_append, List.length_singleton] at hN; omega) rest
      have := hq _ q (Run.start (newPeer S.t)) (by rw [List.getElem?_append_right (Nat.le_refl _)]; simp)
      rw [this]
      obtain ⟨P', hP', _⟩ := lifted_spawn hs hh hP ha (by simp only [List.length_append, List.length_singleton] at hN; omega)
      exact ⟨P', hP'⟩
    | cancel ha =>
      obtain ⟨P, hP⟩ := ih hq hf hN rest
      exact ⟨_, lifted_simple hP (hP.reach.step (.cancel (hP.alive ha))) (by rw [← hP.world]) rfl rfl rfl rfl rfl rfl rfl rfl rfl rfl rfl rfl⟩
    | close ha hc =>
      obtain ⟨P, hP⟩ := ih hq hf hN rest
      exact lifted_close hP ha hc
    | @peer W' i q r r' es ha hi st hlog he =>
      obtain ⟨P, hP⟩ := ih (fun j q' x hj => by
          by_cases hji : j = i
          · subst hji
            rw [hi] at hj; cases hj
            refine hq j q r' ?_
            rw [List.getElem?_set_self]
            rcases Nat.lt_or_ge j _ with h' | h'
            · exact h'
            · rw [List.getElem?_eq_none h'] at hi; cases hi
          · exact hq j q' x (by rw [List.getElem?_set_ne (fun h => hji h.symm)]; exact hj))
        (fun j f hj => hf j f (List.mem_append_left _ hj)) (by simpa using hN) (fun j => if j = i then connFor es ++ rest i else rest j)
      obtain ⟨P', hP', _⟩ := lifted_peer (fun f h => hf i f (List.mem_append_right _ (List.mem_map.2 ⟨_, h, rfl⟩))) hP ha hi st hlog he
      exact ⟨P', hP'⟩
    | receive ha h1 h2 =>
      obtain ⟨P, hP⟩ := ih hq hf hN rest
      have j := progJoined hP.reach
      exact ⟨_, lifted_simple hP (hP.reach.step (.receive (hP.alive ha) hP.writer (by rw [j.inHand, hP.world]; exact h1)
        (by rw [j.buffer, hP.world]; exact h2))) (by rw [← hP.world]) rfl rfl rfl rfl rfl rfl rfl rfl rfl rfl rfl rfl⟩
    | write fl ha h1 h2 =>
      obtain ⟨P, hP⟩ := ih hq hf hN rest
      have j := progJoined hP.reach
      exact ⟨_, lifted_simple hP (hP.reach.step (.write fl (hP.alive ha) (by rw [j.inHand, hP.world]; exact h1)
        (by rw [hP.world]; exact h2))) (by rw [← hP.world]) rfl rfl rfl rfl rfl rfl rfl rfl rfl rfl rfl rfl⟩
    | writeCrash fl ha h1 h2 =>
      obtain ⟨P, hP⟩ := ih hq hf hN rest
      have j := progJoined hP.reach
      exact ⟨_, lifted_simple hP (hP.reach.step (.writeCrash fl (hP.alive ha) (by rw [j.inHand, hP.world]; exact h1)
        (by rw [hP.world]; exact h2))) (by rw [← hP.world]) rfl rfl rfl rfl rfl rfl rfl rfl rfl rfl rfl rfl⟩

/-- C136, the other direction: whatever peers, writer, disk and signals do in Model/World.lean — each peer with a retry queue of its own,
no message of 4 GiB or more — they can do in the whole program. -/
theorem C136_any (hs : Supply S ipOf reply N) (hh : S.t.hash.length = 20)
    (hW : World.Reachable S.sha1 S.t (newPeer S.t) disk W) (hq : ∀ (i q : Nat) (r : Run), W.peers[i]? = some (q, r) → q = i)
    (hf : ∀ (i : Nat) (f : Bytes), (i, RunEv.received f) ∈ W.trace → f.length < 2 ^ 32) (hN : W.peers.length ≤ N) :
    ∃ P, Prog.Reachable S disk P ∧ P.world = W := by
  obtain ⟨P, hP⟩ := lifted_any hs hh hW hq hf hN (fun _ => [])
  exact ⟨P, hP.reach, hP.world⟩

theorem stop_closes : ∀ (l : List Bytes) (P : Prog), Prog.Reachable S disk P → P.alive → P.mgr.main = .stopClose l →
    (∀ x ∈ l, P.mgr.conn x = true) → ∃ P', Prog.Reachable S disk P' ∧ P'.world = P.world ∧ P'.mgr.main = .stopClose [] ∧ P'.alive
  | [], P, h, ha, hm, _ => ⟨P, h, rfl, hm, ha⟩
  | x :: l, P, h, ha, hm, hc => by
    have r1 := h.step (.manager (σ' := { P.mgr with main := .stopClose l }) ha
      ⟨.stopClose ha.1 hm (hc x (by simp)), by simp [ha.1], rfl, rfl, rfl, rfl, rfl, rfl, rfl, rfl, rfl, rfl, replies_same _⟩)
    obtain ⟨P', h1, h2, h3⟩ := stop_closes l { P with mgr := { P.mgr with main := .stopClose l } } r1 ⟨ha.1, ha.2⟩ rfl (fun y hy => hc y (by simp [hy]))
    exact ⟨P', h1, h2, h3⟩

/-- When `Download` waits for the signal and every peer that was added is connected, a signal ends the program normally. -/
theorem lifted_end (h : Lifted S disk ipOf N .waitCtx rest W P) (ha : W.alive) (hc : W.closed = false) :
    ∃ P', Prog.Reachable S disk P' ∧ P'.world.out = W.out ∧ P'.mgr.main = .stopped ∧ P'.alive := by
  have hm : P.mgr.main = .waitCtx := by rw [h.main, hc]; rfl
  obtain ⟨l, hl, _⟩ := h.pool
  have al := h.alive ha
  have r1 := h.reach.step (.cancel al)
  have r2 := r1.step (.manager (σ' := { P.mgr with main := .closing, cancelled := true }) ⟨al.1, al.2⟩
    ⟨.ctxDone al.1 hm rfl, by simp [al.1], rfl, rfl, rfl, rfl, rfl, rfl, rfl, rfl, rfl, rfl, replies_same _⟩)
  have r3 := r2.step (.close ⟨al.1, al.2⟩ rfl)
  have r4 := r3.step (.manager (σ' := { P.mgr with main := .stopLock, cancelled := true, closed := true }) ⟨al.1, al.2⟩
    ⟨.stopCancel al.1 rfl, by simp [al.1], rfl, rfl, rfl, rfl, rfl, rfl, rfl, rfl, rfl, rfl, replies_same _⟩)
  have r5 := r4.step (.manager (σ' := { P.mgr with main := .stopClose l, cancelled := true, closed := true }) ⟨al.1, al.2⟩
    ⟨.stopLock al.1 rfl hl (List.Perm.refl _), by simp [al.1], rfl, rfl, rfl, rfl, rfl, rfl, rfl, rfl, rfl, rfl, replies_same _⟩)
  obtain ⟨P6, r6, w6, m6, al6⟩ := stop_closes l _ r5 ⟨al.1, al.2⟩ rfl (fun x hx => h.linked l x hl hx)
  have r7 := r6.step (.manager (σ' := { P6.mgr with main := .stopped, pool := none }) al6
    ⟨.stopDone al6.1 m6, by simp [al6.1], rfl, rfl, rfl, rfl, rfl, rfl, rfl, rfl, rfl, rfl, replies_same _⟩)
  exact ⟨_, r7, by show P6.world.out = _; rw [w6, ← h.world], rfl, al6.1, al6.2⟩

/-- A tracker names a peer, the peer introduces itself and sends two pieces: `C136_provenance` speaks about the eight bytes then stored. -/
example : ∃ S disk P, newTorrent S.sha1 goodOs (fewBytes 8 2) (ascii "/r") (fun _ => []) = (.ok S.t, disk) ∧ Sensible (fewBytes 8 2) ∧
    S.t.pieces.length * 4 + 2 ^ 32 ≤ 2 ^ 63 ∧ (S.sha1 (fewBytes 8 2).infoDictRaw).length = 20 ∧ (∀ u ∈ S.urls, u ∈ S.t.trackers) ∧
    Prog.Reachable S disk P ∧ layout P.world.out.disk (extents S.t) = [1, 2, 3, 4, 5, 6, 7, 8] := by
  obtain ⟨t, d', h1, h2, h3, h4, _⟩ := fewBytes_opens 8 2 (by omega) (by omega) (by omega) [1, 2, 3, 4, 5, 6, 7, 8] rfl
  obtain ⟨W, g1, g2, g3, g4, r, g5⟩ := C78_pushed_partial _ _ _ _ _ _ _ h1 h2 _ 4 h3 (by simp) (by simp) (by omega) (by rw [h4]; decide) (by omega)
    (by simp)
  obtain ⟨_, _, _, _, _, _, _, htr, hhash, _⟩ := newTorrent_ok h1
  have hs : Supply ⟨fun _ => List.replicate 20 1, t, [], fun _ => some (.v4 1 2 3 4), fun a => if a = .zero then [0] else [1], fun _ _ _ => some [],
      fun _ => true, [ascii "http://t/a"]⟩ (fun _ => ⟨some (.v4 1 2 3 4), 5⟩) (fun _ => .reply 200 (ascii "d5:peersld2:ip1:x4:port1:5eee")) 1 := by
    refine ⟨⟨_, [], rfl, show trackerNew (fun _ _ _ => some []) (fun _ => true) (ascii "http://t/a") = _ by decide⟩, fun k _ => ⟨⟨[], [], [], 0⟩, _, (C17_success_iff_partial _ _ _ _ _).2 ⟨_, _, _, badIpBody_good, by
      simp [peerAddr, show portNumber (ascii "5") = some 5 from by decide], rfl⟩⟩, fun i j _ _ _ => by omega, fun i _ => by
        simp only; decide⟩
  obtain ⟨P, hP, hw⟩ := C136_any hs (by rw [hhash]; rfl) g1 (fun i q x hi => by
      rw [g5] at hi
      cases i with
      | zero => simp at hi; exact hi.1.symm
      | succ i => simp at hi) g4 (by rw [g5]; simp)
  refine ⟨_, d', P, h1, h2, ?_, rfl, ?_, hP, by rw [hw]; exact g3⟩
  · simp only [h4]; decide
  · intro u hu
    rw [List.mem_singleton.1 hu, htr]
    decide

end Gotit.Props
