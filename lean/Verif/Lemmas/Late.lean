import Verif.Lemmas.Push
import Verif.Spec.Resume
/-
  A peer that joins a running download and sends pieces without being asked, while the others do nothing.
-/
namespace Gotit.Props
open Gotit Spec

/-- The peer at the end of the list, nothing cancelled, and the state of the rest. -/
structure Last (W : World) (others : List (Nat × Run)) (r : Run) (buffer : List PeerMessage) (inHand : Option PeerMessage) (out : Written)
    (trace : List (Nat × RunEv)) : Prop where
  peers : W.peers = others ++ [(0, r)]
  running : ∀ x ∈ others, x.2.loc ≠ .panicked
  cancelled : W.cancelled = false
  closed : W.closed = false
  dead : W.dead = false
  alive : r.loc ≠ .panicked
  buffer : W.buffer = buffer
  inHand : W.inHand = inHand
  out : W.out = out
  trace : W.trace = trace

theorem Last.isAlive {W os r b h o tr} (s : Last W os r b h o tr) : W.alive := by
  refine ⟨s.dead, ?_⟩
  rw [s.peers]
  intro x hx
  rcases List.mem_append.1 hx with hx | hx
  · exact s.running x hx
  · rw [List.mem_singleton] at hx; subst hx; exact s.alive

/-- The program can get there. -/
def Joined (sha1 : Bytes → Bytes) (t : Torrent) (p0 : Peer) (W0 : World) (os : List (Nat × Run)) (r : Run) (buffer : List PeerMessage)
    (inHand : Option PeerMessage) (out : Written) (trace : List (Nat × RunEv)) : Prop :=
  ∃ W, Leads sha1 t p0 W0 W ∧ Last W os r buffer inHand out trace

variable {sha1 : Bytes → Bytes} {t : Torrent} {p0 : Peer} {W0 : World} {os : List (Nat × Run)}

theorem Last.sync {W r b h o tr} (s : Last W os r b h o tr) : r.sync W = seen o r := by
  unfold Run.sync seen; rw [s.cancelled, s.closed, s.out]

theorem Last.get {W r b h o tr} (s : Last W os r b h o tr) : W.peers[os.length]? = some (0, r) := by
  rw [s.peers]; simp

theorem Joined.quiet {r r' : Run} {b h o tr} (es : List RunEv) (a : Joined sha1 t p0 W0 os r b h o tr) (st : Run.Step sha1 t (seen o r) r')
    (hl : r'.log = r.log ++ es) (hq : ∀ e ∈ es, quietEv e = true) (hp : r'.loc ≠ .panicked) :
    Joined sha1 t p0 W0 os r' b h o (tr ++ es.map (fun e => (os.length, e))) := by
  obtain ⟨W, hW, s⟩ := a
  rw [← s.sync] at st
  refine ⟨_, hW.step (.peer (i := os.length) (q := 0) (r := r) s.isAlive s.get st hl (quiet_effects hq)), ?_⟩
  exact ⟨by simp [s.peers], s.running, s.cancelled, s.closed, s.dead, hp, s.buffer, s.inHand, s.out, by simp [s.trace]⟩

theorem Joined.silent {r r' : Run} {b h o tr} (a : Joined sha1 t p0 W0 os r b h o tr) (st : Run.Step sha1 t (seen o r) r')
    (hl : r'.log = r.log) (hp : r'.loc ≠ .panicked) : Joined sha1 t p0 W0 os r' b h o tr := by
  simpa using a.quiet [] st (by simpa using hl) (by simp) hp

theorem Joined.accept {r : Run} {b h o tr} {m : PeerMessage} {u : Bool} (a : Joined sha1 t p0 W0 os r b h o tr) (hl : r.loc = .deliver m u)
    (hb : b.length < pieceChCap) :
    Joined sha1 t p0 W0 os ((seen o r).emit [.accepted m] (if u then .ifRequest else .loopTop)) (b ++ [m]) h o
      (tr ++ [(os.length, .accepted m)]) := by
  obtain ⟨W, hW, s⟩ := a
  have st : Run.Step sha1 t (r.sync W) ((seen o r).emit [.accepted m] (if u then .ifRequest else .loopTop)) := by
    rw [s.sync]; exact .delivered hl rfl
  refine ⟨_, hW.step (.peer (i := os.length) (q := 0) (r := r) s.isAlive s.get st rfl
    (.cons (.accepted (by rw [s.buffer]; exact hb)) .nil)), ?_⟩
  exact ⟨by simp [s.peers], s.running, s.cancelled, s.closed, s.dead, by simp only [Run.emit]; split <;> simp, by simp [s.buffer], s.inHand,
    s.out, by simp [s.trace]⟩

theorem Joined.written {r : Run} {o o' tr} {m : PeerMessage} (a : Joined sha1 t p0 W0 os r [m] none o tr) (hw : writeOne t o m = .ok o') :
    Joined sha1 t p0 W0 os r [] none o' tr := by
  obtain ⟨W, hW, s⟩ := a
  have h1 := hW.step (.receive s.isAlive s.inHand s.buffer)
  refine ⟨_, h1.step (.write (m := m) (w := o') Faults.none ⟨s.dead, s.isAlive.2⟩ rfl (by simp only [s.out, writeOneF_none]; exact hw)), ?_⟩
  exact ⟨s.peers, s.running, s.cancelled, s.closed, s.dead, s.alive, rfl, rfl, rfl, s.trace⟩

/-- A peer that was not asked sends a piece; it is verified and written. -/
theorem Joined.push {r : Run} {o o' tr} {m : PeerMessage} {f : Bytes} (a : Joined sha1 t p0 W0 os r [] none o tr) (h1 : r.loc = .loopTop)
    (h2 : r.peer.clientChoked = true) (h3 : r.sentPieceMsg = false) (hd : o.downloaded.all = false) (hf : newPeerMessage f = .ok m)
    (ht : m.type = pieceType) (ha : acceptPiece sha1 t m = .ok (some m)) (hw : writeOne t o m = .ok o') :
    ∃ r', Joined sha1 t p0 W0 os r' [] none o'
        (tr ++ [(os.length, .sent interestedMessage), (os.length, .received f), (os.length, .accepted m), (os.length, .readFailed)]) ∧
      r'.loc = .loopTop ∧ r'.peer.clientChoked = true ∧ r'.sentPieceMsg = false := by
  have s1 := a.silent (.ctxOk h1 rfl) rfl (by simp [Run.goto])
  have s2 := s1.silent (.notDone rfl hd) rfl (by simp [Run.goto])
  have s3 := s2.silent (.notDue rfl) rfl (by simp [Run.goto])
  have s4 := s3.silent (.choked rfl h2) rfl (by simp [Run.goto])
  have s5 := s4.silent (.uCtxOk rfl rfl) rfl (by simp [Run.goto])
  have s6 := s5.quiet [.sent interestedMessage] (.uSent rfl) rfl (by simp [quietEv]) (by simp [Run.emit])
  have hh : ∀ s : Run, s.handle sha1 t f true = gotPiece s m f := by
    intro s
    unfold Run.handle gotPiece
    rw [hf]
    simp [Res.bind, Peer.handlePeerMessage, ht, ha, keepaliveType, bitfieldType, haveType, interestedType, notInterestedType, chokeType, unchokeType, pieceType]
  have hstep : ∀ s : Run, s.loc = .unchokeRead → Run.Step sha1 t s (gotPiece s m f) := by
    intro s hs
    rw [← hh s]
    exact .uRead f hs
  have s7 := s6.quiet [.received f] (hstep _ rfl) rfl (by simp [quietEv]) (by simp [gotPiece])
  have s8 := s7.accept rfl (by decide)
  have s9 := s8.silent (.noRequest rfl (.inl h2)) rfl (by simp [Run.goto])
  have s10 := s9.quiet [.readFailed] (.readFail rfl h3) rfl (by simp [quietEv]) (by simp [Run.emit])
  have s11 := s10.silent (.waited rfl) rfl (by simp [Run.goto])
  have s12 := s11.written hw
  have e : ∀ (x : List (Nat × RunEv)) (r' : Run), Joined sha1 t p0 W0 os r' [] none o' x →
      x = tr ++ [(os.length, .sent interestedMessage), (os.length, .received f), (os.length, .accepted m), (os.length, .readFailed)] →
      Joined sha1 t p0 W0 os r' [] none o'
        (tr ++ [(os.length, .sent interestedMessage), (os.length, .received f), (os.length, .accepted m), (os.length, .readFailed)]) :=
    fun x r' a hx => hx ▸ a
  exact ⟨_, e _ _ s12 (by simp), rfl, h2, h3⟩

theorem Leads.trans {W W' W'' : World} (a : Leads sha1 t p0 W W') (b : Leads sha1 t p0 W' W'') : Leads sha1 t p0 W W'' := by
  induction b with
  | refl => exact a
  | step _ st ih => exact ih.step st

theorem Leads.reachable {disk : Disk} {W W' : World} (a : Leads sha1 t p0 W W') (h : World.Reachable sha1 t p0 disk W) :
    World.Reachable sha1 t p0 disk W' := by
  induction a with
  | refl => exact h
  | step _ st ih => exact ih.step st

/-- A new peer joins. -/
theorem Joined.start {W : World} (hp : p0.clientChoked = true) (hl : Leads sha1 t p0 W0 W) (ha : W.alive) (hc : W.cancelled = false)
    (hcl : W.closed = false) (hb : W.buffer = []) (hh : W.inHand = none) :
    ∃ r, Joined sha1 t p0 W0 W.peers r [] none W.out W.trace ∧ r.loc = .loopTop ∧ r.peer.clientChoked = true ∧ r.sentPieceMsg = false :=
  ⟨Run.start p0, ⟨_, hl.step (.spawn 0 ha), ⟨rfl, ha.2, hc, hcl, ha.1, by simp [Run.start], hb, hh, rfl, rfl⟩⟩, rfl, hp, rfl⟩

/-- The writer empties the channel, if every message can be written. -/
theorem drains {good : PeerMessage → Prop} {keep : Written → Prop}
    (hw : ∀ o m, keep o → good m → ∃ o', writeOne t o m = .ok o' ∧ keep o') :
    ∀ (b : List PeerMessage) (W : World), W.buffer = b → W.alive → keep W.out → (∀ m ∈ W.buffer, good m) → (∀ m, W.inHand = some m → good m) →
      ∃ W', Leads sha1 t p0 W W' ∧ W'.alive ∧ W'.cancelled = W.cancelled ∧ W'.closed = W.closed ∧ W'.buffer = [] ∧ W'.inHand = none ∧
        W'.trace = W.trace ∧ W'.peers = W.peers ∧ keep W'.out := by
  -- first what is in hand
  have hand : ∀ W : World, W.alive → keep W.out → (∀ m, W.inHand = some m → good m) →
      ∃ W', Leads sha1 t p0 W W' ∧ W'.alive ∧ W'.cancelled = W.cancelled ∧ W'.closed = W.closed ∧ W'.buffer = W.buffer ∧ W'.inHand = none ∧
        W'.trace = W.trace ∧ W'.peers = W.peers ∧ keep W'.out := by
    intro W ha hk hg
    cases hi : W.inHand with
    | none => exact ⟨W, .refl, ha, rfl, rfl, rfl, hi, rfl, rfl, hk⟩
    | some m =>
      obtain ⟨o', e1, e2⟩ := hw W.out m hk (hg m hi)
      exact ⟨_, Leads.refl.step (.write (w := o') Faults.none ha hi (by rw [writeOneF_none]; exact e1)), ha, rfl, rfl, rfl, rfl, rfl, rfl, e2⟩
  intro b
  induction b with
  | nil =>
    intro W hb ha hk hg hh
    obtain ⟨W', a1, a2, a3, a4, a5, a6, a7, a8, a9⟩ := hand W ha hk hh
    exact ⟨W', a1, a2, a3, a4, by rw [a5, hb], a6, a7, a8, a9⟩
  | cons m b ih =>
    intro W hb ha hk hg hh
    obtain ⟨W', a1, a2, a3, a4, a5, a6, a7, a8, a9⟩ := hand W ha hk hh
    have st : World.Step sha1 t p0 W' { W' with inHand := some m, buffer := b } := .receive a2 a6 (by rw [a5, hb])
    obtain ⟨W'', b1, b2, b3, b4, b5, b6, b7, b8, b9⟩ := ih { W' with inHand := some m, buffer := b } rfl a2 a9
      (fun x hx => hg x (by rw [hb]; exact List.mem_cons_of_mem _ hx))
      (by intro x hx; cases hx; exact hg m (by rw [hb]; simp))
    exact ⟨W'', Leads.trans (a1.step st) b1, b2, b3.trans a3, b4.trans a4, b5, b6, b7.trans a7, b8.trans a8, b9⟩

end Gotit.Props
