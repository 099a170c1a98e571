import Verif.Lemmas.World
/-
  Downloads in which one peer sends pieces without being asked.
-/
namespace Gotit.Props
open Gotit Spec

/-- One peer, nothing cancelled, and the state of the rest. -/
structure Solo (W : World) (r : Run) (buffer : List PeerMessage) (inHand : Option PeerMessage) (out : Written) (written : List PeerMessage)
    (trace : List (Nat × RunEv)) : Prop where
  peers : W.peers = [(0, r)]
  cancelled : W.cancelled = false
  closed : W.closed = false
  dead : W.dead = false
  alive : r.loc ≠ .panicked
  buffer : W.buffer = buffer
  inHand : W.inHand = inHand
  out : W.out = out
  written : W.written = written
  trace : W.trace = trace

theorem Solo.isAlive {W r b h o w tr} (s : Solo W r b h o w tr) : W.alive :=
  ⟨s.dead, by rw [s.peers]; intro x hx; rw [List.mem_singleton] at hx; subst hx; exact s.alive⟩

/-- Reachable in this form. -/
def At (sha1 : Bytes → Bytes) (t : Torrent) (p0 : Peer) (disk : Disk) (r : Run) (buffer : List PeerMessage) (inHand : Option PeerMessage)
    (out : Written) (written : List PeerMessage) (trace : List (Nat × RunEv)) : Prop :=
  ∃ W, World.Reachable sha1 t p0 disk W ∧ Solo W r buffer inHand out written trace

variable {sha1 : Bytes → Bytes} {t : Torrent} {p0 : Peer} {disk : Disk}

/-- What `Run` sees. -/
def seen (o : Written) (r : Run) : Run := { r with cancelled := false, done := o.downloaded.all, closed := false }

theorem Solo.sync {W r b h o w tr} (s : Solo W r b h o w tr) : r.sync W = seen o r := by
  unfold Run.sync seen; rw [s.cancelled, s.closed, s.out]

/-- Events that touch nothing shared. -/
def quietEv : RunEv → Bool
  | .sent _ | .sendFailed _ | .received _ | .readFailed => true
  | _ => false

theorem quiet_effects {q : Nat} {b : BitSet} {W : World} : ∀ {es : List RunEv}, (∀ e ∈ es, quietEv e = true) → World.Effects q b W es W := by
  intro es
  induction es with
  | nil => exact fun _ => .nil
  | cons e es ih =>
    intro h
    have he := h e (by simp)
    have ih := ih (fun x hx => h x (by simp [hx]))
    cases e with
    | sent m => exact .cons .sent ih
    | sendFailed m => exact .cons .sendFailed ih
    | received f => exact .cons .received ih
    | readFailed => exact .cons .readFailed ih
    | _ => simp [quietEv] at he

theorem At.quiet {r r' : Run} {b h o w tr} (es : List RunEv) (a : At sha1 t p0 disk r b h o w tr) (st : Run.Step sha1 t (seen o r) r')
    (hl : r'.log = r.log ++ es) (hq : ∀ e ∈ es, quietEv e = true) (hp : r'.loc ≠ .panicked) :
    At sha1 t p0 disk r' b h o w (tr ++ es.map (fun e => (0, e))) := by
  obtain ⟨W, hW, s⟩ := a
  rw [← s.sync] at st
  refine ⟨_, hW.step (.peer (i := 0) (q := 0) (r := r) s.isAlive (by rw [s.peers]; rfl) st hl (quiet_effects hq)), ?_⟩
  exact ⟨by simp [s.peers], s.cancelled, s.closed, s.dead, hp, s.buffer, s.inHand, s.out, s.written, by simp [s.trace]⟩

theorem At.silent {r r' : Run} {b h o w tr} (a : At sha1 t p0 disk r b h o w tr) (st : Run.Step sha1 t (seen o r) r')
    (hl : r'.log = r.log) (hp : r'.loc ≠ .panicked) : At sha1 t p0 disk r' b h o w tr := by
  simpa using a.quiet [] st (by simpa using hl) (by simp) hp

theorem At.accept {r : Run} {b h o w tr} {m : PeerMessage} {u : Bool} (a : At sha1 t p0 disk r b h o w tr) (hl : r.loc = .deliver m u)
    (hb : b.length < pieceChCap) :
    At sha1 t p0 disk ((seen o r).emit [.accepted m] (if u then .ifRequest else .loopTop)) (b ++ [m]) h o w (tr ++ [(0, .accepted m)]) := by
  obtain ⟨W, hW, s⟩ := a
  have st : Run.Step sha1 t (r.sync W) ((seen o r).emit [.accepted m] (if u then .ifRequest else .loopTop)) := by
    rw [s.sync]; exact .delivered hl rfl
  refine ⟨_, hW.step (.peer (i := 0) (q := 0) (r := r) s.isAlive (by rw [s.peers]; rfl) st rfl
    (.cons (.accepted (by rw [s.buffer]; exact hb)) .nil)), ?_⟩
  exact ⟨by simp [s.peers], s.cancelled, s.closed, s.dead, by simp only [Run.emit]; split <;> simp, by simp [s.buffer], s.inHand, s.out,
    s.written, by simp [s.trace]⟩

theorem At.written {r : Run} {o o' w tr} {m : PeerMessage} {fl : Faults} (a : At sha1 t p0 disk r [m] none o w tr) (hw : writeOneF fl t o m = .ok o') :
    At sha1 t p0 disk r [] none o' (w ++ [m]) tr := by
  obtain ⟨W, hW, s⟩ := a
  have h1 := hW.step (.receive s.isAlive s.inHand s.buffer)
  refine ⟨_, h1.step (.write (m := m) (w := o') fl ⟨s.dead, s.isAlive.2⟩ rfl (by simp only [s.out]; exact hw)), ?_⟩
  exact ⟨s.peers, s.cancelled, s.closed, s.dead, s.alive, rfl, rfl, rfl, by simp [s.written], s.trace⟩

theorem At.start (hp : p0.clientChoked = true) : ∃ r, At sha1 t p0 disk r [] none ⟨disk, t.downloaded, 0⟩ [] [] ∧ r.loc = .loopTop ∧
    r.peer.clientChoked = true ∧ r.sentPieceMsg = false :=
  ⟨Run.start p0, ⟨_, World.Reachable.start.step (.spawn 0 ⟨rfl, (fun x hx => by cases hx)⟩),
    ⟨rfl, rfl, rfl, rfl, by simp [Run.start], rfl, rfl, rfl, rfl, rfl⟩⟩, rfl, hp, rfl⟩

/-- After a verified piece message. -/
def gotPiece (s : Run) (m : PeerMessage) (f : Bytes) : Run :=
  { s with log := s.log ++ [.received f], peer := { s.peer with bitset := s.peer.bitset.set m.index }, loc := .deliver m true }

/-- A peer that was not asked sends a piece; it is verified and written, as far as the disk lets it. -/
theorem At.pushF {fl : Faults} {r : Run} {o o' w tr} {m : PeerMessage} {f : Bytes} (a : At sha1 t p0 disk r [] none o w tr) (h1 : r.loc = .loopTop)
    (h2 : r.peer.clientChoked = true) (h3 : r.sentPieceMsg = false) (hd : o.downloaded.all = false) (hf : newPeerMessage f = .ok m)
    (ht : m.type = pieceType) (ha : acceptPiece sha1 t m = .ok (some m)) (hw : writeOneF fl t o m = .ok o') :
    ∃ r', At sha1 t p0 disk r' [] none o' (w ++ [m])
        (tr ++ [(0, .sent interestedMessage), (0, .received f), (0, .accepted m), (0, .readFailed)]) ∧
      r'.loc = .loopTop ∧ r'.peer.clientChoked = true ∧ r'.sentPieceMsg = false := by
  have s1 := a.silent (.ctxOk h1 rfl) rfl (by simp [Run.goto])
  have s2 := s1.silent (.notDone rfl hd) rfl (by simp [Run.goto])
  have s3 := s2.silent (.notDue rfl) rfl (by simp [Run.goto])
  have s4 := s3.silent (.choked rfl h2) rfl (by simp [Run.goto])
  have s5 := s4.silent (.uCtxOk rfl rfl) rfl (by simp [Run.goto])
  have s6 := s5.quiet [.sent interestedMessage] (.uSent rfl) rfl (by simp [quietEv]) (by simp [Run.emit])
  have hh : ∀ s : Run, s.handle sha1 t f true = gotPiece s m f := by
    intro s
    unfold Run.handle gotPiece
    rw [hf]
    simp [Res.bind, Peer.handlePeerMessage, ht, ha, keepaliveType, bitfieldType, haveType, interestedType, notInterestedType, chokeType, unchokeType, pieceType]
  have hstep : ∀ s : Run, s.loc = .unchokeRead → Run.Step sha1 t s (gotPiece s m f) := by
    intro s hs
    rw [← hh s]
    exact .uRead f hs
  have s7 := s6.quiet [.received f] (hstep _ rfl) rfl (by simp [quietEv]) (by simp [gotPiece])
  have s8 := s7.accept rfl (by decide)
  have s9 := s8.silent (.noRequest rfl (.inl h2)) rfl (by simp [Run.goto])
  have s10 := s9.quiet [.readFailed] (.readFail rfl h3) rfl (by simp [quietEv]) (by simp [Run.emit])
  have s11 := s10.silent (.waited rfl) rfl (by simp [Run.goto])
  have s12 := s11.written hw
  have e : ∀ (x : List (Nat × RunEv)) (r' : Run), At sha1 t p0 disk r' [] none o' (w ++ [m]) x →
      x = tr ++ [(0, .sent interestedMessage), (0, .received f), (0, .accepted m), (0, .readFailed)] →
      At sha1 t p0 disk r' [] none o' (w ++ [m])
        (tr ++ [(0, .sent interestedMessage), (0, .received f), (0, .accepted m), (0, .readFailed)]) := fun x r' a hx => hx ▸ a
  exact ⟨_, e _ _ s12 (by simp), rfl, h2, h3⟩

/-- A peer that was not asked sends a piece; it is verified and written. -/
theorem At.push {r : Run} {o o' w tr} {m : PeerMessage} {f : Bytes} (a : At sha1 t p0 disk r [] none o w tr) (h1 : r.loc = .loopTop)
    (h2 : r.peer.clientChoked = true) (h3 : r.sentPieceMsg = false) (hd : o.downloaded.all = false) (hf : newPeerMessage f = .ok m)
    (ht : m.type = pieceType) (ha : acceptPiece sha1 t m = .ok (some m)) (hw : writeOne t o m = .ok o') :
    ∃ r', At sha1 t p0 disk r' [] none o' (w ++ [m])
        (tr ++ [(0, .sent interestedMessage), (0, .received f), (0, .accepted m), (0, .readFailed)]) ∧
      r'.loc = .loopTop ∧ r'.peer.clientChoked = true ∧ r'.sentPieceMsg = false :=
  a.pushF (fl := Faults.none) h1 h2 h3 hd hf ht ha (by rw [writeOneF_none]; exact hw)

end Gotit.Props
