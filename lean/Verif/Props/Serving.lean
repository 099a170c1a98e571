import Verif.Spec.Serving
import Verif.Props.World
/-
  C96: the client never gives anything to other peers.
-/
namespace Gotit.Props
open Gotit Spec

/-- The two messages a new peer is ever sent, as the other side hears them. -/
theorem hear_interested : hearWire interestedMessage.wire = .signal 2 := by decide +kernel
theorem hear_keepalive : hearWire keepaliveMessage.wire = .keepalive := by decide +kernel

/-- Everything written to the connection is an interested message, a keep-alive or a request. -/
theorem run_sends {sha1 : Bytes → Bytes} {t : Torrent} {p0 : Peer} {s : Run} (h : Run.Reachable sha1 t p0 s) :
    (∀ m, RunEv.sent m ∈ s.log → m = interestedMessage ∨ m = keepaliveMessage ∨ m.type = requestType) ∧
    ∀ m, s.loc = .sendRequest m → m.type = requestType := by
  induction h with
  | start => exact ⟨fun m h => by simp [Run.start] at h, fun m h => by simp [Run.start] at h⟩
  | env _ st ih => cases st <;> exact ih
  | @step s s' hr st ih =>
    obtain ⟨h1, h2⟩ := ih
    have emit : ∀ es l, (∀ m, RunEv.sent m ∈ es → m = interestedMessage ∨ m = keepaliveMessage ∨ m.type = requestType) →
        (∀ m, l ≠ .sendRequest m) →
        (∀ m, RunEv.sent m ∈ (s.emit es l).log → m = interestedMessage ∨ m = keepaliveMessage ∨ m.type = requestType) ∧
        ∀ m, (s.emit es l).loc = .sendRequest m → m.type = requestType := by
      intro es l e1 e2
      refine ⟨fun m hm => ?_, fun m hm => absurd hm (e2 m)⟩
      rcases List.mem_append.1 hm with hm | hm
      · exact h1 m hm
      · exact e1 m hm
    have move : ∀ l, (∀ m, l ≠ .sendRequest m) →
        (∀ m, RunEv.sent m ∈ (s.goto l).log → m = interestedMessage ∨ m = keepaliveMessage ∨ m.type = requestType) ∧
        ∀ m, (s.goto l).loc = .sendRequest m → m.type = requestType :=
      fun l e => ⟨h1, fun m hm => absurd hm (e m)⟩
    have hand : ∀ f b, (∀ m, RunEv.sent m ∈ (s.handle sha1 t f b).log → m = interestedMessage ∨ m = keepaliveMessage ∨ m.type = requestType) ∧
        ∀ m, (s.handle sha1 t f b).loc = .sendRequest m → m.type = requestType := by
      intro f b
      obtain ⟨g1, _⟩ := emit [.received f] .loopTop (by simp) (by simp)
      unfold Run.handle
      simp only
      split
      · refine ⟨g1, fun m hm => ?_⟩
        simp only at hm
        split at hm <;> cases hm
      · exact ⟨g1, fun m hm => by cases hm⟩
      · exact ⟨g1, fun m hm => by cases hm⟩
    cases st with
    | kept e => exact emit _ _ (by simp) (by simp)
    | keepFail e => exact emit _ _ (by simp) (by simp)
    | uSent e => exact emit _ _ (by simp) (by simp)
    | uSendFail e => exact emit _ _ (by simp) (by simp)
    | uReadFail e => exact emit _ _ (by simp) (by simp)
    | readFail e _ => exact emit _ _ (by simp) (by simp)
    | delivered e _ => exact emit _ _ (by simp) (by intro m; split <;> simp)
    | uRead f e => exact hand _ _
    | read f e => exact hand _ _
    | next failed nxt e c1 c2 c3 c4 =>
      refine ⟨fun m hm => ?_, fun m hm => ?_⟩
      · rcases List.mem_append.1 hm with hm | hm
        · exact h1 m hm
        · obtain ⟨x, _, hx⟩ := List.mem_map.1 hm; cases hx
      · simp only at hm
        split at hm
        · cases hm
        · rename_i m' hm'
          simp only [RunLoc.sendRequest.injEq] at hm
          subst hm
          exact nextRequest_type c4 hm'
    | @requestSent m e =>
      refine ⟨fun m' hm => ?_, fun m' hm => by cases hm⟩
      rcases List.mem_append.1 hm with hm | hm
      · exact h1 m' hm
      · simp at hm
        subst hm
        exact .inr (.inr (h2 _ e))
    | requestFail e => exact emit _ _ (by simp) (by simp)
    | requeued e => exact emit _ _ (by simp) (by simp)
    | readFailWaiting e c => exact emit [.readFailed] (.requeue s.requestMsg) (by simp) (by simp)
    | _ => exact move _ (by simp)

/-- Whatever the peers say, all that any of them ever hears from the client after the
handshake are "interested" messages and keep-alives. Nobody is unchoked, nobody gets a block, nobody is told what the client has. -/
theorem C96_never_partial (sha1 : Bytes → Bytes) (t : Torrent) (disk : Disk) (W : World) (hW : World.Reachable sha1 t (newPeer t) disk W) (i : Nat) :
    (∀ h ∈ toldTo i W.trace, h = .signal 2 ∨ h = .keepalive) ∧ ¬ Served i W.trace := by
  have key : ∀ h ∈ toldTo i W.trace, h = .signal 2 ∨ h = .keepalive := by
    intro h hh
    obtain ⟨⟨j, e⟩, h1, h2⟩ := List.mem_filterMap.1 hh
    cases e with
    | sent m =>
      simp only at h2
      split at h2
      · rename_i hj
        subst hj
        simp only [Option.some.injEq] at h2
        obtain ⟨t1, t2⟩ := world_trace hW
        have hil : j < W.peers.length := t1 _ h1
        have hp : W.peers[j]? = some (W.peers[j].1, W.peers[j].2) := by rw [List.getElem?_eq_getElem hil]
        have hlog := t2 j W.peers[j].1 W.peers[j].2 hp
        have hrun := (world_proj hW _ (List.getElem_mem hil)).1
        have hm : RunEv.sent m ∈ W.peers[j].2.log := by
          rw [hlog, List.mem_filterMap]
          exact ⟨(j, .sent m), h1, by simp⟩
        rcases (run_sends hrun).1 m hm with e | e | e
        · exact .inl (by rw [← h2, e, hear_interested])
        · exact .inr (by rw [← h2, e, hear_keepalive])
        · have hno := (C52_violated sha1 t _ hrun).1
          have : m ∈ requestsSent W.peers[j].2.log := by
            unfold requestsSent
            rw [List.mem_filterMap]
            exact ⟨.sent m, hm, by simp [show m.type = 6 from e]⟩
          rw [hno] at this
          cases this
      · cases h2
    | _ => simp at h2
  refine ⟨key, ?_⟩
  rintro ⟨h, h1, h2⟩
  rcases key h h1 with e | e <;> subst e <;> simp at h2

/-- A frame that is not a piece, read from a choking peer. -/
theorem At.hears {sha1 : Bytes → Bytes} {t : Torrent} {p0 : Peer} {disk : Disk} {r : Run} {o w tr} {f : Bytes} (a : At sha1 t p0 disk r [] none o w tr)
    (h1 : r.loc = .loopTop) (h2 : r.peer.clientChoked = true) (h3 : r.sentPieceMsg = false) (hd : o.downloaded.all = false)
    (hf : ∀ p : Peer, ∃ p' : Peer, (newPeerMessage f).bind (p.handlePeerMessage sha1 t) = .ok (none, p') ∧ p'.clientChoked = p.clientChoked) :
    ∃ r', At sha1 t p0 disk r' [] none o w (tr ++ [(0, .sent interestedMessage), (0, .received f), (0, .readFailed)]) ∧
      r'.loc = .loopTop ∧ r'.peer.clientChoked = true ∧ r'.sentPieceMsg = false := by
  have s1 := a.silent (.ctxOk h1 rfl) rfl (by simp [Run.goto])
  have s2 := s1.silent (.notDone rfl hd) rfl (by simp [Run.goto])
  have s3 := s2.silent (.notDue rfl) rfl (by simp [Run.goto])
  have s4 := s3.silent (.choked rfl h2) rfl (by simp [Run.goto])
  have s5 := s4.silent (.uCtxOk rfl rfl) rfl (by simp [Run.goto])
  have s6 := s5.quiet [.sent interestedMessage] (.uSent rfl) rfl (by simp [quietEv]) (by simp [Run.emit])
  obtain ⟨p', e1, e2⟩ := hf r.peer
  have hh : ∀ s : Run, s.peer = r.peer → s.handle sha1 t f true = { s with log := s.log ++ [.received f], peer := p', loc := .ifRequest } := by
    intro s hs
    unfold Run.handle
    simp only [hs, e1]
    rfl
  have hstep : ∀ s : Run, s.peer = r.peer → s.loc = .unchokeRead →
      Run.Step sha1 t s { s with log := s.log ++ [.received f], peer := p', loc := .ifRequest } := by
    intro s hp hs
    rw [← hh s hp]
    exact .uRead f hs
  have s7 := s6.quiet [.received f] (hstep _ rfl rfl) rfl (by simp [quietEv]) (by simp)
  have s9 := s7.silent (.noRequest rfl (.inl (e2.trans h2))) rfl (by simp [Run.goto])
  have s10 := s9.quiet [.readFailed] (.readFail rfl h3) rfl (by simp [quietEv]) (by simp [Run.emit])
  have s11 := s10.silent (.waited rfl) rfl (by simp [Run.goto])
  have e : ∀ (x : List (Nat × RunEv)) (r' : Run), At sha1 t p0 disk r' [] none o w x →
      x = tr ++ [(0, .sent interestedMessage), (0, .received f), (0, .readFailed)] →
      At sha1 t p0 disk r' [] none o w (tr ++ [(0, .sent interestedMessage), (0, .received f), (0, .readFailed)]) := fun x r' a hx => hx ▸ a
  exact ⟨_, e _ _ s11 (by simp), rfl, e2.trans h2, h3⟩

/-- The frame of a request. -/
def requestFrame (index begin_ length : Nat) : Bytes := 6 :: (putBE 4 index ++ putBE 4 begin_ ++ putBE 4 length)

theorem hear_requestFrame {index begin_ length : Nat} (h1 : index < 2 ^ 32) (h2 : begin_ < 2 ^ 32) (h3 : length < 2 ^ 32) :
    hear (requestFrame index begin_ length) = .request index begin_ length := by
  have e0 : num4 (putBE 4 index ++ putBE 4 begin_ ++ putBE 4 length) 0 = index := by
    rw [List.append_assoc]; exact num4_first _ _ h1
  have e4 : num4 (putBE 4 index ++ putBE 4 begin_ ++ putBE 4 length) 4 = begin_ := by
    rw [List.append_assoc, num4, drop_prefix (by simp), take_prefix (by simp), bigEndian_putBE _ _ (by omega)]
  have e8 : num4 (putBE 4 index ++ putBE 4 begin_ ++ putBE 4 length) 8 = length := by
    rw [num4, drop_prefix (by simp), List.take_of_length_le (by simp), bigEndian_putBE _ _ (by omega)]
  simp only [requestFrame, hear, e0, e4, e8]
  rw [if_neg (by decide), if_neg (by decide), if_neg (by decide), if_pos trivial, if_pos (by simp)]

/-- The client looks at no request. -/
theorem request_ignored {sha1 : Bytes → Bytes} {t : Torrent} {index begin_ length : Nat} (p : Peer) :
    ∃ p' : Peer, (newPeerMessage (requestFrame index begin_ length)).bind (p.handlePeerMessage sha1 t) = .ok (none, p') ∧
      p'.clientChoked = p.clientChoked := by
  refine ⟨p, ?_, rfl⟩
  have hl : (putBE 4 index ++ putBE 4 begin_ ++ putBE 4 length).length = 12 := by simp
  unfold newPeerMessage requestFrame
  simp only [uint32At, hl]
  rw [if_neg (by decide), if_pos (.inl rfl), if_neg (by decide), if_neg (by decide), if_neg (by decide)]
  simp only [Res.bind, Peer.handlePeerMessage]
  rw [if_neg (by decide), if_neg (by decide), if_neg (by decide), if_neg (by decide), if_neg (by decide), if_neg (by decide),
    if_neg (by decide), if_neg (by decide)]

theorem interested_noted {sha1 : Bytes → Bytes} {t : Torrent} (p : Peer) :
    ∃ p' : Peer, (newPeerMessage [2]).bind (p.handlePeerMessage sha1 t) = .ok (none, p') ∧ p'.clientChoked = p.clientChoked :=
  ⟨{ p with peerInterested := true }, rfl, rfl⟩

/-- C96 is false of the code. For every torrent of more than one piece there is a download in which the first piece has been verified
and is stored, and a peer is interested and has asked for it; and in no download of it is any peer ever served. -/
theorem C96_violated (sha1 : Bytes → Bytes) (os : Os) (mi : Metainfo) (root : Bytes) (disk disk' : Disk) (t : Torrent)
    (hn : newTorrent sha1 os mi root disk = (.ok t, disk')) (hs : Sensible mi) (content : Bytes) (pl : Nat)
    (hc : ContentOf sha1 t content pl) (hsz : content.length ≤ 2 ^ 51) (hpl : pl + 9 < 2 ^ 32)
    (hcount : content.length ≤ t.pieces.length * pl) (hnum : t.pieces.length ≤ 2 ^ 32) (htwo : pl < content.length) :
    (∃ W, World.Reachable sha1 t (newPeer t) disk' W ∧ W.out.downloaded.bit 0 = true ∧
      (∀ i, i < pl → (layout W.out.disk (extents t))[i]? = content[i]?) ∧
      .signal 2 ∈ saidBy 0 W.trace ∧ .request 0 0 pl ∈ saidBy 0 W.trace) ∧
    ∀ W, World.Reachable sha1 t (newPeer t) disk' W → ∀ i, ¬ Served i W.trace := by
  refine ⟨?_, fun W hW i => (C96_never_partial sha1 t disk' W hW i).2⟩
  obtain ⟨hr, hw, htot, _⟩ := C41_reachable _ _ _ _ _ _ _ hn hs
  have hp0 := hc.positive
  have hne : content ≠ [] := by intro e; subst e; simp at htwo
  obtain ⟨k, k0, hdown, k1, k2, hidx⟩ := new_count hn hs hc hne hsz (by omega)
  have hk2 : 1 < k := (hidx 1).1 (by omega)
  have hkl : k ≤ t.pieces.length := by
    apply Classical.byContradiction
    intro h
    have : t.pieces.length * pl ≤ (k - 1) * pl := Nat.mul_le_mul_right _ (by omega)
    omega
  obtain ⟨w', f1, _, f3, f4, f5⟩ := first_pieces hr hc hw hdown hidx (by omega) 1 (by omega)
  obtain ⟨r, a0, a1, a2, a3⟩ := At.start (sha1 := sha1) (t := t) (p0 := newPeer t) (disk := disk') rfl
  obtain ⟨b1, b2, -⟩ := pieceMsg_ok 0 0 (pieceOf content pl 0) (by omega) (by omega)
  have hw1 : writeOne t ⟨disk', t.downloaded, 0⟩ (pieceMsg 0 0 (pieceOf content pl 0)) = .ok w' := by
    have : writePieces t [pieceMsg 0 0 (pieceOf content pl 0)] ⟨disk', t.downloaded, 0⟩ = .ok w' := f1
    simp only [writePieces] at this
    cases h : writeOne t ⟨disk', t.downloaded, 0⟩ (pieceMsg 0 0 (pieceOf content pl 0)) <;> rw [h] at this <;> simp [Res.bind] at this
    rw [this]
  have hnd : BitSet.all t.downloaded = false := by
    cases hall : t.downloaded.all with
    | false => rfl
    | true =>
      rw [BitSet.all_iff] at hall
      have := hall 0 (by rw [hdown]; exact k0)
      rw [hdown] at this
      simp [BitSet.new] at this
  have hnd' : w'.downloaded.all = false := by
    cases hall : w'.downloaded.all with
    | false => rfl
    | true =>
      rw [BitSet.all_iff] at hall
      have := (f4 _).1 (hall 1 (by rw [f3]; exact hk2))
      omega
  obtain ⟨r1, c1, c2, c3, c4⟩ := a0.push a1 a2 a3 hnd b1 b2 (pieceMsg_accepted hc (by omega) (by omega) (by omega)) hw1
  obtain ⟨r2, d1, d2, d3, d4⟩ := c1.hears c2 c3 c4 hnd' interested_noted
  obtain ⟨r3, ⟨W, hW, so⟩, -⟩ := d1.hears d2 d3 d4 hnd' (f := requestFrame 0 0 pl) request_ignored
  refine ⟨W, hW, ?_, ?_, ?_, ?_⟩
  · rw [so.out, f4]; omega
  · intro i hi
    rw [so.out, f5 i (by omega), if_pos (by rw [Nat.div_eq_of_lt hi]; omega)]
  · rw [so.trace, saidBy, List.mem_filterMap]
    exact ⟨(0, .received [2]), by simp, rfl⟩
  · rw [so.trace, saidBy, List.mem_filterMap]
    exact ⟨(0, .received (requestFrame 0 0 pl)), by simp, by simp [hear_requestFrame (index := 0) (begin_ := 0) (length := pl) (by omega) (by omega) (by omega)]⟩

/-- C96: eight bytes in two pieces. -/
example : ∃ t disk' W, World.Reachable (fun _ => List.replicate 20 1) t (newPeer t) disk' W ∧ W.out.downloaded.bit 0 = true ∧
    .request 0 0 4 ∈ saidBy 0 W.trace ∧ ¬ Served 0 W.trace := by
  obtain ⟨t, d', h1, h2, h3, h4, _⟩ := fewBytes_opens 8 2 (by omega) (by omega) (by omega) [1, 2, 3, 4, 5, 6, 7, 8] rfl
  obtain ⟨⟨W, g1, g2, _, _, g3⟩, g4⟩ := C96_violated _ _ _ _ _ _ _ h1 h2 _ 4 h3 (by simp) (by omega) (by rw [h4]; decide) (by omega)
    (by simp)
  exact ⟨t, d', W, g1, g2, g3, g4 W g1 0⟩

/-- C96, the function that is there for it: `SendUnchoke` sends a message iff the peer has said it is interested and the connection takes it;
the message is the unchoke of the protocol (length 1, id 1); the peer counts as unchoked exactly then; it fails exactly if the connection does,
and nothing else about the peer changes. No function calls it. -/
theorem C96_unchoke (p : Peer) (sendOk : Bool) :
    (p.sendUnchoke sendOk).1.map PeerMessage.wire = (if p.peerInterested = true ∧ sendOk = true then some [0, 0, 0, 1, 1] else none) ∧
      ((∃ e, (p.sendUnchoke sendOk).2.1 = .err e) ↔ p.peerInterested = true ∧ sendOk = false) ∧
      (∀ w, (p.sendUnchoke sendOk).2.1 ≠ .panic w) ∧
      (p.sendUnchoke sendOk).2.2 = { p with peerChoked := p.peerChoked && !(p.peerInterested && sendOk) } := by
  obtain ⟨_, pc, pi, _, _, _, _, _⟩ := p
  cases pi <;> cases sendOk <;> cases pc <;> simp [Peer.sendUnchoke] <;> decide

end Gotit.Props
