import Verif.Spec.RunState
import Verif.Props.PeerRun
/-
  C57 for whole executions of `Run`.
-/
namespace Gotit.Props
open Gotit Spec

/-- The part of a peer that messages change. -/
def msgPart (p : Peer) : BitSet × Bool × Bool × Bool := (p.bitset, p.clientChoked, p.peerInterested, p.peerChoked)

theorem handle_part {sha1 : Bytes → Bytes} {t : Torrent} {p q : Peer} {m : PeerMessage} (h : msgPart p = msgPart q) {o p'}
    (hp : p.handlePeerMessage sha1 t m = .ok (o, p')) : ∃ q', q.handlePeerMessage sha1 t m = .ok (o, q') ∧ msgPart p' = msgPart q' := by
  obtain ⟨p1, p2, p3, p4, p5, p6, p7, p8⟩ := p
  obtain ⟨q1, q2, q3, q4, q5, q6, q7, q8⟩ := q
  simp only [msgPart, Prod.mk.injEq] at h
  obtain ⟨rfl, rfl, rfl, rfl⟩ := h
  unfold Peer.handlePeerMessage at hp ⊢
  by_cases c : m.type = keepaliveType
  · rw [if_pos c] at hp ⊢
    cases hp; exact ⟨_, rfl, rfl⟩
  rw [if_neg c] at hp ⊢
  clear c
  by_cases c : m.type = bitfieldType
  · rw [if_pos c] at hp ⊢
    cases hp; exact ⟨_, rfl, rfl⟩
  rw [if_neg c] at hp ⊢
  clear c
  by_cases c : m.type = haveType
  · rw [if_pos c] at hp ⊢
    cases hp; exact ⟨_, rfl, rfl⟩
  rw [if_neg c] at hp ⊢
  clear c
  by_cases c : m.type = interestedType
  · rw [if_pos c] at hp ⊢
    cases hp; exact ⟨_, rfl, rfl⟩
  rw [if_neg c] at hp ⊢
  clear c
  by_cases c : m.type = notInterestedType
  · rw [if_pos c] at hp ⊢
    cases hp; exact ⟨_, rfl, rfl⟩
  rw [if_neg c] at hp ⊢
  clear c
  by_cases c : m.type = chokeType
  · rw [if_pos c] at hp ⊢
    cases hp; exact ⟨_, rfl, rfl⟩
  rw [if_neg c] at hp ⊢
  clear c
  by_cases c : m.type = unchokeType
  · rw [if_pos c] at hp ⊢
    cases hp; exact ⟨_, rfl, rfl⟩
  rw [if_neg c] at hp ⊢
  clear c
  by_cases c : m.type = pieceType
  · rw [if_pos c] at hp ⊢
    cases ha : acceptPiece sha1 t m with
    | ok x =>
      rw [ha] at hp
      cases x with
      | none => cases hp; exact ⟨_, rfl, rfl⟩
      | some x => cases hp; exact ⟨_, rfl, rfl⟩
    | err e => rw [ha] at hp; cases hp
    | panic e => rw [ha] at hp; cases hp
  rw [if_neg c] at hp ⊢
  cases hp; exact ⟨_, rfl, rfl⟩

theorem nextRequest_part {p : Peer} {failed next} : msgPart (p.nextRequestMessage failed next).2.1 = msgPart p := by
  unfold Peer.nextRequestMessage
  split
  · cases failed with
    | some m => rfl
    | none => cases next <;> rfl
  · rfl

/-- The messages received so far, all understood, have led to this state. -/
def Follows (sha1 : Bytes → Bytes) (t : Torrent) (s : Run) : Prop :=
  ∃ ms out p, (framesRead s.log).map newPeerMessage = ms.map Res.ok ∧ handleAll sha1 t (newPeer t) ms = .ok (out, p) ∧
    msgPart s.peer = msgPart p ∧ givenToWriter s.log ++ offered s = out

theorem Follows.quiet {sha1 : Bytes → Bytes} {t : Torrent} {s : Run} (h : Follows sha1 t s) {s' : Run} {es : List RunEv}
    (hl : s'.log = s.log ++ es) (hp : msgPart s'.peer = msgPart s.peer) (hr : framesRead es = [])
    (hg : givenToWriter es ++ offered s' = offered s) : Follows sha1 t s' := by
  obtain ⟨ms, out, p, h1, h2, h3, h4⟩ := h
  refine ⟨ms, out, p, ?_, h2, hp.trans h3, ?_⟩
  · rw [hl, framesRead, List.filterMap_append]
    rw [framesRead] at hr
    rw [hr, List.append_nil]; exact h1
  · rw [← h4, ← hg, hl, givenToWriter, givenToWriter, List.filterMap_append, List.append_assoc]; rfl

theorem framesRead_reqs (l : List ReqEv) : framesRead (l.map .req) = [] := by
  simp [framesRead, List.filterMap_map]
theorem givenToWriter_reqs (l : List ReqEv) : givenToWriter (l.map .req) = [] := by
  simp [givenToWriter, List.filterMap_map]

theorem Follows.handle {sha1 : Bytes → Bytes} {t : Torrent} {s : Run} (h : Follows sha1 t s) (f : Bytes) (b : Bool)
    (ho : offered s = []) : (s.handle sha1 t f b).loc = .panicked ∨ Follows sha1 t (s.handle sha1 t f b) := by
  obtain ⟨ms, out, p, h1, h2, h3, h4⟩ := h
  rw [ho, List.append_nil] at h4
  unfold Run.handle
  cases hm : newPeerMessage f with
  | err e => exact .inl rfl
  | panic e => exact .inl rfl
  | ok m =>
    simp only [Res.bind]
    cases hh : s.peer.handlePeerMessage sha1 t m with
    | err e => exact .inl rfl
    | panic e => exact .inl rfl
    | ok r =>
      obtain ⟨o, p'⟩ := r
      obtain ⟨q', g1, g2⟩ := handle_part h3 hh
      have hfr : (framesRead (s.log ++ [.received f])).map newPeerMessage = (ms ++ [m]).map Res.ok := by
        rw [framesRead, List.filterMap_append, List.map_append, List.map_append, ← h1]
        simp [framesRead, hm]
      have hgw : givenToWriter (s.log ++ [.received f]) = out := by
        rw [← h4, givenToWriter, givenToWriter, List.filterMap_append]; simp
      have hall : handleAll sha1 t (newPeer t) (ms ++ [m]) = .ok (out ++ o.toList, q') := by
        clear h1 h3 h4 hh hfr hgw hm
        revert out
        generalize newPeer t = p0
        induction ms generalizing p0 with
        | nil =>
          intro out h2
          simp only [handleAll, Res.ok.injEq, Prod.mk.injEq] at h2
          obtain ⟨rfl, rfl⟩ := h2
          simp [handleAll, g1, Res.bind]
        | cons a ms ih =>
          intro out h2
          simp only [List.cons_append, handleAll] at h2 ⊢
          cases ha : p0.handlePeerMessage sha1 t a with
          | ok r =>
            rw [ha] at h2
            simp only [Res.bind] at h2 ⊢
            cases hb : handleAll sha1 t r.2 ms with
            | ok r' =>
              rw [hb] at h2
              simp only [Res.ok.injEq, Prod.mk.injEq] at h2
              obtain ⟨rfl, rfl⟩ := h2
              rw [ih r.2 r'.1 hb]
              simp
            | err e => rw [hb] at h2; simp at h2
            | panic e => rw [hb] at h2; simp at h2
          | err e => rw [ha] at h2; simp [Res.bind] at h2
          | panic e => rw [ha] at h2; simp [Res.bind] at h2
      right
      cases o with
      | none =>
        refine ⟨ms ++ [m], _, q', hfr, hall, g2, ?_⟩
        simp only [Option.toList, List.append_nil]
        cases b <;> simpa [offered] using hgw
      | some x =>
        refine ⟨ms ++ [m], _, q', hfr, hall, g2, ?_⟩
        simp only [Option.toList, offered]
        rw [hgw]

theorem Follows.step {sha1 : Bytes → Bytes} {t : Torrent} {s s' : Run} (h : s.loc = .panicked ∨ Follows sha1 t s)
    (st : Run.Step sha1 t s s') : s'.loc = .panicked ∨ Follows sha1 t s' := by
  have hf : Follows sha1 t s := by
    rcases h with h | h
    · cases st <;> simp_all
    · exact h
  clear h
  cases st with
  | uRead f hl => exact hf.handle f true (by simp [offered, hl])
  | read f hl => exact hf.handle f false (by simp [offered, hl])
  | deliverClosed hl hc => exact .inl rfl
  | @delivered m b hl hc =>
    right
    refine hf.quiet (es := [.accepted m]) rfl rfl rfl ?_
    cases b <;> simp [offered, givenToWriter, Run.emit, hl]
  | next failed nxt hl h1 h2 h3 h4 =>
    right
    refine hf.quiet (es := (s.peer.nextRequestMessage failed nxt).2.2.map .req) rfl nextRequest_part (framesRead_reqs _) ?_
    rw [givenToWriter_reqs]
    simp only [offered, hl, List.nil_append]
    cases (s.peer.nextRequestMessage failed nxt).1 <;> rfl
  | kept hl => exact .inr (hf.quiet (es := [.sent keepaliveMessage]) rfl rfl rfl (by simp [offered, givenToWriter, Run.emit, hl]))
  | keepFail hl => exact .inr (hf.quiet (es := [.sendFailed keepaliveMessage]) rfl rfl rfl (by simp [offered, givenToWriter, Run.emit, hl]))
  | uSent hl => exact .inr (hf.quiet (es := [.sent interestedMessage]) rfl rfl rfl (by simp [offered, givenToWriter, Run.emit, hl]))
  | uSendFail hl => exact .inr (hf.quiet (es := [.sendFailed interestedMessage]) rfl rfl rfl (by simp [offered, givenToWriter, Run.emit, hl]))
  | uReadFail hl => exact .inr (hf.quiet (es := [.readFailed]) rfl rfl rfl (by simp [offered, givenToWriter, Run.emit, hl]))
  | @requestSent m hl => exact .inr (hf.quiet (es := [.sent m]) rfl rfl rfl (by simp [offered, givenToWriter, Run.emit, hl]))
  | @requestFail m hl => exact .inr (hf.quiet (es := [.sendFailed m]) rfl rfl rfl (by simp [offered, givenToWriter, Run.emit, hl]))
  | @requeued m hl => exact .inr (hf.quiet (es := [.requeued m]) rfl rfl rfl (by simp [offered, givenToWriter, Run.emit, hl]))
  | readFailWaiting hl h1 => exact .inr (hf.quiet (es := [.readFailed]) rfl rfl rfl (by simp [offered, givenToWriter, Run.emit, hl]))
  | readFail hl h1 => exact .inr (hf.quiet (es := [.readFailed]) rfl rfl rfl (by simp [offered, givenToWriter, Run.emit, hl]))
  | ctxErr hl | ctxOk hl | isDone hl | notDone hl | notDue hl | choked hl | unchoked hl | uCtxErr hl | uCtxOk hl | uWaited hl
  | uWaitCancel hl | noRequest hl | waited hl | waitCancel hl =>
    exact .inr (hf.quiet (es := []) (by simp [Run.goto]) rfl rfl (by simp [offered, givenToWriter, Run.goto, hl]))

theorem reachable_follows {sha1 : Bytes → Bytes} {t : Torrent} {s : Run} (h : Run.Reachable sha1 t (newPeer t) s) :
    s.loc = .panicked ∨ Follows sha1 t s := by
  induction h with
  | start => exact .inr ⟨[], [], newPeer t, rfl, rfl, rfl, rfl⟩
  | step _ st ih => exact Follows.step ih st
  | env _ st ih => cases st <;> exact ih

open Classical in
/-- C57 for executions of `Run` on a new peer: unless it has crashed, every frame read was a message, and choke flag, interest flag
and piece set are those the messages read so far determine; the pieces the writer was given (and the one it has yet to take) are
the verified ones, in order. -/
theorem C57_run (sha1 : Bytes → Bytes) (t : Torrent) (s : Run) (h : Run.Reachable sha1 t (newPeer t) s) (hl : s.loc ≠ .panicked) :
    ∃ ms, (framesRead s.log).map newPeerMessage = ms.map Res.ok ∧
    (s.peer.clientChoked = true ↔ ∀ m, lastOfTypes chokeType unchokeType ms = some m → m.type = chokeType) ∧
    (s.peer.peerInterested = true ↔ ∃ m, lastOfTypes interestedType notInterestedType ms = some m ∧ m.type = interestedType) ∧
    (∀ j, s.peer.bitset.test j = true ↔
      (∃ m, lastOfTypes bitfieldType bitfieldType ms = some m ∧ (createBitset m.payload).test j = true) ∨
      (∃ m ∈ afterBitfield ms, m.index = j ∧ (m.type = haveType ∨ Verified sha1 t m))) ∧
    givenToWriter s.log ++ offered s = ms.filter (fun m => decide (Verified sha1 t m)) := by
  obtain ⟨ms, out, p, h1, h2, h3, h4⟩ := (reachable_follows h).resolve_left hl
  obtain ⟨a1, a2, a3, a4, _⟩ := C57_state sha1 t ms out p h2
  simp only [msgPart, Prod.mk.injEq] at h3
  obtain ⟨e1, e2, e3, e4⟩ := h3
  exact ⟨ms, h1, by rw [e2]; exact a1, by rw [e3]; exact a2, by rw [e1]; exact a3, h4.trans a4⟩

/-- A run that has read an unchoke message. -/
example (sha1 : Bytes → Bytes) (t : Torrent) : ∃ s, Run.Reachable sha1 t (newPeer t) s ∧ s.loc ≠ .panicked ∧
    framesRead s.log = [[1]] ∧ s.peer.clientChoked = false := by
  have r0 := Run.Reachable.start (sha1 := sha1) (t := t) (p0 := newPeer t)
  have r1 := r0.step (.ctxOk rfl rfl)
  have r2 := r1.step (.notDone rfl rfl)
  have r3 := r2.step (.notDue rfl)
  have r4 := r3.step (.choked rfl rfl)
  have r5 := r4.step (.uCtxOk rfl rfl)
  have r6 := r5.step (.uSent rfl)
  have r7 := r6.step (.uRead [1] rfl)
  refine ⟨_, r7, ?_, rfl, rfl⟩
  intro (h : RunLoc.ifRequest = .panicked)
  cases h

/-! ## C90 -/

/-- C90: `Run` returns only at a point where the context is cancelled, where the torrent is done, or because a keep-alive message
could not be sent; and it does not go on from there. -/
theorem C90_why (sha1 : Bytes → Bytes) (t : Torrent) (s s' : Run) (st : Run.Step sha1 t s s') :
    s.loc ≠ .returned ∧ s.loc ≠ .panicked ∧
    (s'.loc = .returned → s.cancelled = true ∧ s'.log = s.log ∨ s.done = true ∧ s'.log = s.log ∨
      s'.log = s.log ++ [.sendFailed keepaliveMessage]) := by
  cases st with
  | keepFail hl => exact ⟨by simp [hl], by simp [hl], fun _ => .inr (.inr rfl)⟩
  | ctxErr hl hc => exact ⟨by simp [hl], by simp [hl], fun _ => .inl ⟨hc, rfl⟩⟩
  | isDone hl hd => exact ⟨by simp [hl], by simp [hl], fun _ => .inr (.inl ⟨hd, rfl⟩)⟩
  | uCtxErr hl hc => exact ⟨by simp [hl], by simp [hl], fun _ => .inl ⟨hc, rfl⟩⟩
  | uWaitCancel hl hc => exact ⟨by simp [hl], by simp [hl], fun _ => .inl ⟨hc, rfl⟩⟩
  | waitCancel hl hc => exact ⟨by simp [hl], by simp [hl], fun _ => .inl ⟨hc, rfl⟩⟩
  | uRead f hl =>
    refine ⟨by simp [hl], by simp [hl], ?_⟩
    unfold Run.handle
    simp only
    split <;> intro h <;> simp [Run.goto] at h
  | read f hl =>
    refine ⟨by simp [hl], by simp [hl], ?_⟩
    unfold Run.handle
    simp only
    split <;> intro h <;> simp [Run.goto] at h
  | next failed nxt hl h1 h2 h3 h4 =>
    refine ⟨by simp [hl], by simp [hl], ?_⟩
    intro h
    simp only at h
    cases hx : (s.peer.nextRequestMessage failed nxt).1 <;> rw [hx] at h <;> cases h
  | delivered hl hc =>
    refine ⟨by simp [hl], by simp [hl], ?_⟩
    intro h
    simp only [Run.emit] at h
    split at h <;> cases h
  | _ => exact ⟨by simp [*], by simp [*], fun h => by simp [Run.goto, Run.emit] at h⟩

/-- C90: once a keep-alive message could not be sent, `Run` has returned, and nothing was sent or read afterwards. -/
theorem C90_keepalive (sha1 : Bytes → Bytes) (t : Torrent) (p0 : Peer) (s : Run) (h : Run.Reachable sha1 t p0 s)
    (hk : .sendFailed keepaliveMessage ∈ s.log) :
    s.loc = .returned ∧ ∃ before, s.log = before ++ [.sendFailed keepaliveMessage] ∧ .sendFailed keepaliveMessage ∉ before := by
  have hne : ∀ (m : PeerMessage), m.type = requestType → m ≠ keepaliveMessage := by
    intro m hm e; rw [e] at hm; exact absurd hm (by decide)
  induction h with
  | start => simp [Run.start] at hk
  | env _ st ih => cases st <;> exact ih hk
  | @step s s' hr st ih =>
    by_cases hin : .sendFailed keepaliveMessage ∈ s.log
    · exact absurd (ih hin).1 (C90_why sha1 t s s' st).1
    · have inv := reachable_inv hr
      cases st with
      | keepFail hl => exact ⟨rfl, s.log, rfl, hin⟩
      | @requestFail m hl =>
        exfalso
        simp only [Run.emit, List.mem_append, List.mem_singleton, RunEv.sendFailed.injEq] at hk
        rcases hk with hk | hk
        · exact hin hk
        · exact hne m (inv.send m hl).1 hk.symm
      | uSendFail hl =>
        exfalso
        simp only [Run.emit, List.mem_append, List.mem_singleton, RunEv.sendFailed.injEq] at hk
        rcases hk with hk | hk
        · exact hin hk
        · exact absurd (congrArg PeerMessage.type hk) (by decide)
      | next => 
        exfalso
        simp [hin] at hk
      | uRead f hl =>
        exfalso
        unfold Run.handle at hk
        simp only at hk
        split at hk <;> simp [Run.goto, hin] at hk
      | read f hl =>
        exfalso
        unfold Run.handle at hk
        simp only at hk
        split at hk <;> simp [Run.goto, hin] at hk
      | _ => exfalso; simp [Run.goto, Run.emit, hin] at hk

/-- A run in which a keep-alive message could not be sent. -/
example (sha1 : Bytes → Bytes) (t : Torrent) : ∃ s, Run.Reachable sha1 t (newPeer t) s ∧ .sendFailed keepaliveMessage ∈ s.log := by
  have r0 := Run.Reachable.start (sha1 := sha1) (t := t) (p0 := newPeer t)
  have r1 := r0.step (.ctxOk rfl rfl)
  have r2 := r1.step (.notDone rfl rfl)
  exact ⟨_, r2.step (.keepFail rfl), by simp [Run.emit]⟩

end Gotit.Props
