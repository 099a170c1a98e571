import Verif.Spec.Interest
import Verif.Props.Serving
import Verif.Props.Asked
/-
  C135: interest is shown when there is something to get, and only then.
-/
namespace Gotit.Props
open Gotit Spec

theorem run_only {sha1 : Bytes → Bytes} {t : Torrent} {s : Run} (h : Run.Reachable sha1 t (newPeer t) s) {m : PeerMessage}
    (hm : RunEv.sent m ∈ s.log) : m = interestedMessage ∨ m = keepaliveMessage := by
  rcases (run_sends h).1 m hm with e | e | e
  · exact .inl e
  · exact .inr e
  · have hno := (C52_violated sha1 t _ h).1
    have : m ∈ requestsSent s.log := by
      unfold requestsSent
      rw [List.mem_filterMap]
      exact ⟨.sent m, hm, by simp [show m.type = 6 from e]⟩
    rw [hno] at this
    cases this

theorem taken_snoc (log : List RunEv) (e : RunEv) : takenInterested (log ++ [e]) = match e with
    | .sent m => match hearWire m.wire with
      | .signal id => if id = 2 then true else if id = 3 then false else takenInterested log
      | _ => takenInterested log
    | _ => takenInterested log := by
  unfold takenInterested
  rw [List.foldl_append]
  rfl

theorem taken_iff (log : List RunEv) (h : ∀ m, RunEv.sent m ∈ log → m = interestedMessage ∨ m = keepaliveMessage) :
    takenInterested log = true ↔ RunEv.sent interestedMessage ∈ log := by
  induction log using snoc_induction with
  | h0 => simp [takenInterested]
  | h1 l e ih =>
    have ih := ih (fun m hm => h m (List.mem_append_left _ hm))
    rw [taken_snoc]
    cases e with
    | sent m =>
      rcases h m (by simp) with e | e
      · subst e
        simp [hear_interested]
      · subst e
        have hk : RunEv.sent interestedMessage ≠ RunEv.sent keepaliveMessage := by
          intro h
          have : interestedMessage = keepaliveMessage := by injection h
          exact absurd this (by decide)
        simp [hear_keepalive, ih, hk]
    | _ => simp [ih]

/-- C135, exactly: the other side takes the client to be interested from the first interested message on, for good; nothing it says changes
that. -/
theorem C135_exact_partial (sha1 : Bytes → Bytes) (t : Torrent) (s : Run) (h : Run.Reachable sha1 t (newPeer t) s) :
    takenInterested s.log = true ↔ RunEv.sent interestedMessage ∈ s.log := taken_iff _ fun _ hm => run_only h hm

/-- Where `Run` is before it has said that it is interested. -/
def Silent (s : Run) : Prop :=
  (∀ f, RunEv.received f ∉ s.log) ∧ s.peer.clientChoked = true ∧
  (s.loc = .loopTop ∨ s.loc = .checkDone ∨ s.loc = .keepAlive ∨ s.loc = .ifChoked ∨ s.loc = .unchokeTop ∨ s.loc = .unchokeSend ∨
    s.loc = .unchokeWait ∨ s.loc = .returned)

theorem silent_step {sha1 : Bytes → Bytes} {t : Torrent} {s s' : Run} (st : Run.Step sha1 t s s') (h : Silent s) :
    Silent s' ∨ RunEv.sent interestedMessage ∈ s'.log := by
  obtain ⟨h1, h2, h3⟩ := h
  cases st <;> simp_all [Silent, Run.goto, Run.emit]

theorem reachable_silent {sha1 : Bytes → Bytes} {t : Torrent} {p0 : Peer} (hp : p0.clientChoked = true) {s : Run}
    (h : Run.Reachable sha1 t p0 s) : (Silent s ∨ RunEv.sent interestedMessage ∈ s.log) ∧
      ∀ a f b, s.log = a ++ .received f :: b → RunEv.sent interestedMessage ∈ a := by
  induction h with
  | start => exact ⟨.inl ⟨by simp [Run.start], hp, .inl rfl⟩, by simp [Run.start]⟩
  | env _ st ih => cases st <;> exact ih
  | @step s s' _ st ih =>
    obtain ⟨i1, i2⟩ := ih
    obtain ⟨es, hl⟩ := step_log st
    have first : Silent s' ∨ RunEv.sent interestedMessage ∈ s'.log := by
      rcases i1 with i1 | i1
      · exact silent_step st i1
      · right; rw [hl]; exact List.mem_append_left _ i1
    refine ⟨first, ?_⟩
    intro a f b hab
    rw [hl] at hab
    rcases append_split_cons hab with ⟨c, h1, _⟩ | ⟨e1, rfl, h2⟩
    · exact i2 a f c h1
    · rcases i1 with i1 | i1
      · exfalso
        obtain ⟨j1, j2, j3⟩ := i1
        have hmem : RunEv.received f ∈ s'.log := by rw [hl, h2]; simp
        clear hl h2 first i2
        cases st with
        | uRead f' e => simp [e] at j3
        | read f' e => simp [e] at j3
        | next f' n e => simp [e] at j3
        | _ => simp_all [Run.goto, Run.emit]
      · exact List.mem_append_left _ i1

/-- C135, the half that holds: whenever something is heard from the other side, it has been told before that the client is
interested. So it knows whenever it has something that the client lacks. -/
theorem C135_told_partial (sha1 : Bytes → Bytes) (t : Torrent) (s : Run) (h : Run.Reachable sha1 t (newPeer t) s) (a b : List RunEv) (f : Bytes)
    (hl : s.log = a ++ .received f :: b) : takenInterested a = true :=
  (taken_iff a fun m hm => run_only h (by rw [hl]; exact List.mem_append_left _ hm)).2 ((reachable_silent rfl h).2 a f b hl)

/-- C135 is false of the code: the other side is told that the client is interested before it has said that it has anything; and if it
says that it has nothing, it is told again. -/
theorem C135_violated (sha1 : Bytes → Bytes) (t : Torrent) :
    (∃ s, Run.Reachable sha1 t (newPeer t) s ∧ takenInterested s.log = true ∧ ¬ Offers s.log) ∧
    ∃ s, Run.Reachable sha1 t (newPeer t) s ∧ takenInterested s.log = true ∧ ¬ Offers s.log ∧
      s.log = [.sent interestedMessage, .received (5 :: List.replicate 8 0), .readFailed, .sent interestedMessage] := by
  have h0 : Run.Reachable sha1 t (newPeer t) (Run.start (newPeer t)) := .start
  have h1 := h0.step (.ctxOk rfl rfl)
  have h2 := h1.step (.notDone rfl rfl)
  have h3 := h2.step (.notDue rfl)
  have h4 := h3.step (.choked rfl rfl)
  have h5 := h4.step (.uCtxOk rfl rfl)
  have h6 := h5.step (.uSent rfl)
  have h7 := h6.step (.uRead (5 :: List.replicate 8 0) rfl)
  have h8 := h7.step (.noRequest rfl (.inl rfl))
  have h9 := h8.step (.readFail rfl rfl)
  have h10 := h9.step (.waited rfl)
  have h11 := h10.step (.ctxOk rfl rfl)
  have h12 := h11.step (.notDone rfl rfl)
  have h13 := h12.step (.notDue rfl)
  have h14 := h13.step (.choked rfl rfl)
  have h15 := h14.step (.uCtxOk rfl rfl)
  have h16 := h15.step (.uSent rfl)
  refine ⟨⟨_, h6, ?_, ?_⟩, _, h16, ?_, ?_, rfl⟩
  · exact (C135_exact_partial sha1 t _ h6).2 (by simp [Run.emit])
  · rintro ⟨f, hf, _⟩
    simp [Run.emit, Run.goto, Run.start] at hf
  · exact (C135_exact_partial sha1 t _ h16).2 (by simp [Run.emit])
  · rintro ⟨f, hf, h⟩
    have hlog : RunEv.received f ∈ [RunEv.sent interestedMessage, .received (5 :: List.replicate 8 0), .readFailed, .sent interestedMessage] := hf
    have hf : f = 5 :: List.replicate 8 0 := by simpa using hlog
    subst hf
    rcases h with ⟨bits, i, h1, h2⟩ | ⟨i, h1⟩
    · have hb : bits = List.replicate 8 0 := by
        have : hear (5 :: List.replicate 8 0) = .bitfield (List.replicate 8 0) := by decide
        rw [this] at h1
        injection h1 with h1
        exact h1.symm
      subst hb
      unfold wireBit at h2
      split at h2
      · rename_i x hx
        have : x = 0 := List.eq_of_mem_replicate (List.mem_of_getElem? hx)
        subst this
        simp at h2
      · cases h2
    · have : hear (5 :: List.replicate 8 0) = .bitfield (List.replicate 8 0) := by decide
      rw [this] at h1
      cases h1

/-- An execution in which something is heard. -/
example : ∃ s a b f, Run.Reachable tinySha tiny (newPeer tiny) s ∧ s.log = a ++ .received f :: b := by
  obtain ⟨_, s, h, _, _, hl⟩ := C135_violated tinySha tiny
  exact ⟨s, [.sent interestedMessage], [.readFailed, .sent interestedMessage], _, h, hl⟩

end Gotit.Props
