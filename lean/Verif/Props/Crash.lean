import Verif.Spec.Crash
import Verif.Props.PeerRun
import Verif.Props.PeerMessage
/-
  C74: can a peer crash the client?
-/
namespace Gotit.Props
open Gotit Spec

/-- Decoding and handling a message panics exactly on poison. -/
theorem handle_panic_iff (sha1 : Bytes → Bytes) (t : Torrent) (p : Peer) (f : Bytes) :
    ((newPeerMessage f).bind (p.handlePeerMessage sha1 t)).isPanic = true ↔ Poison t.pieces.length f := by
  cases f with
  | nil => simp [newPeerMessage, Res.bind, Peer.handlePeerMessage, keepaliveMessage, Res.isPanic, Poison]
  | cons ty q =>
    rw [newPeerMessage_cons]
    simp only [Poison]
    by_cases h4 : ty = 4
    · subst h4
      simp only [if_true]
      by_cases hl : q.length < 4
      · simp [hl, Res.bind, Res.isPanic]
      · simp [hl, Res.bind, Res.isPanic, Peer.handlePeerMessage, keepaliveType, bitfieldType, haveType]
    · by_cases h6 : ty = 6 ∨ ty = 8
      · simp only [h4, h6, if_true, if_false]
        have h7 : ¬ ty = 7 := by rcases h6 with rfl | rfl <;> decide
        by_cases hl : q.length < 12
        · simp [hl, Res.bind, Res.isPanic]
        · have : ∀ m : PeerMessage, m.type = ty → (p.handlePeerMessage sha1 t m).isPanic = false := by
            intro m hm
            unfold Peer.handlePeerMessage
            rcases h6 with rfl | rfl <;>
              simp [hm, keepaliveType, bitfieldType, haveType, interestedType, notInterestedType, chokeType, unchokeType, pieceType, Res.isPanic]
          simp only [hl, if_false, Res.bind, false_and, and_false, h7, or_self, iff_false]
          rw [this _ rfl]; simp
      · by_cases h7 : ty = 7
        · subst h7
          simp only [show ¬ (7 : UInt8) = 4 from by decide, show ¬ ((7 : UInt8) = 6 ∨ (7 : UInt8) = 8) from by decide,
            if_true, if_false, false_and, false_or, true_and]
          by_cases hl : q.length < 8
          · simp [hl, Res.bind, Res.isPanic]
          · simp only [hl, if_false, Res.bind, false_or]
            unfold Peer.handlePeerMessage
            simp only [keepaliveType, bitfieldType, haveType, interestedType, notInterestedType, chokeType, unchokeType, pieceType,
              acceptPiece, PeerMessage.data, checkPiece, num4, List.drop_zero]
            simp only [show ¬ (7 : UInt8) = 99 from by decide, show ¬ (7 : UInt8) = 5 from by decide, show ¬ (7 : UInt8) = 4 from by decide,
              show ¬ (7 : UInt8) = 2 from by decide, show ¬ (7 : UInt8) = 3 from by decide, show ¬ (7 : UInt8) = 0 from by decide,
              show ¬ (7 : UInt8) = 1 from by decide, if_false, if_true, ne_eq, not_true, hl, Res.bind]
            by_cases hi : t.pieces.length ≤ bigEndian (q.take 4)
            · rw [List.getElem?_eq_none hi]
              simp [Res.isPanic]
              simpa using hi
            · rw [List.getElem?_eq_getElem (by omega)]
              simp only [hi, iff_false]
              split <;> simp_all [Res.isPanic]
        · simp only [h4, h6, h7, if_false, Res.bind, false_and, or_self, iff_false]
          unfold Peer.handlePeerMessage
          simp only [pieceType, h7, if_false]
          repeat (split; · simp [Res.isPanic])
          simp [Res.isPanic]

/-- A poison message was received. -/
def PoisonIn (n : Nat) (log : List RunEv) : Prop := ∃ f, RunEv.received f ∈ log ∧ Poison n f

theorem poisonIn_append {n : Nat} {a b : List RunEv} (hb : ∀ f, RunEv.received f ∉ b) : PoisonIn n (a ++ b) ↔ PoisonIn n a := by
  constructor
  · rintro ⟨f, h, hp⟩
    rcases List.mem_append.1 h with h | h
    · exact ⟨f, h, hp⟩
    · exact absurd h (hb f)
  · rintro ⟨f, h, hp⟩
    exact ⟨f, List.mem_append.2 (.inl h), hp⟩

theorem handle_poison (sha1 : Bytes → Bytes) (t : Torrent) (s : Run) (f : Bytes) (b : Bool) (h : ¬ PoisonIn t.pieces.length s.log) :
    (s.handle sha1 t f b).closed = s.closed ∧
      ((s.handle sha1 t f b).loc = .panicked ↔ PoisonIn t.pieces.length (s.handle sha1 t f b).log) := by
  have hl := (handle_frame sha1 t s f b).1
  have hp : PoisonIn t.pieces.length (s.handle sha1 t f b).log ↔ Poison t.pieces.length f := by
    rw [hl]
    constructor
    · rintro ⟨g, hg, hp⟩
      rcases List.mem_append.1 hg with hg | hg
      · exact absurd ⟨g, hg, hp⟩ h
      · simp at hg; subst hg; exact hp
    · intro hp; exact ⟨f, by simp, hp⟩
  rw [hp, ← handle_panic_iff sha1 t s.peer f]
  unfold Run.handle
  simp only
  have hne : ∀ e, (newPeerMessage f).bind (s.peer.handlePeerMessage sha1 t) ≠ .err e := by
    intro e he
    rcases C29_total f with ⟨m, hm⟩ | hm
    · rw [hm] at he
      simp only [Res.bind] at he
      unfold Peer.handlePeerMessage at he
      repeat (split at he; · simp at he)
      split at he
      · unfold acceptPiece at he
        unfold PeerMessage.data checkPiece at he
        repeat' split at he
        all_goals simp [Res.bind] at he
        all_goals repeat' split at he
        all_goals simp at he
      · simp at he
    · cases hn : newPeerMessage f <;> rw [hn] at hm he <;> simp [Res.isPanic, Res.bind] at hm he
  split
  · rename_i he; rw [he]; cases b <;> simp [Res.isPanic]
  · rename_i he; rw [he]; simp [Res.isPanic]
  · rename_i h1 h2
    refine ⟨rfl, ?_⟩
    cases hr : (newPeerMessage f).bind (s.peer.handlePeerMessage sha1 t) with
    | ok x => obtain ⟨o, p⟩ := x; cases o with
      | none => exact absurd hr (h1 p)
      | some m => exact absurd hr (h2 m p)
    | err e => exact absurd hr (hne e)
    | panic e => simp [Run.goto, Res.isPanic]

/-- C74, exact: as long as the channel to the writer is open, `Run` has crashed if and only if a poison message was received.
Missing: that there are none. -/
theorem C74_crash_iff_partial (sha1 : Bytes → Bytes) (t : Torrent) (p0 : Peer) (s : Run) (h : Run.Reachable sha1 t p0 s)
    (hc : s.closed = false) : s.loc = .panicked ↔ ∃ f, RunEv.received f ∈ s.log ∧ Poison t.pieces.length f := by
  change s.loc = .panicked ↔ PoisonIn t.pieces.length s.log
  induction h with
  | start => simp [Run.start, PoisonIn]
  | env h e ih => cases e <;> first | exact ih hc | (simp at hc)
  | @step s s' h e ih =>
    have hc' : s.closed = false := by
      cases e <;> first | exact hc | (simp only [Run.emit] at hc; exact hc) | skip
      all_goals
        unfold Run.handle at hc
        simp only at hc
        split at hc <;> exact hc
    have ih := ih hc'
    have hno : s.loc ≠ .panicked → ¬ PoisonIn t.pieces.length s.log := fun hn hp => hn (ih.2 hp)
    cases e with
    | uRead f hl => exact (handle_poison sha1 t s f true (hno (by rw [hl]; simp))).2
    | read f hl => exact (handle_poison sha1 t s f false (hno (by rw [hl]; simp))).2
    | next failed nxt hl =>
      have := hno (by rw [hl]; simp)
      simp only
      rw [poisonIn_append (by simp)]
      constructor
      · intro h; split at h <;> simp at h
      · intro h; exact absurd h this
    | deliverClosed hl hcl => rw [hc'] at hcl; simp at hcl
    | delivered hl =>
      have := hno (by rw [hl]; simp)
      simp only [Run.emit]
      rw [poisonIn_append (by simp)]
      constructor
      · intro h; split at h <;> simp at h
      · intro h; exact absurd h this
    | _ =>
      have hl : ∃ l, s.loc = l ∧ l ≠ .panicked := ⟨_, by assumption, by simp⟩
      obtain ⟨l, hl, hn⟩ := hl
      have := hno (by rw [hl]; exact hn)
      simp only [Run.emit, Run.goto]
      first
      | (rw [poisonIn_append (by simp)]; simp [this])
      | simp [this]

/-- C74 is false of the code: whenever `Run` waits for a message, any poison message crashes the client. -/
theorem C74_violated (sha1 : Bytes → Bytes) (t : Torrent) (s : Run) (f : Bytes) (hf : Poison t.pieces.length f)
    (hs : s.loc = .read ∨ s.loc = .unchokeRead) : ∃ s', Run.Step sha1 t s s' ∧ s'.loc = .panicked := by
  have key : ∀ b, (s.handle sha1 t f b).loc = .panicked := by
    intro b
    have := (handle_panic_iff sha1 t s.peer f).2 hf
    unfold Run.handle
    simp only
    cases hr : (newPeerMessage f).bind (s.peer.handlePeerMessage sha1 t) with
    | ok x => rw [hr] at this; simp [Res.isPanic] at this
    | err e => rfl
    | panic e => rfl
  rcases hs with hs | hs
  · exact ⟨_, .read f hs, key _⟩
  · exact ⟨_, .uRead f hs, key _⟩

/-- C74 for a new peer of any torrent: after the client's interested message, five bytes `0 0 0 1 4` crash it. -/
theorem C74_first_message_violated (sha1 : Bytes → Bytes) (t : Torrent) :
    ∃ s, Run.Reachable sha1 t (newPeer t) s ∧ s.log = [.sent interestedMessage, .received [4]] ∧ s.loc = .panicked := by
  have h0 : Run.Reachable sha1 t (newPeer t) (Run.start (newPeer t)) := .start
  have h1 := h0.step (.ctxOk rfl rfl)
  have h2 := h1.step (.notDone rfl rfl)
  have h3 := h2.step (.notDue rfl)
  have h4 := h3.step (.choked rfl rfl)
  have h5 := h4.step (.uCtxOk rfl rfl)
  have h6 := h5.step (.uSent rfl)
  have h7 := h6.step (.uRead [4] rfl)
  exact ⟨_, h7, rfl, rfl⟩

/-- A piece message for piece 5 of a torrent with one piece is poison; one for piece 0 is not. -/
example : Poison 1 [7, 0, 0, 0, 5, 0, 0, 0, 0] ∧ ¬ Poison 1 [7, 0, 0, 0, 0, 0, 0, 0, 0, 9] := by decide

end Gotit.Props
