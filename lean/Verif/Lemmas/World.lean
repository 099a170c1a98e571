import Verif.Model.World
import Verif.Props.PeerRun
import Verif.Props.Queue
import Verif.Props.Writer
import Verif.Lemmas.Faults
/-
  Invariants of whole downloads.
-/
namespace Gotit.Props
open Gotit Spec

/-- The messages given to the writer among events. -/
def acceptedIn (es : List RunEv) : List PeerMessage := es.filterMap (fun | .accepted m => some m | _ => none)

/-- What the events of a step leave alone. -/
theorem effects_frame {q : Nat} {b : BitSet} {W W' : World} {es : List RunEv} (h : World.Effects q b W es W') :
    W'.inHand = W.inHand ∧ W'.out = W.out ∧ W'.cancelled = W.cancelled ∧ W'.closed = W.closed ∧ W'.dead = W.dead ∧
    W'.written = W.written ∧ W'.buffer = W.buffer ++ acceptedIn es ∧ ∀ x, x ≠ q → W'.queues x = W.queues x := by
  induction h with
  | nil => simp [acceptedIn]
  | cons e _ ih =>
    obtain ⟨h1, h2, h3, h4, h5, h6, h7, h8⟩ := ih
    cases e with
    | accepted hb => exact ⟨h1, h2, h3, h4, h5, h6, by rw [h7]; simp [acceptedIn], h8⟩
    | popped hq => exact ⟨h1, h2, h3, h4, h5, h6, h7, fun x hx => by rw [h8 x hx]; simp [hx]⟩
    | requeued hq => exact ⟨h1, h2, h3, h4, h5, h6, h7, fun x hx => by rw [h8 x hx]; simp [hx]⟩
    | _ => exact ⟨h1, h2, h3, h4, h5, h6, h7, h8⟩

/-- A step of `Run` does not change what others decide. -/
theorem step_flags {sha1 : Bytes → Bytes} {t : Torrent} {s s' : Run} (st : Run.Step sha1 t s s') :
    s'.cancelled = s.cancelled ∧ s'.done = s.done ∧ s'.closed = s.closed := by
  cases st <;> first
    | exact ⟨rfl, rfl, rfl⟩
    | (unfold Run.handle
       simp only
       split <;> exact ⟨rfl, rfl, rfl⟩)

/-- Handling a message ends at a channel send only for a verified piece. -/
theorem handle_deliver {sha1 : Bytes → Bytes} {t : Torrent} {s : Run} {f : Bytes} {b b' : Bool} {m : PeerMessage}
    (h : (s.handle sha1 t f b).loc = .deliver m b') :
    newPeerMessage f = .ok m ∧ m.type = pieceType ∧ acceptPiece sha1 t m = .ok (some m) := by
  unfold Run.handle at h
  simp only at h
  split at h
  · simp only at h; split at h <;> cases h
  · rename_i m' p he
    simp only [RunLoc.deliver.injEq] at h
    obtain ⟨rfl, _⟩ := h
    match hm : newPeerMessage f with
    | .ok x =>
      rw [hm] at he
      simp only [Res.bind] at he
      unfold Peer.handlePeerMessage at he
      repeat' split at he
      all_goals first | (simp at he; done) | skip
      rename_i ht
      match ha : acceptPiece sha1 t x with
      | .ok (some y) =>
        rw [ha] at he
        simp only [Res.bind, Res.ok.injEq, Prod.mk.injEq, Option.some.injEq] at he
        have := (accept_inv ha).1
        subst this
        obtain ⟨rfl, _⟩ := he
        exact ⟨rfl, ht, ha⟩
      | .ok none => rw [ha] at he; simp [Res.bind] at he
      | .err e => rw [ha] at he; simp [Res.bind] at he
      | .panic e => rw [ha] at he; simp [Res.bind] at he
    | .err e => rw [hm] at he; simp [Res.bind] at he
    | .panic e => rw [hm] at he; simp [Res.bind] at he
  · simp [Run.goto] at h

/-- Messages reach the channel only from a verified piece message. -/
theorem step_deliver {sha1 : Bytes → Bytes} {t : Torrent} {s s' : Run} {es : List RunEv} (st : Run.Step sha1 t s s')
    (hl : s'.log = s.log ++ es) :
    (∀ m, m ∈ acceptedIn es → ∃ b, s.loc = .deliver m b) ∧
    (∀ m b, s'.loc = .deliver m b → ∃ f, RunEv.received f ∈ es ∧ newPeerMessage f = .ok m ∧ m.type = pieceType ∧
      acceptPiece sha1 t m = .ok (some m)) := by
  have fin : ∀ es', s'.log = s.log ++ es' → es = es' := fun es' h => List.append_cancel_left (hl.symm.trans h)
  cases st with
  | uRead f e =>
    have := fin _ (handle_frame sha1 t s f true).1
    subst this
    exact ⟨by simp [acceptedIn], fun m b h => ⟨f, by simp, handle_deliver h⟩⟩
  | read f e =>
    have := fin _ (handle_frame sha1 t s f false).1
    subst this
    exact ⟨by simp [acceptedIn], fun m b h => ⟨f, by simp, handle_deliver h⟩⟩
  | next f n e =>
    have := fin _ rfl
    subst this
    constructor
    · intro m hm
      obtain ⟨e, he, hx⟩ := List.mem_filterMap.1 hm
      obtain ⟨r, _, rfl⟩ := List.mem_map.1 he
      cases hx
    · intro m b h
      simp only at h
      split at h <;> cases h
  | @delivered m b e =>
    have := fin _ rfl
    subst this
    refine ⟨fun m' hm => ⟨b, ?_⟩, fun m' b' h => ?_⟩
    · simp [acceptedIn] at hm; subst hm; exact e
    · simp only [Run.emit] at h; split at h <;> cases h
  | kept e => have := fin _ rfl; subst this; exact ⟨by simp [acceptedIn], fun m b h => by simp [Run.emit] at h⟩
  | keepFail e => have := fin _ rfl; subst this; exact ⟨by simp [acceptedIn], fun m b h => by simp [Run.emit] at h⟩
  | uSent e => have := fin _ rfl; subst this; exact ⟨by simp [acceptedIn], fun m b h => by simp [Run.emit] at h⟩
  | uSendFail e => have := fin _ rfl; subst this; exact ⟨by simp [acceptedIn], fun m b h => by simp [Run.emit] at h⟩
  | uReadFail e => have := fin _ rfl; subst this; exact ⟨by simp [acceptedIn], fun m b h => by simp [Run.emit] at h⟩
  | requestSent e => have := fin _ rfl; subst this; exact ⟨by simp [acceptedIn], fun m b h => by simp [Run.emit] at h⟩
  | requestFail e => have := fin _ rfl; subst this; exact ⟨by simp [acceptedIn], fun m b h => by simp [Run.emit] at h⟩
  | requeued e => have := fin _ rfl; subst this; exact ⟨by simp [acceptedIn], fun m b h => by simp [Run.emit] at h⟩
  | readFailWaiting e => have := fin _ rfl; subst this; exact ⟨by simp [acceptedIn], fun m b h => by simp [Run.emit] at h⟩
  | readFail e => have := fin _ rfl; subst this; exact ⟨by simp [acceptedIn], fun m b h => by simp [Run.emit] at h⟩
  | _ => have := fin [] (List.append_nil _).symm; subst this; exact ⟨by simp [acceptedIn], fun m b h => by simp [Run.goto] at h⟩

/-! ### The peers of a download run as described alone -/

theorem mem_set_cases {α : Type} {l : List α} {i : Nat} {a x : α} (h : x ∈ l.set i a) : x = a ∨ x ∈ l := by
  rcases List.mem_or_eq_of_mem_set h with h | h
  · exact .inr h
  · exact .inl h

/-- Every `Run` of a download is an execution of `Run`. -/
theorem world_proj {sha1 : Bytes → Bytes} {t : Torrent} {p0 : Peer} {disk : Disk} {W : World} (h : World.Reachable sha1 t p0 disk W) :
    ∀ x ∈ W.peers, Run.Reachable sha1 t p0 x.2 ∧ (x.2.cancelled = true → W.cancelled = true) ∧ (x.2.closed = true → W.closed = true) := by
  induction h with
  | start => simp [World.start]
  | @step W W' _ st ih =>
    cases st with
    | spawn q _ =>
      intro x hx
      simp only at hx ⊢
      rcases List.mem_append.1 hx with hx | hx
      · exact ih x hx
      · rw [List.mem_singleton] at hx; subst hx
        exact ⟨.start, (by simp [Run.start]), (by simp [Run.start])⟩
    | cancel _ => exact fun x hx => ⟨(ih x hx).1, fun _ => rfl, (ih x hx).2.2⟩
    | close _ _ => exact fun x hx => ⟨(ih x hx).1, (ih x hx).2.1, fun _ => rfl⟩
    | @peer W1 i q r r' es _ hi st hl he =>
      obtain ⟨_, _, f3, f4, _⟩ := effects_frame he
      intro x hx
      simp only at hx ⊢
      rcases mem_set_cases hx with rfl | hx
      · obtain ⟨g1, g2, g3⟩ := ih _ (List.mem_of_getElem? hi)
        simp only at g1 g2 g3
        have s1 : Run.Reachable sha1 t p0 { r with cancelled := W.cancelled } := by
          cases hc : W.cancelled with
          | true => exact g1.env .cancel
          | false =>
            have : r.cancelled = false := by
              cases hr : r.cancelled with
              | false => rfl
              | true => rw [g2 hr] at hc; cases hc
            rw [← this]; exact g1
        have s2 : Run.Reachable sha1 t p0 { r with cancelled := W.cancelled, closed := W.closed } := by
          cases hc : W.closed with
          | true => exact s1.env .close
          | false =>
            have : r.closed = false := by
              cases hr : r.closed with
              | false => rfl
              | true => rw [g3 hr] at hc; cases hc
            rw [← this]; exact s1
        have s3 : Run.Reachable sha1 t p0 (r.sync W) := by
          unfold Run.sync
          cases W.out.downloaded.all with
          | true => exact s2.env .finish
          | false => exact s2.env .unfinish
        obtain ⟨k1, _, k3⟩ := step_flags st
        refine ⟨s3.step st, ?_, ?_⟩
        · simp only [k1, f3]; exact id
        · simp only [k3, f4]; exact id
      · rw [f3, f4]; exact ih x hx
    | receive _ _ _ => exact ih
    | write _ _ _ _ => exact ih
    | writeCrash _ _ _ _ => exact ih

/-- The trace of a download has the logs of its peers. -/
theorem world_trace {sha1 : Bytes → Bytes} {t : Torrent} {p0 : Peer} {disk : Disk} {W : World} (h : World.Reachable sha1 t p0 disk W) :
    (∀ x ∈ W.trace, x.1 < W.peers.length) ∧
    ∀ i q r, W.peers[i]? = some (q, r) → r.log = W.trace.filterMap (fun x => if x.1 = i then some x.2 else none) := by
  induction h with
  | start => simp [World.start]
  | @step W W' _ st ih =>
    cases st with
    | spawn q _ =>
      obtain ⟨h1, h2⟩ := ih
      refine ⟨fun x hx => ?_, fun i q' r hi => ?_⟩
      · have := h1 x hx; simp only [List.length_append]; omega
      · simp only at hi ⊢
        by_cases hlt : i < W.peers.length
        · rw [List.getElem?_append_left hlt] at hi; exact h2 i q' r hi
        · rw [List.getElem?_append_right (by omega)] at hi
          have hi0 : i - W.peers.length = 0 := by
            apply Classical.byContradiction; intro hne
            rw [List.getElem?_eq_none (by simp; omega)] at hi; cases hi
          rw [hi0] at hi
          simp only [List.getElem?_cons_zero, Option.some.injEq, Prod.mk.injEq] at hi
          obtain ⟨_, rfl⟩ := hi
          symm
          simp only [Run.start]
          rw [List.filterMap_eq_nil_iff]
          intro x hx
          have := h1 x hx
          rw [if_neg (by omega)]
    | @peer W1 i q r r' es _ hi st hl he =>
      obtain ⟨h1, h2⟩ := ih
      have hil : i < W.peers.length := by
        rcases Nat.lt_or_ge i W.peers.length with h | h
        · exact h
        · rw [List.getElem?_eq_none h] at hi; cases hi
      refine ⟨fun x hx => ?_, fun j q' r1 hj => ?_⟩
      · simp only [List.length_set] at hx ⊢
        rcases List.mem_append.1 hx with hx | hx
        · exact h1 x hx
        · obtain ⟨e, _, rfl⟩ := List.mem_map.1 hx; exact hil
      · simp only at hj ⊢
        rw [List.filterMap_append]
        by_cases hji : j = i
        · subst hji
          rw [List.getElem?_set_self hil] at hj
          cases hj
          rw [hl, h2 _ _ _ hi]
          congr 1
          rw [List.filterMap_map]
          simp [Function.comp_def]
        · rw [List.getElem?_set_ne (Ne.symm hji)] at hj
          rw [h2 _ _ _ hj]
          have : (es.map fun e => (i, e)).filterMap (fun x => if x.1 = j then some x.2 else none) = [] := by
            rw [List.filterMap_eq_nil_iff]
            intro x hx
            obtain ⟨e, _, rfl⟩ := List.mem_map.1 hx
            rw [if_neg (Ne.symm hji)]
          rw [this, List.append_nil]
    | cancel _ => exact ih
    | close _ _ => exact ih
    | receive _ _ _ => exact ih
    | write _ _ _ _ => exact ih
    | writeCrash _ _ _ _ => exact ih

/-! ### Where messages come from -/

/-- A peer sent the message, and it was verified. -/
def Carried (sha1 : Bytes → Bytes) (t : Torrent) (W : World) (m : PeerMessage) : Prop :=
  ∃ i f, (i, RunEv.received f) ∈ W.trace ∧ newPeerMessage f = .ok m ∧ m.type = pieceType ∧ acceptPiece sha1 t m = .ok (some m)

theorem writePieces_append (t : Torrent) (a b : List PeerMessage) (w : Written) :
    writePieces t (a ++ b) w = (writePieces t a w).bind (writePieces t b) := by
  induction a generalizing w with
  | nil => rfl
  | cons m a ih =>
    simp only [List.cons_append, writePieces]
    cases writeOne t w m with
    | ok w' => exact ih w'
    | err e => rfl
    | panic e => rfl

/-- Everything on its way to the disk was sent by a peer and verified, and the disk is what the writer makes of it, given
what of it could not be written. -/
theorem world_carried {sha1 : Bytes → Bytes} {t : Torrent} {p0 : Peer} {disk : Disk} {W : World} (h : World.Reachable sha1 t p0 disk W) :
    (∀ m, m ∈ W.buffer ∨ W.inHand = some m ∨ m ∈ W.written → Carried sha1 t W m) ∧
    (∀ x ∈ W.peers, ∀ m b, x.2.loc = .deliver m b → Carried sha1 t W m) ∧
    ∃ l : List (PeerMessage × Faults), l.map (·.1) = W.written ∧ writePiecesF t l ⟨disk, t.downloaded, 0⟩ = .ok W.out := by
  induction h with
  | start => refine ⟨?_, ?_, [], rfl, rfl⟩ <;> simp [World.start]
  | @step W W' _ st ih =>
    obtain ⟨h1, h2, h3⟩ := ih
    cases st with
    | spawn q _ =>
      refine ⟨h1, ?_, h3⟩
      intro x hx m b hl
      rcases List.mem_append.1 hx with hx | hx
      · exact h2 x hx m b hl
      · rw [List.mem_singleton] at hx; subst hx; simp [Run.start] at hl
    | cancel _ => exact ⟨h1, h2, h3⟩
    | close _ _ => exact ⟨h1, h2, h3⟩
    | writeCrash _ _ _ _ => exact ⟨h1, h2, h3⟩
    | @peer W1 i q r r' es _ hi st hl he =>
      obtain ⟨f1, f2, f3, f4, f5, f6, f7, _⟩ := effects_frame he
      obtain ⟨d1, d2⟩ := step_deliver st hl
      have mono : ∀ m, Carried sha1 t W m →
          Carried sha1 t { W1 with peers := W.peers.set i (q, r'), trace := W.trace ++ es.map (fun e => (i, e)) } m := by
        rintro m ⟨j, f, g1, g2⟩
        exact ⟨j, f, by simp [g1], g2⟩
      refine ⟨?_, ?_, ?_⟩
      · intro m hm
        simp only [f1, f6, f7] at hm
        rcases hm with hm | hm | hm
        · rcases List.mem_append.1 hm with hm | hm
          · exact mono m (h1 m (.inl hm))
          · obtain ⟨b, hb⟩ := d1 m hm
            exact mono m (h2 _ (List.mem_of_getElem? hi) m b hb)
        · exact mono m (h1 m (.inr (.inl hm)))
        · exact mono m (h1 m (.inr (.inr hm)))
      · intro x hx m b hx2
        rcases mem_set_cases hx with rfl | hx
        · obtain ⟨f, g1, g2⟩ := d2 m b hx2
          exact ⟨i, f, by simp [g1], g2⟩
        · exact mono m (h2 x hx m b hx2)
      · simp only [f6, f2]; exact h3
    | @receive m rest _ h4 h5 =>
      refine ⟨?_, h2, h3⟩
      intro m' hm
      simp only [Option.some.injEq] at hm
      rcases hm with hm | rfl | hm
      · exact h1 m' (.inl (by rw [h5]; simp [hm]))
      · exact h1 m (.inl (by rw [h5]; simp))
      · exact h1 m' (.inr (.inr hm))
    | @write m w fl _ h4 h5 =>
      refine ⟨?_, h2, ?_⟩
      · intro m' hm
        simp only at hm
        rcases hm with hm | hm | hm
        · exact h1 m' (.inl hm)
        · cases hm
        · rcases List.mem_append.1 hm with hm | hm
          · exact h1 m' (.inr (.inr hm))
          · rw [List.mem_singleton] at hm; subst hm; exact h1 _ (.inr (.inl h4))
      · simp only
        obtain ⟨l, l1, l2⟩ := h3
        refine ⟨l ++ [(m, fl)], by simp [l1], ?_⟩
        rw [writePiecesF_append, l2]
        simp only [Res.bind, writePiecesF, h5]

end Gotit.Props
