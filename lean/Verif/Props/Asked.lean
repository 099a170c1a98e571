import Verif.Spec.Asked
import Verif.Props.RunState
import Verif.Props.World
/-
  C91: which pieces a peer is asked for.
-/
namespace Gotit.Props
open Gotit Spec

/-! ### What the program knows about a peer was announced -/

theorem reachable_follows' {sha1 : Bytes → Bytes} {t : Torrent} {p0 : Peer} (h0 : msgPart p0 = msgPart (newPeer t)) {s : Run}
    (h : Run.Reachable sha1 t p0 s) : s.loc = .panicked ∨ Follows sha1 t s := by
  induction h with
  | start => exact .inr ⟨[], [], newPeer t, rfl, rfl, h0, rfl⟩
  | step _ st ih => exact Follows.step ih st
  | env _ st ih => cases st <;> exact ih

theorem lastOfTypes_split {a b : UInt8} {ms : List PeerMessage} {m : PeerMessage} (h : lastOfTypes a b ms = some m) :
    ∃ x y, ms = x ++ m :: y ∧ (m.type = a ∨ m.type = b) ∧ ∀ n ∈ y, ¬ (n.type = a ∨ n.type = b) := by
  induction ms using snoc_induction with
  | h0 => cases h
  | h1 l n ih =>
    rw [lastOfTypes_snoc] at h
    by_cases c : n.type = a ∨ n.type = b
    · rw [if_pos c] at h
      cases h
      exact ⟨l, [], rfl, c, by simp⟩
    · rw [if_neg c] at h
      obtain ⟨x, y, rfl, h2, h3⟩ := ih h
      refine ⟨x, y ++ [n], by simp, h2, ?_⟩
      intro k hk
      rcases List.mem_append.1 hk with hk | hk
      · exact h3 k hk
      · rw [List.mem_singleton] at hk; rw [hk]; exact c

theorem afterBitfield_split {ms : List PeerMessage} {m : PeerMessage} (h : m ∈ afterBitfield ms) :
    ∃ x y, ms = x ++ m :: y ∧ ∀ n ∈ y, n.type ≠ bitfieldType := by
  induction ms using snoc_induction with
  | h0 => cases h
  | h1 l n ih =>
    rw [afterBitfield_snoc] at h
    by_cases c : n.type = bitfieldType
    · rw [if_pos c] at h; cases h
    · rw [if_neg c] at h
      rcases List.mem_append.1 h with h | h
      · obtain ⟨x, y, rfl, h3⟩ := ih h
        refine ⟨x, y ++ [n], by simp, ?_⟩
        intro k hk
        rcases List.mem_append.1 hk with hk | hk
        · exact h3 k hk
        · rw [List.mem_singleton] at hk; rw [hk]; exact c
      · rw [List.mem_singleton] at h
        subst h
        exact ⟨l, [], rfl, by simp⟩

/-- The frame of a message. -/
theorem frames_split {fs : List Bytes} {x y : List PeerMessage} {m : PeerMessage} (h : fs.map newPeerMessage = (x ++ m :: y).map Res.ok) :
    ∃ a f b, fs = a ++ f :: b ∧ newPeerMessage f = .ok m ∧ b.map newPeerMessage = y.map Res.ok := by
  rw [List.map_append, List.map_cons] at h
  obtain ⟨a, c, rfl, _, h2⟩ := List.map_eq_append_iff.1 h
  obtain ⟨f, b, rfl, h3, h4⟩ := List.map_eq_cons_iff.1 h2
  exact ⟨a, f, b, rfl, h3, h4⟩

theorem no_bitfields {b : List Bytes} {y : List PeerMessage} (h : b.map newPeerMessage = y.map Res.ok)
    (hy : ∀ n ∈ y, n.type ≠ bitfieldType) : ∀ g ∈ b, g.head? ≠ some 5 := by
  intro g hg hh
  have : newPeerMessage g ∈ y.map Res.ok := by rw [← h]; exact List.mem_map_of_mem hg
  obtain ⟨n, hn, e⟩ := List.mem_map.1 this
  have := newPeerMessage_type e.symm
  rw [hh] at this
  exact hy n hn this

theorem bitfield_heard {f : Bytes} {m : PeerMessage} (h : newPeerMessage f = .ok m) (ht : m.type = bitfieldType) : hear f = .bitfield m.payload := by
  have hty := newPeerMessage_type h
  cases f with
  | nil => rw [ht] at hty; exact absurd hty (by decide)
  | cons id p =>
    simp only [List.head?_cons, Option.getD_some] at hty
    have hid : id = 5 := by rw [← hty, ht]; rfl
    subst hid
    simp [newPeerMessage, haveType, requestType, cancelType, pieceType] at h
    subst h
    simp only [hear]
    rw [if_neg (by decide), if_neg (by decide), if_pos trivial]

/-- C31 at the level of messages: `Bitfield` gives a set exactly for bitfield messages, and the set is the one of `C31_bits_partial`.
Missing: the order of the pieces is wrong, see `C31_bits_violated`. -/
theorem C31_bitfield_partial {f : Bytes} {m : PeerMessage} (h : newPeerMessage f = .ok m) :
    (m.bitfield.isSome = true ↔ ∃ p, hear f = .bitfield p) ∧
    ∀ p b i, hear f = .bitfield p → m.bitfield = some b → b.test i = wireBit p (64 * (i / 64) + (63 - i % 64)) := by
  by_cases ht : m.type = bitfieldType
  · have hh := bitfield_heard h ht
    unfold PeerMessage.bitfield
    rw [if_neg (by simp [ht])]
    refine ⟨by simp [hh], fun p b i hp hb => ?_⟩
    rw [hh] at hp
    simp only [Heard.bitfield.injEq] at hp
    simp only [Option.some.injEq] at hb
    rw [← hb, ← hp]
    exact C31_bits_partial _ i
  · unfold PeerMessage.bitfield
    rw [if_pos ht]
    have hn : ¬ ∃ p, hear f = .bitfield p := by
      rintro ⟨p, hp⟩
      have hty := newPeerMessage_type h
      cases f with
      | nil => simp [hear] at hp
      | cons id q =>
        simp only [List.head?_cons, Option.getD_some] at hty
        have : id ≠ 5 := by intro e; rw [hty, e] at ht; exact ht rfl
        simp only [hear] at hp
        repeat' split at hp
        all_goals first | (exact absurd ‹id = 5› this) | simp at hp
    exact ⟨by simp [hn], fun p b i hp => absurd ⟨p, hp⟩ hn⟩

example : ∃ m b, newPeerMessage [5, 0x80, 1] = .ok m ∧ m.bitfield = some b ∧ hear [5, 0x80, 1] = .bitfield [0x80, 1] := ⟨_, _, rfl, rfl, rfl⟩

theorem have_heard {f : Bytes} {m : PeerMessage} (h : newPeerMessage f = .ok m) (ht : m.type = haveType) :
    ∃ p, f = 4 :: p ∧ 4 ≤ p.length ∧ num4 p 0 = m.index := by
  have hty := newPeerMessage_type h
  cases f with
  | nil => rw [ht] at hty; exact absurd hty (by decide)
  | cons id p =>
    simp only [List.head?_cons, Option.getD_some] at hty
    have hid : id = 4 := by rw [← hty, ht]; rfl
    subst hid
    unfold newPeerMessage at h
    simp only [haveType] at h
    rw [if_pos trivial] at h
    by_cases h0 : p.length < 4
    · simp [uint32At, h0, Res.bind] at h
    simp only [uint32At, Nat.zero_add, h0, if_false, Res.bind, List.drop_zero] at h
    cases h
    exact ⟨p, rfl, by omega, by simp [num4, bigEndian_eq]⟩

theorem verified_heard {sha1 : Bytes → Bytes} {t : Torrent} {f : Bytes} {m : PeerMessage} (h : newPeerMessage f = .ok m)
    (hv : Verified sha1 t m) : ∃ begin_ d p, hear f = .piece m.index begin_ d ∧ t.pieces[m.index]? = some p ∧ p.sha1 = sha1 d := by
  obtain ⟨h7, p, d, h1, h2, h3⟩ := hv
  obtain ⟨d', g1, g2, _⟩ := piece_heard h h7
  rw [h2] at g2
  cases g2
  exact ⟨_, d, p, g1, h1, h3⟩

/-- What the program takes a peer to have, it announced. -/
theorem follows_announced {sha1 : Bytes → Bytes} {t : Torrent} {s : Run} (h : Follows sha1 t s) {j : Nat} (hj : s.peer.bitset.test j = true) :
    Announced lookedUp sha1 t (framesRead s.log) j := by
  obtain ⟨ms, out, p, h1, h2, h3, _⟩ := h
  obtain ⟨_, _, a3, _⟩ := C57_state sha1 t ms out p h2
  simp only [msgPart, Prod.mk.injEq] at h3
  rw [h3.1] at hj
  rcases (a3 j).1 hj with ⟨m, g1, g2⟩ | ⟨m, g1, g2, g3⟩
  · obtain ⟨x, y, rfl, k1, k2⟩ := lastOfTypes_split g1
    obtain ⟨a, f, b, hf, l1, l2⟩ := frames_split h1
    have ht : m.type = bitfieldType := by rcases k1 with e | e <;> exact e
    refine ⟨a, f, b, hf, no_bitfields l2 (fun n hn e => k2 n hn (.inl e)), .inl ⟨m.payload, bitfield_heard l1 ht, ?_⟩⟩
    rw [← g2]; exact (C31_bits_partial _ _).symm
  · obtain ⟨x, y, rfl, k2⟩ := afterBitfield_split g1
    obtain ⟨a, f, b, hf, l1, l2⟩ := frames_split h1
    refine ⟨a, f, b, hf, no_bitfields l2 k2, .inr ?_⟩
    subst g2
    rcases g3 with g3 | g3
    · exact .inl (have_heard l1 g3)
    · exact .inr (verified_heard l1 g3)

/-! ### `Next` gives a peer what it announced -/

/-- The calls of `Next` and of the retry queue stand alone in a step. -/
theorem step_reqs {sha1 : Bytes → Bytes} {t : Torrent} {s s' : Run} {es : List RunEv} (st : Run.Step sha1 t s s') (hl : s'.log = s.log ++ es) :
    (∃ failed nxt, s.loc = .ifRequest ∧ es = (s.peer.nextRequestMessage failed nxt).2.2.map .req ∧
      s'.peer = (s.peer.nextRequestMessage failed nxt).2.1 ∧
      s'.loc = match (s.peer.nextRequestMessage failed nxt).1 with | none => .pause | some m => .sendRequest m) ∨
    ((∀ e, RunEv.req e ∉ es) ∧ s'.peer.blockIdx = s.peer.blockIdx ∧ s'.peer.pieceIdx = s.peer.pieceIdx ∧
      s'.peer.blockNum = s.peer.blockNum ∧ ∀ m, s'.loc ≠ .sendRequest m) := by
  have fin : ∀ es', s'.log = s.log ++ es' → es = es' := fun es' h => List.append_cancel_left (hl.symm.trans h)
  have hh : ∀ f b, s' = s.handle sha1 t f b → ((∀ e, RunEv.req e ∉ es) ∧ s'.peer.blockIdx = s.peer.blockIdx ∧ s'.peer.pieceIdx = s.peer.pieceIdx ∧
      s'.peer.blockNum = s.peer.blockNum ∧ ∀ m, s'.loc ≠ .sendRequest m) := by
    intro f b hs
    have he := fin _ (by rw [hs]; exact (handle_frame sha1 t s f b).1)
    subst he
    refine ⟨by simp, ?_⟩
    have hp : ∀ x o p', (newPeerMessage f).bind (Peer.handlePeerMessage sha1 t x) = .ok (o, p') → p'.blockIdx = x.blockIdx ∧
        p'.pieceIdx = x.pieceIdx ∧ p'.blockNum = x.blockNum := by
      intro x o p' hx
      cases hm : newPeerMessage f with
      | err e => rw [hm] at hx; cases hx
      | panic e => rw [hm] at hx; cases hx
      | ok m =>
        rw [hm] at hx
        rcases handle_cases hx with ⟨_, _, rfl⟩ | ⟨_, _, rfl⟩ | ⟨_, _, rfl⟩ | ⟨_, _, rfl⟩ | ⟨_, _, rfl⟩ | ⟨_, _, rfl⟩ | ⟨_, _, _, rfl⟩ |
          ⟨_, _, _, rfl⟩ | ⟨_, _, _, _, _, _, _, _, rfl⟩ <;> exact ⟨rfl, rfl, rfl⟩
    rw [hs]
    unfold Run.handle
    simp only
    split
    · rename_i p' e
      obtain ⟨g1, g2, g3⟩ := hp _ _ _ e
      refine ⟨g1, g2, g3, ?_⟩
      intro m
      simp only
      split <;> simp
    · rename_i m p' e
      obtain ⟨g1, g2, g3⟩ := hp _ _ _ e
      exact ⟨g1, g2, g3, by simp⟩
    · exact ⟨rfl, rfl, rfl, by simp [Run.goto]⟩
  cases st with
  | uRead f e => exact .inr (hh f true rfl)
  | read f e => exact .inr (hh f false rfl)
  | next f n e => exact .inl ⟨f, n, e, fin _ rfl, rfl, rfl⟩
  | @delivered m b e =>
    have := fin _ rfl
    subst this
    refine .inr ⟨by simp, rfl, rfl, rfl, ?_⟩
    intro m'
    simp only [Run.emit]
    split <;> simp
  | kept e => have := fin _ rfl; subst this; exact .inr ⟨by simp, rfl, rfl, rfl, by simp [Run.emit]⟩
  | keepFail e => have := fin _ rfl; subst this; exact .inr ⟨by simp, rfl, rfl, rfl, by simp [Run.emit]⟩
  | uSent e => have := fin _ rfl; subst this; exact .inr ⟨by simp, rfl, rfl, rfl, by simp [Run.emit]⟩
  | uSendFail e => have := fin _ rfl; subst this; exact .inr ⟨by simp, rfl, rfl, rfl, by simp [Run.emit]⟩
  | uReadFail e => have := fin _ rfl; subst this; exact .inr ⟨by simp, rfl, rfl, rfl, by simp [Run.emit]⟩
  | requestSent e => have := fin _ rfl; subst this; exact .inr ⟨by simp, rfl, rfl, rfl, by simp [Run.emit]⟩
  | requestFail e => have := fin _ rfl; subst this; exact .inr ⟨by simp, rfl, rfl, rfl, by simp [Run.emit]⟩
  | requeued e => have := fin _ rfl; subst this; exact .inr ⟨by simp, rfl, rfl, rfl, by simp [Run.emit]⟩
  | readFailWaiting e => have := fin _ rfl; subst this; exact .inr ⟨by simp, rfl, rfl, rfl, by simp [Run.emit]⟩
  | readFail e => have := fin _ rfl; subst this; exact .inr ⟨by simp, rfl, rfl, rfl, by simp [Run.emit]⟩
  | _ => have := fin [] (List.append_nil _).symm; subst this; exact .inr ⟨by simp, rfl, rfl, rfl, by simp [Run.goto]⟩

theorem effects_next {q : Nat} {b : BitSet} {W W' : World} {es : List RunEv} (h : World.Effects q b W es W') {j : Nat}
    (hj : RunEv.req (.next (some j)) ∈ es) : b.test j = true := by
  induction h with
  | nil => cases hj
  | @cons W W1 W2 e es he _ ih =>
    rcases List.mem_cons.1 hj with hj | hj
    · subst hj
      cases he with
      | next hr =>
        have hn := next_runs hr
        simp only [nextMethod] at hn
        exact hn.2.2.2.1
    · exact ih hj

theorem logOf_append (i : Nat) (a b : List (Nat × RunEv)) : logOf i (a ++ b) = logOf i a ++ logOf i b := List.filterMap_append

theorem logOf_map (i : Nat) (es : List RunEv) : logOf i (es.map fun e => (i, e)) = es := by
  unfold logOf; rw [List.filterMap_map]; simp [Function.comp_def]

/-- A place in a list to which something was added. -/
theorem append_split_cons {α : Type} {l es a c : List α} {x : α} (h : l ++ es = a ++ x :: c) :
    (∃ c', l = a ++ x :: c' ∧ c = c' ++ es) ∨ ∃ e1, a = l ++ e1 ∧ es = e1 ++ x :: c := by
  rcases List.append_eq_append_iff.1 h with ⟨d, h1, h2⟩ | ⟨d, h1, h2⟩
  · exact .inr ⟨d, h1, h2⟩
  · cases d with
    | nil => exact .inr ⟨[], by simpa using h1.symm, by simpa using h2.symm⟩
    | cons y d =>
      simp only [List.cons_append, List.cons.injEq] at h2
      obtain ⟨rfl, rfl⟩ := h2
      exact .inl ⟨d, h1, rfl⟩

theorem map_split_cons {i k : Nat} {es : List RunEv} {e : RunEv} {e1 c : List (Nat × RunEv)}
    (h : es.map (fun e => (i, e)) = e1 ++ (k, e) :: c) : k = i ∧ ∃ x y, es = x ++ e :: y ∧ e1 = x.map (fun e => (i, e)) := by
  obtain ⟨x, z, rfl, h1, h2⟩ := List.map_eq_append_iff.1 h
  obtain ⟨f, y, rfl, h3, h4⟩ := List.map_eq_cons_iff.1 h2
  cases h3
  exact ⟨rfl, x, y, rfl, h1.symm⟩

/-- C91, what holds of `Next`: in every download, every piece it gives to a peer was announced by that peer before, if bitfields are
read in the order of C31. -/
theorem C91_given_partial (sha1 : Bytes → Bytes) (t : Torrent) (disk : Disk) (W : World) (hW : World.Reachable sha1 t (willing t) disk W)
    (a c : List (Nat × RunEv)) (i j : Nat) (h : W.trace = a ++ (i, .req (.next (some j))) :: c) :
    Announced lookedUp sha1 t (framesOf i a) j := by
  induction hW generalizing c with
  | start => simp [World.start] at h
  | @step W W' hW st ih =>
    cases st with
    | @peer W1 k q r r' es ha hi st hl he =>
      simp only at h
      rcases append_split_cons h with ⟨c', h1, _⟩ | ⟨e1, rfl, h2⟩
      · exact ih c' h1
      · obtain ⟨rfl, x, y, rfl, rfl⟩ := map_split_cons h2
        have hb := effects_next he (j := j) (by simp)
        have hlog := (world_trace hW).2 _ _ _ hi
        have hf := (reachable_follows' (p0 := willing t) rfl (world_proj hW _ (List.mem_of_getElem? hi)).1).resolve_left
          (ha.2 _ (List.mem_of_getElem? hi))
        have hann := follows_announced hf hb
        have hx : framesRead x = [] := by
          rcases step_reqs st hl with ⟨f, n, _, h3, _⟩ | ⟨h3, _⟩
          · have : ∀ e ∈ x, ∃ e', e = RunEv.req e' := by
              intro e hex
              have : e ∈ x ++ RunEv.req (.next (some j)) :: y := by simp [hex]
              rw [h3] at this
              obtain ⟨e', _, rfl⟩ := List.mem_map.1 this
              exact ⟨e', rfl⟩
            unfold framesRead
            rw [List.filterMap_eq_nil_iff]
            intro e hex
            obtain ⟨e', rfl⟩ := this e hex
            rfl
          · exact absurd (List.mem_append_right x (List.mem_cons_self ..)) (h3 (.next (some j)))
        rw [framesOf, logOf_append, logOf_map, framesRead, List.filterMap_append]
        rw [framesRead] at hx
        rw [hx, List.append_nil]
        have : logOf i W.trace = r.log := hlog.symm
        rw [this]
        exact hann
    | _ => exact ih c h

/-! ### Requests -/

/-- The calls of `Next` and of the retry queue in a log. -/
def reqsOf (log : List RunEv) : List ReqEv := log.filterMap fun | .req e => some e | _ => none

theorem reqsOf_append (a b : List RunEv) : reqsOf (a ++ b) = reqsOf a ++ reqsOf b := List.filterMap_append

theorem reqsOf_none {es : List RunEv} (h : ∀ e, RunEv.req e ∉ es) : reqsOf es = [] := by
  unfold reqsOf
  rw [List.filterMap_eq_nil_iff]
  intro e he
  cases e with
  | req e => exact absurd he (h e)
  | _ => rfl

theorem reqsOf_map (l : List ReqEv) : reqsOf (l.map .req) = l := by
  unfold reqsOf; rw [List.filterMap_map]
  induction l with
  | nil => rfl
  | cons a l ih => simp [Function.comp_def]

/-- A request is sent right after it was created or taken from the retry queue. -/
structure SendsInv (p0 : Peer) (s : Run) : Prop where
  reqs : Requests p0 (reqsOf s.log) s.peer
  ready : ∀ m, s.loc = .sendRequest m → s.log.getLast? = some (.req (.popped m)) ∨ s.log.getLast? = some (.req (.created m))
  sent : ∀ a m b, s.log = a ++ .sent m :: b → m.type = requestType →
    a.getLast? = some (.req (.popped m)) ∨ a.getLast? = some (.req (.created m))

theorem sent_step {sha1 : Bytes → Bytes} {t : Torrent} {s s' : Run} {es : List RunEv} (st : Run.Step sha1 t s s')
    (hl : s'.log = s.log ++ es) {x y : List RunEv} {m : PeerMessage} (he : es = x ++ .sent m :: y) (hm : m.type = requestType) :
    x = [] ∧ s.loc = .sendRequest m := by
  have fin : ∀ es', s'.log = s.log ++ es' → es = es' := fun es' h => List.append_cancel_left (hl.symm.trans h)
  have one : ∀ e, es = [e] → x = [] ∧ e = .sent m := by
    intro e h
    rw [he] at h
    cases x with
    | nil => simp at h; exact ⟨rfl, h.1.symm⟩
    | cons a x => simp at h
  have none : es = [] → False := by intro h; rw [he] at h; simp at h
  cases st with
  | uRead f e => have := (one _ (fin _ (handle_frame sha1 t s f true).1)).2; cases this
  | read f e => have := (one _ (fin _ (handle_frame sha1 t s f false).1)).2; cases this
  | next f n e =>
    have h1 := fin _ rfl
    have : RunEv.sent m ∈ es := by rw [he]; simp
    rw [h1] at this
    obtain ⟨_, _, h⟩ := List.mem_map.1 this
    cases h
  | @delivered m' b e => have := (one _ (fin _ rfl)).2; cases this
  | kept e => have := (one _ (fin _ rfl)).2; cases this; exact absurd hm (by decide)
  | keepFail e => have := (one _ (fin _ rfl)).2; cases this
  | uSent e => have := (one _ (fin _ rfl)).2; cases this; exact absurd hm (by decide)
  | uSendFail e => have := (one _ (fin _ rfl)).2; cases this
  | uReadFail e => have := (one _ (fin _ rfl)).2; cases this
  | requestSent e => obtain ⟨h1, h2⟩ := one _ (fin _ rfl); cases h2; exact ⟨h1, e⟩
  | requestFail e => have := (one _ (fin _ rfl)).2; cases this
  | requeued e => have := (one _ (fin _ rfl)).2; cases this
  | readFailWaiting e => have := (one _ (fin _ rfl)).2; cases this
  | readFail e => have := (one _ (fin _ rfl)).2; cases this
  | _ => exact (none (fin [] (List.append_nil _).symm)).elim

theorem step_log {sha1 : Bytes → Bytes} {t : Torrent} {s s' : Run} (st : Run.Step sha1 t s s') : ∃ es, s'.log = s.log ++ es := by
  cases st with
  | uRead f e => exact ⟨_, (handle_frame sha1 t s f true).1⟩
  | read f e => exact ⟨_, (handle_frame sha1 t s f false).1⟩
  | _ => first | exact ⟨_, rfl⟩ | exact ⟨[], (List.append_nil _).symm⟩

theorem reachable_sends {sha1 : Bytes → Bytes} {t : Torrent} {p0 : Peer} {s : Run} (h : Run.Reachable sha1 t p0 s) : SendsInv p0 s := by
  induction h with
  | start => exact ⟨.start, by simp [Run.start], by simp [Run.start]⟩
  | env _ st ih => cases st <;> exact ⟨ih.reqs, ih.ready, ih.sent⟩
  | @step s s' _ st ih =>
    obtain ⟨es, hl⟩ := step_log st
    have hs : ∀ a m b, s'.log = a ++ .sent m :: b → m.type = requestType →
        a.getLast? = some (.req (.popped m)) ∨ a.getLast? = some (.req (.created m)) := by
      intro a m b ha hm
      rw [hl] at ha
      rcases append_split_cons ha with ⟨c', h1, _⟩ | ⟨e1, rfl, h2⟩
      · exact ih.sent a m c' h1 hm
      · obtain ⟨rfl, h3⟩ := sent_step st hl h2 hm
        rw [List.append_nil]
        exact ih.ready m h3
    rcases step_reqs st hl with ⟨f, n, h1, h2, h3, h4⟩ | ⟨h1, h2, h3, h4, h5⟩
    · refine ⟨?_, ?_, hs⟩
      · rw [hl, reqsOf_append, h2, reqsOf_map, h3]
        exact .call f n ih.reqs
      · intro m hm
        rw [h4] at hm
        cases hx : (s.peer.nextRequestMessage f n).1 with
        | none => rw [hx] at hm; cases hm
        | some m' =>
          rw [hx] at hm
          cases hm
          rw [hl]
          rcases C51_returned_partial s.peer f n _ hx with ⟨_, g⟩ | g
          · left; rw [h2, g]; simp
          · right
            rw [h2]
            obtain ⟨l, hl'⟩ := List.getLast?_eq_some_iff.1 g
            rw [hl']; simp
    · refine ⟨?_, ?_, hs⟩
      · rw [hl, reqsOf_append, reqsOf_none h1, List.append_nil]
        exact .other ih.reqs h2 h3 h4
      · intro m hm
        exact absurd hm (h5 m)

/-! ### The retry queues -/

/-- A request in a retry queue was put there by a peer of that queue. -/
def PutBack (W : World) (trace : List (Nat × RunEv)) (q : Nat) (m : PeerMessage) : Prop :=
  ∃ k r, W.peers[k]? = some (q, r) ∧ (k, RunEv.requeued (some m)) ∈ trace

theorem effects_queue {q : Nat} {b : BitSet} {W W' : World} {es : List RunEv} (h : World.Effects q b W es W') :
    (∀ m ∈ W'.queues q, m ∈ W.queues q ∨ RunEv.requeued (some m) ∈ es) ∧
    ∀ x m y, es = x ++ .req (.popped m) :: y → m ∈ W.queues q ∨ RunEv.requeued (some m) ∈ x := by
  induction h with
  | nil => exact ⟨fun m hm => .inl hm, fun x m y h => by simp at h⟩
  | @cons W W1 W2 e es he _ ih =>
    obtain ⟨h1, h2⟩ := ih
    have old : ∀ m ∈ W1.queues q, m ∈ W.queues q ∨ e = .requeued (some m) := by
      intro m hm
      cases he with
      | popped hr =>
        simp only [if_true] at hm
        rw [(queue_take hr).1] at hm
        exact .inl (List.dropLast_subset _ hm)
      | @requeued m' s' hr =>
        simp only [if_true] at hm
        rw [(queue_put hr).1] at hm
        rcases List.mem_append.1 hm with hm | hm
        · exact .inl hm
        · rw [List.mem_singleton] at hm; subst hm; exact .inr rfl
      | _ => exact .inl hm
    refine ⟨?_, ?_⟩
    · intro m hm
      rcases h1 m hm with hm | hm
      · rcases old m hm with h | h
        · exact .inl h
        · exact .inr (by rw [h]; simp)
      · exact .inr (List.mem_cons_of_mem _ hm)
    · intro x m y hx
      cases x with
      | nil =>
        simp only [List.nil_append, List.cons.injEq] at hx
        obtain ⟨rfl, _⟩ := hx
        cases he with
        | popped hr => exact .inl (List.mem_of_getLast? (queue_take hr).2.symm)
      | cons z x =>
        simp only [List.cons_append, List.cons.injEq] at hx
        obtain ⟨rfl, hx⟩ := hx
        rcases h2 x m y hx with hm | hm
        · rcases old m hm with h | h
          · exact .inl h
          · exact .inr (by rw [h]; simp)
        · exact .inr (List.mem_cons_of_mem _ hm)

theorem PutBack.mono {W W' : World} {tr tr' : List (Nat × RunEv)} {q : Nat} {m : PeerMessage} (h : PutBack W tr q m)
    (hp : ∀ (k q : Nat) (r : Run), W.peers[k]? = some (q, r) → ∃ r', W'.peers[k]? = some (q, r')) (ht : ∀ x ∈ tr, x ∈ tr') : PutBack W' tr' q m := by
  obtain ⟨k, r, h1, h2⟩ := h
  obtain ⟨r', h3⟩ := hp k q r h1
  exact ⟨k, r', h3, ht _ h2⟩

theorem world_queues {sha1 : Bytes → Bytes} {t : Torrent} {p0 : Peer} {disk : Disk} {W : World} (h : World.Reachable sha1 t p0 disk W) :
    (∀ q, ∀ m ∈ W.queues q, PutBack W W.trace q m) ∧
    ∀ a i m c, W.trace = a ++ (i, .req (.popped m)) :: c → ∃ q r, W.peers[i]? = some (q, r) ∧ PutBack W a q m := by
  induction h with
  | start => refine ⟨?_, ?_⟩ <;> simp [World.start]
  | @step W W' hW st ih =>
    obtain ⟨h1, h2⟩ := ih
    cases st with
    | spawn q _ =>
      have hp : ∀ (k q' : Nat) (r : Run), W.peers[k]? = some (q', r) → ∃ r', (W.peers ++ [(q, Run.start p0)])[k]? = some (q', r') := by
        intro k q' r hk
        exact ⟨r, by rw [List.getElem?_append_left (List.getElem?_eq_some_iff.1 hk).1]; exact hk⟩
      refine ⟨fun q' m hm => (h1 q' m hm).mono hp (fun x hx => hx), fun a i m c ha => ?_⟩
      obtain ⟨q', r, g1, g2⟩ := h2 a i m c ha
      obtain ⟨r', g3⟩ := hp _ _ _ g1
      exact ⟨q', r', g3, g2.mono hp (fun x hx => hx)⟩
    | @peer W1 i q r r' es ha hi st hl he =>
      obtain ⟨_, _, _, _, _, _, _, f8⟩ := effects_frame he
      obtain ⟨e1, e2⟩ := effects_queue he
      have hil := (List.getElem?_eq_some_iff.1 hi).1
      have hp : ∀ (k q' : Nat) (r1 : Run), W.peers[k]? = some (q', r1) → ∃ r2, (W.peers.set i (q, r'))[k]? = some (q', r2) := by
        intro k q' r1 hk
        by_cases hki : k = i
        · subst hki
          rw [hi] at hk
          cases hk
          exact ⟨r', List.getElem?_set_self hil⟩
        · exact ⟨r1, by rw [List.getElem?_set_ne (Ne.symm hki)]; exact hk⟩
      refine ⟨?_, ?_⟩
      · intro q' m hm
        simp only at hm
        by_cases hq : q' = q
        · subst hq
          rcases e1 m hm with hm | hm
          · exact (h1 _ m hm).mono hp (fun x hx => List.mem_append_left _ hx)
          · exact ⟨i, r', List.getElem?_set_self hil, List.mem_append_right _ (List.mem_map_of_mem hm)⟩
        · rw [f8 q' hq] at hm
          exact (h1 _ m hm).mono hp (fun x hx => List.mem_append_left _ hx)
      · intro a k m c hac
        simp only at hac
        rcases append_split_cons hac with ⟨c', g1, _⟩ | ⟨es1, rfl, g2⟩
        · obtain ⟨q', r1, g3, g4⟩ := h2 a k m c' g1
          obtain ⟨r2, g5⟩ := hp _ _ _ g3
          exact ⟨q', r2, g5, g4.mono hp (fun x hx => hx)⟩
        · obtain ⟨rfl, x, y, rfl, rfl⟩ := map_split_cons g2
          refine ⟨q, r', List.getElem?_set_self hil, ?_⟩
          rcases e2 x m y rfl with hm | hm
          · exact (h1 _ m hm).mono hp (fun z hz => List.mem_append_left _ hz)
          · exact ⟨k, r', List.getElem?_set_self hil, List.mem_append_right _ (List.mem_map_of_mem hm)⟩
    | _ => exact ⟨h1, h2⟩

/-! ## C91 -/

theorem mem_logOf {i : Nat} {tr : List (Nat × RunEv)} {e : RunEv} : e ∈ logOf i tr ↔ (i, e) ∈ tr := by
  unfold logOf
  rw [List.mem_filterMap]
  constructor
  · rintro ⟨⟨k, e'⟩, h1, h2⟩
    simp only at h2
    split at h2
    · cases h2; rename_i h; subst h; exact h1
    · cases h2
  · intro h; exact ⟨_, h, by simp⟩

/-- The place of the last piece given. -/
theorem lastNext_split {i : Nat} : ∀ {tr : List (Nat × RunEv)} {j : Nat}, lastNext (reqsOf (logOf i tr)) = some j →
    ∃ a b, tr = a ++ (i, .req (.next (some j))) :: b ∧ ∀ k, (i, .req (.next (some k))) ∉ b := by
  intro tr
  induction tr using snoc_induction with
  | h0 => intro j h; cases h
  | h1 l x ih =>
    intro j h
    obtain ⟨k, e⟩ := x
    have skip : lastNext (reqsOf (logOf i l)) = some j → (∀ n, (i, RunEv.req (.next (some n))) ≠ (k, e)) →
        ∃ a b, l ++ [(k, e)] = a ++ (i, .req (.next (some j))) :: b ∧ ∀ k, (i, .req (.next (some k))) ∉ b := by
      intro h1 h2
      obtain ⟨a, b, rfl, h3⟩ := ih h1
      refine ⟨a, b ++ [(k, e)], by simp, ?_⟩
      intro n hn
      rcases List.mem_append.1 hn with hn | hn
      · exact h3 n hn
      · rw [List.mem_singleton] at hn; exact h2 n hn
    rw [logOf_append, reqsOf_append] at h
    by_cases hk : k = i
    · subst hk
      have e1 : logOf k [(k, e)] = [e] := by simp [logOf]
      rw [e1] at h
      cases e with
      | req r =>
        have e2 : reqsOf [RunEv.req r] = [r] := rfl
        rw [e2, lastNext_snoc] at h
        cases r with
        | next o =>
          cases o with
          | none => exact skip h (by simp)
          | some n =>
            simp only [Option.some.injEq] at h
            subst h
            exact ⟨l, [], rfl, by simp⟩
        | popped m => exact skip h (by simp)
        | created m => exact skip h (by simp)
      | _ => exact skip (by simpa [reqsOf] using h) (by simp)
    · have e1 : logOf i [(k, e)] = [] := by simp [logOf, hk]
      rw [e1] at h
      exact skip (by simpa [reqsOf] using h) (by intro n hn; cases hn; exact hk rfl)

theorem lastNext_none {i : Nat} {tr : List (Nat × RunEv)} (h : lastNext (reqsOf (logOf i tr)) = none) (k : Nat) :
    (i, RunEv.req (.next (some k))) ∉ tr := by
  intro hm
  unfold lastNext at h
  have h' := List.getLast?_eq_none_iff.1 h
  rw [List.filterMap_eq_nil_iff] at h'
  have := h' (.next (some k)) (by
    unfold reqsOf
    rw [List.mem_filterMap]
    exact ⟨_, mem_logOf.2 hm, rfl⟩)
  simp at this

/-- C91, exact as far as the code goes: in every download with peers that ask, a request sent to peer `i` is either one that a peer
with the same retry queue put back before; or for piece 0, `i` not having been given any piece by `Next`; or for the piece last
given to `i` by `Next`, which `i` had announced then, if bitfields are read in the order of C31. -/
theorem C91_partial (sha1 : Bytes → Bytes) (t : Torrent) (disk : Disk) (W : World) (hW : World.Reachable sha1 t (willing t) disk W)
    (a c : List (Nat × RunEv)) (i : Nat) (m : PeerMessage) (h : W.trace = a ++ (i, .sent m) :: c) (hm : m.type = requestType) :
    (∃ q r k r', W.peers[i]? = some (q, r) ∧ W.peers[k]? = some (q, r') ∧ (k, .requeued (some m)) ∈ a) ∨
    (m.index = 0 ∧ ∀ j, (i, .req (.next (some j))) ∉ a) ∨
    ∃ j a1 a2, a = a1 ++ (i, .req (.next (some j))) :: a2 ∧ (∀ k, (i, .req (.next (some k))) ∉ a2) ∧ m.index = j % 2 ^ 32 ∧
      Announced lookedUp sha1 t (framesOf i a1) j := by
  obtain ⟨t1, t2⟩ := world_trace hW
  have hil : i < W.peers.length := t1 (i, .sent m) (by rw [h]; simp)
  have hp : W.peers[i]? = some (W.peers[i].1, W.peers[i].2) := List.getElem?_eq_getElem hil
  have hinv := reachable_sends (world_proj hW _ (List.getElem_mem hil)).1
  have hlog : W.peers[i].2.log = logOf i W.trace := t2 _ _ _ hp
  have hsplit : logOf i W.trace = logOf i a ++ .sent m :: logOf i c := by
    rw [h, logOf_append, show (i, RunEv.sent m) :: c = [(i, .sent m)] ++ c from rfl, logOf_append]
    simp [logOf]
  rcases hinv.sent _ m _ (hlog.trans hsplit) hm with hg | hg
  · left
    have hmem : (i, RunEv.req (.popped m)) ∈ a := mem_logOf.1 (List.mem_of_getLast? hg)
    obtain ⟨x, y, rfl⟩ := List.append_of_mem hmem
    obtain ⟨q, r, g1, k, r', g2, g3⟩ := (world_queues hW).2 x i m (y ++ (i, .sent m) :: c) (by rw [h]; simp)
    exact ⟨q, r, k, r', g1, g2, List.mem_append_left _ g3⟩
  · right
    obtain ⟨l, hl⟩ := List.getLast?_eq_some_iff.1 hg
    have inv := requests_inv (p0 := willing t) (newPeer_num t) rfl rfl rfl hinv.reqs
    have e1 : reqsOf W.peers[i].2.log = reqsOf l ++ .created m :: reqsOf (RunEv.sent m :: logOf i c) := by
      rw [hlog, hsplit, hl, List.append_assoc, reqsOf_append]; rfl
    have e2 := inv.made _ _ _ e1
    have e3 : lastNext (reqsOf (logOf i a)) = lastNext (reqsOf l) := by
      rw [hl, reqsOf_append]
      exact lastNext_snoc _ (.created m)
    have e4 : m.index = (lastNext (reqsOf (logOf i a))).getD 0 % 2 ^ 32 := by rw [e2, e3]; rfl
    cases hn : lastNext (reqsOf (logOf i a)) with
    | none =>
      rw [hn] at e4
      exact .inl ⟨e4, lastNext_none hn⟩
    | some j =>
      rw [hn] at e4
      obtain ⟨a1, a2, rfl, h3⟩ := lastNext_split hn
      refine .inr ⟨j, a1, a2, rfl, h3, e4, ?_⟩
      exact C91_given_partial sha1 t disk W hW a1 (a2 ++ (i, .sent m) :: c) i j (by rw [h]; simp)

theorem At.made {sha1 : Bytes → Bytes} {t : Torrent} {p0 : Peer} {disk : Disk} {r r' : Run} {b h o w tr} (m : PeerMessage)
    (a : At sha1 t p0 disk r b h o w tr) (st : Run.Step sha1 t (seen o r) r') (hl : r'.log = r.log ++ [.req (.created m)])
    (hp : r'.loc ≠ .panicked) : At sha1 t p0 disk r' b h o w (tr ++ [(0, .req (.created m))]) := by
  obtain ⟨W, hW, s⟩ := a
  rw [← s.sync] at st
  refine ⟨_, hW.step (.peer (i := 0) (q := 0) (r := r) s.isAlive (by rw [s.peers]; rfl) st hl (.cons .created .nil)), ?_⟩
  exact ⟨by simp [s.peers], s.cancelled, s.closed, s.dead, hp, s.buffer, s.inHand, s.out, s.written, by simp [s.trace]⟩

theorem step_next {sha1 : Bytes → Bytes} {t : Torrent} {s : Run} {failed : Option PeerMessage} {nxt : Option Nat} {m : PeerMessage} {p' : Peer}
    {evs : List ReqEv} (h : s.peer.nextRequestMessage failed nxt = (some m, p', evs)) (hl : s.loc = .ifRequest)
    (h1 : s.peer.clientChoked = false) (h2 : s.peer.clientInterested = true) (h3 : s.sentPieceMsg = false)
    (h4 : ∀ m, failed = some m → m.type = requestType) :
    Run.Step sha1 t s { s with peer := p', requestMsg := some m, log := s.log ++ evs.map .req, loc := .sendRequest m } := by
  have := Run.Step.next (sha1 := sha1) (t := t) failed nxt hl h1 h2 h3 h4
  rw [h] at this
  exact this

/-- A peer that has only sent an unchoke message has not announced anything. -/
theorem unchoke_announces (place : Nat → Nat) (sha1 : Bytes → Bytes) (t : Torrent) (j : Nat) : ¬ Announced place sha1 t [[1]] j := by
  rintro ⟨a, f, b, h, _, hf⟩
  have : f = [1] := by
    have : f ∈ [[(1 : UInt8)]] := by rw [h]; simp
    simpa using this
  subst this
  rcases hf with ⟨bits, h, _⟩ | ⟨p, h, _⟩ | ⟨x, d, p, h, _⟩
  · simp [hear] at h
  · simp at h
  · simp [hear] at h

/-- C91 is false of the code: for every torrent with pieces of at least 128 KiB that is not done, a peer that has announced nothing
can be asked for piece 0. -/
theorem C91_violated (sha1 : Bytes → Bytes) (t : Torrent) (disk : Disk) (h0 : (blockLength : Int) ≤ t.pieceLength)
    (hmax : t.pieceLength < 2 ^ 63) (hd : t.downloaded.all = false) :
    ∃ W a, World.Reachable sha1 t (willing t) disk W ∧ W.trace = a ++ [(0, .sent (requestMessage 0 0 blockLength))] ∧
      ∀ place, ¬ Announced place sha1 t (framesOf 0 a) 0 := by
  have hp' : ∀ p : Peer, p.blockIdx = 0 → p.pieceIdx = 0 → p.blockNum = (newPeer t).blockNum → p.nextRequestMessage none none =
      (some (requestMessage 0 0 blockLength), { p with blockIdx := 1 }, [.created (requestMessage 0 0 blockLength)]) := by
    intro p h1 h2 h3
    have hb : blockLength = 131072 := rfl
    unfold Peer.nextRequestMessage
    rw [if_neg (by rw [h1, h3]; simp only [newPeer, hb]; rw [hb] at h0; omega), blockRequest_create p (by rw [h1]; decide)]
    simp only [h1, h2, blockRequest]
    simp
  obtain ⟨r, a0, a1, a2, a3⟩ : ∃ r, At sha1 t (willing t) disk r [] none ⟨disk, t.downloaded, 0⟩ [] [] ∧ r = Run.start (willing t) ∧
      r.peer.clientChoked = true ∧ r.sentPieceMsg = false :=
    ⟨Run.start (willing t), ⟨_, World.Reachable.start.step (.spawn 0 ⟨rfl, (fun x hx => by cases hx)⟩),
      ⟨rfl, rfl, rfl, rfl, by simp [Run.start], rfl, rfl, rfl, rfl, rfl⟩⟩, rfl, rfl, rfl⟩
  subst a1
  have s1 := a0.silent (.ctxOk rfl rfl) rfl (by simp [Run.goto])
  have s2 := s1.silent (.notDone rfl hd) rfl (by simp [Run.goto])
  have s3 := s2.silent (.notDue rfl) rfl (by simp [Run.goto])
  have s4 := s3.silent (.choked rfl a2) rfl (by simp [Run.goto])
  have s5 := s4.silent (.uCtxOk rfl rfl) rfl (by simp [Run.goto])
  have s6 := s5.quiet [.sent interestedMessage] (.uSent rfl) rfl (by simp [quietEv]) (by simp [Run.emit])
  have s7 := s6.quiet [.received [1]] (.uRead [1] rfl) rfl (by simp [quietEv]) (by
    intro h
    cases h)
  have s8 := s7.made (requestMessage 0 0 blockLength) (step_next (hp' _ rfl rfl rfl) rfl rfl rfl rfl (fun _ h => nomatch h)) rfl (by simp)
  have s9 := s8.quiet [.sent (requestMessage 0 0 blockLength)] (.requestSent rfl) rfl (by simp [quietEv]) (by simp [Run.emit])
  obtain ⟨W, hW, so⟩ := s9
  refine ⟨W, _, hW, so.trace, ?_⟩
  intro place
  exact unchoke_announces place sha1 t 0

/-! ### Two peers with one retry queue -/

/-- Two peers, nothing cancelled. -/
structure Duo (t : Torrent) (W : World) (r0 r1 : Run) (queue : List PeerMessage) (requested : BitSet) (trace : List (Nat × RunEv)) : Prop where
  peers : W.peers = [(0, r0), (0, r1)]
  cancelled : W.cancelled = false
  closed : W.closed = false
  dead : W.dead = false
  alive0 : r0.loc ≠ .panicked
  alive1 : r1.loc ≠ .panicked
  done : W.out.downloaded = t.downloaded
  queue : W.queues 0 = queue
  requested : W.requested = requested
  trace : W.trace = trace

theorem Duo.isAlive {t W r0 r1 q b tr} (s : Duo t W r0 r1 q b tr) : W.alive := by
  refine ⟨s.dead, ?_⟩
  rw [s.peers]
  intro x hx
  rcases List.mem_cons.1 hx with rfl | hx
  · exact s.alive0
  · rw [List.mem_singleton] at hx; subst hx; exact s.alive1

/-- Reachable in this form. -/
def Both (sha1 : Bytes → Bytes) (t : Torrent) (disk : Disk) (r0 r1 : Run) (queue : List PeerMessage) (requested : BitSet)
    (trace : List (Nat × RunEv)) : Prop := ∃ W, World.Reachable sha1 t (willing t) disk W ∧ Duo t W r0 r1 queue requested trace

/-- What `Run` sees. -/
def sees (t : Torrent) (r : Run) : Run := { r with cancelled := false, done := t.downloaded.all, closed := false }

/-- What the events of a step do to queue 0 and to `requested`. -/
def Does (b : BitSet) (es : List RunEv) (q : List PeerMessage) (req : BitSet) (q' : List PeerMessage) (req' : BitSet) : Prop :=
  ∀ W : World, W.queues 0 = q → W.requested = req → ∃ W', World.Effects 0 b W es W' ∧ W'.queues 0 = q' ∧ W'.requested = req'

theorem Does.quiet {b : BitSet} {es : List RunEv} {q : List PeerMessage} {req : BitSet} (h : ∀ e ∈ es, quietEv e = true) : Does b es q req q req :=
  fun W h1 h2 => ⟨W, quiet_effects h, h1, h2⟩

section
variable {sha1 : Bytes → Bytes} {t : Torrent} {disk : Disk} {r0 r1 r' : Run} {q q' : List PeerMessage} {b b' : BitSet}
  {tr : List (Nat × RunEv)}

theorem Both.zero (es : List RunEv) (a : Both sha1 t disk r0 r1 q b tr) (st : Run.Step sha1 t (sees t r0) r') (hl : r'.log = r0.log ++ es)
    (hd : Does r0.peer.bitset es q b q' b') (hp : r'.loc ≠ .panicked) :
    Both sha1 t disk r' r1 q' b' (tr ++ es.map (fun e => (0, e))) := by
  obtain ⟨W, hW, s⟩ := a
  have hs : r0.sync W = sees t r0 := by unfold Run.sync sees; rw [s.cancelled, s.closed, s.done]
  rw [← hs] at st
  obtain ⟨W', g1, g2, g3⟩ := hd W s.queue s.requested
  obtain ⟨_, f2, f3, f4, f5, _⟩ := effects_frame g1
  refine ⟨_, hW.step (.peer (i := 0) (q := 0) (r := r0) s.isAlive (by rw [s.peers]; rfl) st hl g1), ?_⟩
  exact ⟨by simp [s.peers], f3.trans s.cancelled, f4.trans s.closed, f5.trans s.dead, hp, s.alive1, by simp only [f2, s.done], g2, g3,
    by simp [s.trace]⟩

theorem Both.one (es : List RunEv) (a : Both sha1 t disk r0 r1 q b tr) (st : Run.Step sha1 t (sees t r1) r') (hl : r'.log = r1.log ++ es)
    (hd : Does r1.peer.bitset es q b q' b') (hp : r'.loc ≠ .panicked) :
    Both sha1 t disk r0 r' q' b' (tr ++ es.map (fun e => (1, e))) := by
  obtain ⟨W, hW, s⟩ := a
  have hs : r1.sync W = sees t r1 := by unfold Run.sync sees; rw [s.cancelled, s.closed, s.done]
  rw [← hs] at st
  obtain ⟨W', g1, g2, g3⟩ := hd W s.queue s.requested
  obtain ⟨_, f2, f3, f4, f5, _⟩ := effects_frame g1
  refine ⟨_, hW.step (.peer (i := 1) (q := 0) (r := r1) s.isAlive (by rw [s.peers]; rfl) st hl g1), ?_⟩
  exact ⟨by simp [s.peers], f3.trans s.cancelled, f4.trans s.closed, f5.trans s.dead, s.alive0, hp, by simp only [f2, s.done], g2, g3,
    by simp [s.trace]⟩

theorem Both.silent0 (a : Both sha1 t disk r0 r1 q b tr) (st : Run.Step sha1 t (sees t r0) r') (hl : r'.log = r0.log)
    (hp : r'.loc ≠ .panicked) : Both sha1 t disk r' r1 q b tr := by
  simpa using a.zero [] st (by simpa using hl) (.quiet (by simp)) hp

theorem Both.silent1 (a : Both sha1 t disk r0 r1 q b tr) (st : Run.Step sha1 t (sees t r1) r') (hl : r'.log = r1.log)
    (hp : r'.loc ≠ .panicked) : Both sha1 t disk r0 r' q b tr := by
  simpa using a.one [] st (by simpa using hl) (.quiet (by simp)) hp
end

theorem next_first {have_ req : BitSet} (h : have_.test 0 = true) (hr : req.bit 0 = false) (hl : 0 < req.len) :
    nextMethod.Runs have_ (nextMethod.start have_) req (req.set 0) (some 0) := by
  have hn : req.nextClear 0 = some 0 := by
    unfold BitSet.nextClear
    rw [Nat.sub_zero, show req.len = (req.len - 1) + 1 from by omega, List.range'_succ, List.find?_cons]
    simp [hr]
  exact .work (s' := req) (l' := .test 0) (by simp [nextMethod, hn]) (.work (s' := req) (l' := .mark 0) (by simp [nextMethod, h]) (.last rfl))

/-- A peer that announces piece 0 is given it and is about to be asked for it. -/
theorem both_given (sha1 : Bytes → Bytes) (t : Torrent) (disk : Disk) (h0 : 0 ≤ t.pieceLength) (hmax : t.pieceLength < blockLength)
    (hd : t.downloaded.all = false) (hreq : t.requested.bit 0 = false) (hlen : 0 < t.requested.len) :
    ∃ r, Both sha1 t disk r (Run.start (willing t)) [] (t.requested.set 0) [(0, .sent interestedMessage), (0, .received [4, 0, 0, 0, 0]),
        (0, .received [1]), (0, .req (.next (some 0))), (0, .req (.created (requestMessage 0 0 blockLength)))] ∧
      r.loc = .sendRequest (requestMessage 0 0 blockLength) ∧ r.requestMsg = some (requestMessage 0 0 blockLength) := by
  have hbn : (newPeer t).blockNum = 0 := by
    have hb : blockLength = 131072 := rfl
    simp only [newPeer, hb]; rw [hb] at hmax; omega
  have hmsg : ∀ p : Peer, p.blockNum = (newPeer t).blockNum → p.nextRequestMessage none (some 0) =
      (some (requestMessage 0 0 blockLength), { p with blockIdx := 1, pieceIdx := 0 }, [.next (some 0), .created (requestMessage 0 0 blockLength)]) := by
    intro p h
    unfold Peer.nextRequestMessage
    rw [if_pos (by rw [h, hbn]; exact Nat.zero_le _)]
    simp [Peer.createPieceMessage]
  have a0 : Both sha1 t disk (Run.start (willing t)) (Run.start (willing t)) [] t.requested [] := by
    have al : ∀ W : World, W.dead = false → W.peers = [(0, Run.start (willing t))] → W.alive := by
      intro W h0 hW
      refine ⟨h0, ?_⟩
      intro x hx
      rw [hW, List.mem_singleton] at hx
      rw [hx]
      intro e
      cases e
    exact ⟨_, (World.Reachable.start.step (.spawn 0 ⟨rfl, (fun x hx => by cases hx)⟩)).step (.spawn 0 (al _ rfl rfl)),
      ⟨rfl, rfl, rfl, rfl, (by intro e; cases e), (by intro e; cases e), rfl, rfl, rfl, rfl⟩⟩
  have s1 := a0.silent0 (.ctxOk rfl rfl) rfl (by simp [Run.goto])
  have s2 := s1.silent0 (.notDone rfl hd) rfl (by simp [Run.goto])
  have s3 := s2.silent0 (.notDue rfl) rfl (by simp [Run.goto])
  have s4 := s3.silent0 (.choked rfl rfl) rfl (by simp [Run.goto])
  have s5 := s4.silent0 (.uCtxOk rfl rfl) rfl (by simp [Run.goto])
  have s6 := s5.zero [.sent interestedMessage] (.uSent rfl) rfl (.quiet (by simp [quietEv])) (by simp [Run.emit])
  have s7 := s6.zero [.received [4, 0, 0, 0, 0]] (.uRead [4, 0, 0, 0, 0] rfl) rfl (.quiet (by simp [quietEv])) (by intro h; cases h)
  have s8 := s7.silent0 (.noRequest rfl (.inl rfl)) rfl (by simp [Run.goto])
  have s9 := s8.zero [.received [1]] (.read [1] rfl) rfl (.quiet (by simp [quietEv])) (by intro h; cases h)
  have s10 := s9.silent0 (.ctxOk rfl rfl) rfl (by simp [Run.goto])
  have s11 := s10.silent0 (.notDone rfl hd) rfl (by simp [Run.goto])
  have s12 := s11.silent0 (.notDue rfl) rfl (by simp [Run.goto])
  have s13 := s12.silent0 (.unchoked rfl rfl) rfl (by simp [Run.goto])
  have s14 := s13.zero (q' := []) (b' := t.requested.set 0) [.req (.next (some 0)), .req (.created (requestMessage 0 0 blockLength))]
    (step_next (hmsg _ rfl) rfl rfl rfl rfl (fun _ h => nomatch h)) rfl
    (by
      intro W h1 h2
      refine ⟨_, .cons (.next (r := some 0) (s' := t.requested.set 0) ?_) (.cons .created .nil), h1, rfl⟩
      rw [h2]
      exact next_first (by show BitSet.test (BitSet.set _ 0) 0 = true; simp [BitSet.test, BitSet.set]; split <;> omega) hreq hlen)
    (by simp)
  exact ⟨_, s14, rfl, rfl⟩

/-- C91 is false of the code in a second way: for every torrent with pieces of less than 128 KiB whose piece 0 has not been given to
a peer, a peer that has announced nothing can be asked for piece 0, because another peer was and the request could not be sent. -/
theorem C91_retry_violated (sha1 : Bytes → Bytes) (t : Torrent) (disk : Disk) (h0 : 0 ≤ t.pieceLength) (hmax : t.pieceLength < blockLength)
    (hd : t.downloaded.all = false) (hreq : t.requested.bit 0 = false) (hlen : 0 < t.requested.len) :
    ∃ W a, World.Reachable sha1 t (willing t) disk W ∧ W.trace = a ++ [(1, .sent (requestMessage 0 0 blockLength))] ∧
      ∀ place, ¬ Announced place sha1 t (framesOf 1 a) 0 := by
  have hbn : (newPeer t).blockNum = 0 := by
    have hb : blockLength = 131072 := rfl
    simp only [newPeer, hb]; rw [hb] at hmax; omega
  have hpop : ∀ (p : Peer) m, p.blockNum = (newPeer t).blockNum → p.nextRequestMessage (some m) none = (some m, p, [.popped m]) := by
    intro p m h
    unfold Peer.nextRequestMessage
    rw [if_pos (by rw [h, hbn]; exact Nat.zero_le _)]
  obtain ⟨r, s14, l1, l2⟩ := both_given sha1 t disk h0 hmax hd hreq hlen
  have s15 := s14.zero [.sendFailed (requestMessage 0 0 blockLength)] (.requestFail l1) rfl (.quiet (by simp [quietEv]))
    (by simp [Run.emit])
  have s16 := s15.zero (q' := [requestMessage 0 0 blockLength]) (b' := t.requested.set 0) [.requeued (some (requestMessage 0 0 blockLength))]
    (.requeued (congrArg RunLoc.requeue l2)) rfl
    (by
      intro W h1 h2
      refine ⟨_, .cons (.requeued (s' := [requestMessage 0 0 blockLength]) ?_) .nil, by simp, h2⟩
      rw [h1]
      exact .work (l' := _) rfl (.last rfl))
    (by simp [Run.emit])
  have u1 := s16.silent1 (.ctxOk rfl rfl) rfl (by simp [Run.goto])
  have u2 := u1.silent1 (.notDone rfl hd) rfl (by simp [Run.goto])
  have u3 := u2.silent1 (.notDue rfl) rfl (by simp [Run.goto])
  have u4 := u3.silent1 (.choked rfl rfl) rfl (by simp [Run.goto])
  have u5 := u4.silent1 (.uCtxOk rfl rfl) rfl (by simp [Run.goto])
  have u6 := u5.one [.sent interestedMessage] (.uSent rfl) rfl (.quiet (by simp [quietEv])) (by simp [Run.emit])
  have u7 := u6.one [.received [1]] (.uRead [1] rfl) rfl (.quiet (by simp [quietEv])) (by intro h; cases h)
  have u8 := u7.one (q' := []) (b' := t.requested.set 0) [.req (.popped (requestMessage 0 0 blockLength))]
    (step_next (hpop _ _ rfl) rfl rfl rfl rfl (fun _ h => by cases h; rfl)) rfl
    (by
      intro W h1 h2
      refine ⟨_, .cons (.popped (s' := []) ?_) .nil, by simp, h2⟩
      rw [h1]
      exact .work (l' := _) rfl (.last rfl))
    (by simp)
  have u9 := u8.one [.sent (requestMessage 0 0 blockLength)] (.requestSent rfl) rfl (.quiet (by simp [quietEv]))
    (by simp [Run.emit])
  obtain ⟨W, hW, so⟩ := u9
  refine ⟨W, _, hW, so.trace, ?_⟩
  intro place
  exact unchoke_announces place sha1 t 0

/-- The hypotheses of the last two theorems are met. -/
example : (∃ t : Torrent, (blockLength : Int) ≤ t.pieceLength ∧ t.pieceLength < 2 ^ 63 ∧ t.downloaded.all = false) ∧
    0 ≤ tiny.pieceLength ∧ tiny.pieceLength < blockLength ∧ tiny.downloaded.all = false ∧ tiny.requested.bit 0 = false ∧ 0 < tiny.requested.len :=
  ⟨⟨{ tiny with pieceLength := 262144 }, by decide, by decide, by decide⟩, by decide, by decide, by decide, by decide, by decide⟩

/-- A peer that announces piece 0 is given it (`C91_given_partial`) and asked for it (the third case of `C91_partial`). -/
example : ∃ W, World.Reachable tinySha tiny (willing tiny) (fun _ => []) W ∧
    W.trace = [(0, .sent interestedMessage), (0, .received [4, 0, 0, 0, 0]), (0, .received [1]), (0, .req (.next (some 0))),
      (0, .req (.created (requestMessage 0 0 blockLength))), (0, .sent (requestMessage 0 0 blockLength))] := by
  obtain ⟨r, s, l1, _⟩ := both_given tinySha tiny (fun _ => []) (by decide) (by decide) (by decide) (by decide) (by decide)
  obtain ⟨W, hW, so⟩ := s.zero [.sent (requestMessage 0 0 blockLength)] (.requestSent l1) rfl (.quiet (by simp [quietEv])) (by simp [Run.emit])
  exact ⟨W, hW, so.trace⟩

end Gotit.Props
