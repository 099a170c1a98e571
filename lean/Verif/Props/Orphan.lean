import Verif.Spec.Orphan
import Verif.Props.Asked
/-
  C132: a request that failed stays with the peers of one response.
-/
namespace Gotit.Props
open Gotit Gotit.Spec

/-! ### What a peer puts back, it made or took -/

/-- The request `m` was made or taken from the retry queue. -/
def Got (m : PeerMessage) (log : List RunEv) : Prop := RunEv.req (.popped m) ∈ log ∨ RunEv.req (.created m) ∈ log

theorem Got.more {m : PeerMessage} {log : List RunEv} (h : Got m log) (es : List RunEv) : Got m (log ++ es) :=
  h.imp (List.mem_append_left _) (List.mem_append_left _)

structure HeldInv (s : Run) : Prop where
  msg : ∀ m, s.requestMsg = some m → Got m s.log
  back : ∀ m, s.loc = .requeue (some m) → Got m s.log
  put : ∀ a m b, s.log = a ++ .requeued (some m) :: b → Got m a

theorem requeue_step {sha1 : Bytes → Bytes} {t : Torrent} {s s' : Run} {es : List RunEv} (st : Run.Step sha1 t s s')
    (hl : s'.log = s.log ++ es) {x y : List RunEv} {m : PeerMessage} (he : es = x ++ .requeued (some m) :: y) :
    x = [] ∧ s.loc = .requeue (some m) := by
  have fin : ∀ es', s'.log = s.log ++ es' → es = es' := fun es' h => List.append_cancel_left (hl.symm.trans h)
  have one : ∀ e, es = [e] → x = [] ∧ e = .requeued (some m) := by
    intro e h
    rw [he] at h
    cases x with
    | nil => simp at h; exact ⟨rfl, h.1.symm⟩
    | cons a x => simp at h
  have none : es = [] → False := by intro h; rw [he] at h; simp at h
  cases st with
  | uRead f e => have := (one _ (fin _ (handle_frame sha1 t s f true).1)).2; cases this
  | read f e => have := (one _ (fin _ (handle_frame sha1 t s f false).1)).2; cases this
  | next f n e =>
    have h1 := fin _ rfl
    have : RunEv.requeued (some m) ∈ es := by rw [he]; simp
    rw [h1] at this
    obtain ⟨_, _, h⟩ := List.mem_map.1 this
    cases h
  | delivered e => have := (one _ (fin _ rfl)).2; cases this
  | kept e => have := (one _ (fin _ rfl)).2; cases this
  | keepFail e => have := (one _ (fin _ rfl)).2; cases this
  | uSent e => have := (one _ (fin _ rfl)).2; cases this
  | uSendFail e => have := (one _ (fin _ rfl)).2; cases this
  | uReadFail e => have := (one _ (fin _ rfl)).2; cases this
  | requestSent e => have := (one _ (fin _ rfl)).2; cases this
  | requestFail e => have := (one _ (fin _ rfl)).2; cases this
  | requeued e => obtain ⟨h1, h2⟩ := one _ (fin _ rfl); cases h2; exact ⟨h1, e⟩
  | readFailWaiting e => have := (one _ (fin _ rfl)).2; cases this
  | readFail e => have := (one _ (fin _ rfl)).2; cases this
  | _ => exact (none (fin [] (List.append_nil _).symm)).elim

/-- The request variable changes only where requests come from. -/
theorem msg_step {sha1 : Bytes → Bytes} {t : Torrent} {s s' : Run} (st : Run.Step sha1 t s s') :
    (s'.requestMsg = s.requestMsg ∧ ∀ o, s'.loc = .requeue o → o = s.requestMsg) ∨
    ∃ f n, s'.requestMsg = (s.peer.nextRequestMessage f n).1 ∧ s'.log = s.log ++ (s.peer.nextRequestMessage f n).2.2.map .req ∧
      ∀ o, s'.loc ≠ .requeue o := by
  have hh : ∀ f b, (s.handle sha1 t f b).requestMsg = s.requestMsg ∧ ∀ o, (s.handle sha1 t f b).loc ≠ .requeue o := by
    intro f b
    unfold Run.handle
    simp only
    split
    · refine ⟨rfl, fun o => ?_⟩
      simp only
      cases b <;> simp
    · exact ⟨rfl, by simp⟩
    · exact ⟨rfl, by simp [Run.goto]⟩
  cases st with
  | uRead f e => exact .inl ⟨(hh f true).1, fun o h => absurd h ((hh f true).2 o)⟩
  | read f e => exact .inl ⟨(hh f false).1, fun o h => absurd h ((hh f false).2 o)⟩
  | next f n e =>
    refine .inr ⟨f, n, rfl, rfl, ?_⟩
    intro o
    simp only
    split <;> simp
  | @delivered m b e =>
    refine .inl ⟨rfl, ?_⟩
    intro o
    simp only [Run.emit]
    cases b <;> simp
  | requestFail e => exact .inl ⟨rfl, by simp [Run.emit]⟩
  | readFailWaiting e => exact .inl ⟨rfl, by simp [Run.emit]⟩
  | _ => exact .inl ⟨rfl, by simp [Run.emit, Run.goto]⟩

theorem reachable_held {sha1 : Bytes → Bytes} {t : Torrent} {p0 : Peer} {s : Run} (h : Run.Reachable sha1 t p0 s) : HeldInv s := by
  induction h with
  | start => exact ⟨by simp [Run.start], by simp [Run.start], by simp [Run.start]⟩
  | env _ st ih => cases st <;> exact ⟨ih.msg, ih.back, ih.put⟩
  | @step s s' _ st ih =>
    obtain ⟨es, hl⟩ := step_log st
    have hput : ∀ a m b, s'.log = a ++ .requeued (some m) :: b → Got m a := by
      intro a m b ha
      rw [hl] at ha
      rcases append_split_cons ha with ⟨c', h1, _⟩ | ⟨e1, rfl, h2⟩
      · exact ih.put a m c' h1
      · obtain ⟨rfl, h3⟩ := requeue_step st hl h2
        rw [List.append_nil]
        exact ih.back m h3
    rcases msg_step st with ⟨h1, h2⟩ | ⟨f, n, h1, h2, h3⟩
    · refine ⟨?_, ?_, hput⟩
      · intro m hm
        rw [h1] at hm
        rw [hl]
        exact (ih.msg m hm).more _
      · intro m hm
        rw [hl]
        exact (ih.msg m (h2 _ hm).symm).more _
    · refine ⟨?_, ?_, hput⟩
      · intro m hm
        rw [h1] at hm
        rw [h2]
        rcases C51_returned_partial s.peer f n _ hm with ⟨_, g⟩ | g
        · left; rw [g]; simp
        · right
          exact List.mem_append_right _ (List.mem_map_of_mem (List.mem_of_getLast? g))
      · intro m hm
        exact absurd hm (h3 _)

/-! ### Requests of a piece belong to one retry queue -/

theorem mem_lastNext {log : List RunEv} {j : Nat} (h : lastNext (reqsOf log) = some j) : RunEv.req (.next (some j)) ∈ log := by
  unfold lastNext at h
  have h' := List.mem_of_getLast? h
  obtain ⟨e, he, h2⟩ := List.mem_filterMap.1 h'
  cases e with
  | next o =>
    have h3 : o = some j := by
      cases o with
      | none => cases h2
      | some i => exact h2
    subst h3
    obtain ⟨e', he', h3⟩ := List.mem_filterMap.1 he
    cases e' with
    | req r =>
      have h4 : r = .next (some j) := Option.some.inj h3
      subst h4; exact he'
    | _ => cases h3
  | popped m => cases h2
  | created m => cases h2

/-- A request that a peer made is for a piece that it was given. -/
theorem made_given {sha1 : Bytes → Bytes} {t : Torrent} {s : Run} (h : Run.Reachable sha1 t (willing t) s) {m : PeerMessage}
    (hm : RunEv.req (.created m) ∈ s.log) (h0 : m.index ≠ 0 ∨ (newPeer t).blockNum = 0) :
    ∃ j, m.index = j % 2 ^ 32 ∧ RunEv.req (.next (some j)) ∈ s.log := by
  have inv := requests_inv (p0 := willing t) (newPeer_num t) rfl rfl rfl (reachable_sends h).reqs
  obtain ⟨a, b, hab⟩ := List.append_of_mem hm
  have e1 : reqsOf s.log = reqsOf a ++ .created m :: reqsOf b := by
    rw [hab, reqsOf_append]; rfl
  have e2 := inv.made _ _ _ e1
  cases hn : lastNext (reqsOf a) with
  | some j =>
    refine ⟨j, by rw [e2, hn]; rfl, ?_⟩
    rw [hab]
    exact List.mem_append_left _ (mem_lastNext hn)
  | none =>
    exfalso
    rcases h0 with h0 | h0
    · apply h0
      rw [e2, hn]; rfl
    · have := inv.pre (reqsOf a ++ [.created m]) (reqsOf b) (by rw [e1]; simp)
      have h1 := this.start (by rw [lastNext_snoc]; exact hn)
      rw [sinceNext_snoc] at h1
      simp only [List.length_append, List.length_singleton] at h1
      rw [h0] at h1
      omega

theorem given_mem {i j : Nat} {tr : List (Nat × RunEv)} (h : (i, RunEv.req (.next (some j))) ∈ tr) : j ∈ piecesGiven tr :=
  List.mem_filterMap.2 ⟨_, h, rfl⟩

/-- Every request in the system for piece `j` is with a retry queue one of whose peers was given `j`. -/
theorem requests_owned {sha1 : Bytes → Bytes} {t : Torrent} {disk : Disk} {W : World} (hW : World.Reachable sha1 t (willing t) disk W)
    {j : Nat} (h0 : j ≠ 0 ∨ (newPeer t).blockNum = 0) (hlen : ∀ k ∈ piecesGiven W.trace, k < 2 ^ 32) :
    ∀ (n : Nat) (a c : List (Nat × RunEv)) (i q : Nat) (r : Run) (m : PeerMessage) (e : RunEv), a.length < n → W.trace = a ++ (i, e) :: c →
      W.peers[i]? = some (q, r) → (e = .req (.popped m) ∨ e = .req (.created m) ∨ e = .requeued (some m)) → m.index = j → Owns W q j := by
  obtain ⟨t1, t2⟩ := world_trace hW
  intro n
  induction n with
  | zero => intro a c i q r m e ha; exact absurd ha (Nat.not_lt_zero _)
  | succ n ih =>
    intro a c i q r m e ha htr hi he hm
    have earlier : ∀ (k : Nat) (r' : Run) (e' : RunEv), W.peers[k]? = some (q, r') → (k, e') ∈ a →
        (e' = .req (.popped m) ∨ e' = .req (.created m) ∨ e' = .requeued (some m)) → Owns W q j := by
      intro k r' e' hk hmem he'
      obtain ⟨x, y, rfl⟩ := List.append_of_mem hmem
      refine ih x (y ++ (i, e) :: c) k q r' m e' ?_ (by rw [htr]; simp) hk he' hm
      simp only [List.length_append, List.length_cons] at ha
      omega
    have hrun := (world_proj hW _ (List.mem_of_getElem? hi)).1
    have hlog : r.log = logOf i W.trace := t2 _ _ _ hi
    rcases he with rfl | rfl | rfl
    · obtain ⟨q', r1, g1, k, r', g2, g3⟩ := (world_queues hW).2 a i m c htr
      rw [hi] at g1
      cases g1
      exact earlier k r' _ g2 g3 (.inr (.inr rfl))
    · obtain ⟨j', e1, e2⟩ := made_given hrun (m := m) (by rw [hlog]; exact mem_logOf.2 (by rw [htr]; simp)) (by rw [hm]; exact h0)
      rw [hlog] at e2
      have e3 := mem_logOf.1 e2
      have e4 := hlen j' (given_mem e3)
      rw [hm, Nat.mod_eq_of_lt e4] at e1
      subst e1
      exact ⟨i, r, hi, e3⟩
    · have hsplit : r.log = logOf i a ++ .requeued (some m) :: logOf i c := by
        rw [hlog, htr, logOf_append, show (i, RunEv.requeued (some m)) :: c = [(i, .requeued (some m))] ++ c from rfl, logOf_append]
        simp [logOf]
      rcases (reachable_held hrun).put _ m _ hsplit with g | g
      · exact earlier i r _ hi (mem_logOf.1 g) (.inl rfl)
      · exact earlier i r _ hi (mem_logOf.1 g) (.inr (.inl rfl))

/-- Two entries of a list without repetitions are in the same place. -/
theorem given_once {i k j : Nat} : ∀ {tr : List (Nat × RunEv)}, (piecesGiven tr).Nodup → (i, RunEv.req (.next (some j))) ∈ tr →
    (k, RunEv.req (.next (some j))) ∈ tr → i = k := by
  intro tr
  induction tr with
  | nil => intro _ h; cases h
  | cons x l ih =>
    intro hn h1 h2
    have hc : piecesGiven (x :: l) = piecesGiven [x] ++ piecesGiven l := piecesGiven_append [x] l
    rw [hc, List.nodup_append] at hn
    obtain ⟨_, n2, n3⟩ := hn
    rcases List.mem_cons.1 h1 with e1 | e1 <;> rcases List.mem_cons.1 h2 with e2 | e2
    · rw [← e1] at e2; cases e2; rfl
    · subst e1
      exact absurd rfl (n3 j (by simp [piecesGiven]) j (given_mem e2))
    · subst e2
      exact absurd rfl (n3 j (by simp [piecesGiven]) j (given_mem e1))
    · exact ih n2 e1 e2

/-- C132, what the code does: in every download with peers that ask, once `Next` has given a piece to a peer, requests for the piece
are sent to peers of the same response only (those made with the same retry queue), whatever becomes of them. (Piece 0 is an exception
if pieces have 128 KiB or more: a new peer asks for it without having been given it, see C91.) -/
theorem C132_queue_partial (sha1 : Bytes → Bytes) (t : Torrent) (disk : Disk) (W : World) (hW : World.Reachable sha1 t (willing t) disk W)
    (hn : ∀ k, t.requested.bit k = false) (hlen : t.requested.len ≤ 2 ^ 32) (j : Nat)
    (h0 : j ≠ 0 ∨ (0 ≤ t.pieceLength ∧ t.pieceLength < blockLength)) (i q : Nat) (r : Run) (hi : W.peers[i]? = some (q, r))
    (hg : (i, .req (.next (some j))) ∈ W.trace) (k q' : Nat) (r' : Run) (hk : W.peers[k]? = some (q', r')) (m : PeerMessage)
    (hm : m.type = requestType) (hj : m.index = j) (hs : (k, .sent m) ∈ W.trace) : q' = q := by
  obtain ⟨_, g2, _, g4⟩ := world_given hW hn
  have hb : j ≠ 0 ∨ (newPeer t).blockNum = 0 := by
    refine h0.imp id ?_
    rintro ⟨a, b⟩
    have hb : blockLength = 131072 := rfl
    simp only [newPeer, hb]; rw [hb] at b; omega
  obtain ⟨a, c, hac⟩ := List.append_of_mem hs
  have hrun := (world_proj hW _ (List.mem_of_getElem? hk)).1
  have hlog : r'.log = logOf k W.trace := (world_trace hW).2 _ _ _ hk
  have hsplit : r'.log = logOf k a ++ .sent m :: logOf k c := by
    rw [hlog, hac, logOf_append, show (k, RunEv.sent m) :: c = [(k, .sent m)] ++ c from rfl, logOf_append]
    simp [logOf]
  have own : Owns W q' j := by
    have at_ : ∀ e, (k, e) ∈ W.trace → (e = .req (.popped m) ∨ e = .req (.created m) ∨ e = .requeued (some m)) → Owns W q' j := by
      intro e he h
      obtain ⟨x, y, hxy⟩ := List.append_of_mem he
      exact requests_owned hW hb (fun k hk => Nat.lt_of_lt_of_le (g4 k hk) hlen) (x.length + 1) x y k q' r' m e (Nat.lt_succ_self _) hxy hk h hj
    rcases (reachable_sends hrun).sent _ m _ hsplit hm with g | g
    · exact at_ _ (mem_logOf.1 (by rw [← hlog, hsplit]; exact List.mem_append_left _ (List.mem_of_getLast? g))) (.inl rfl)
    · exact at_ _ (mem_logOf.1 (by rw [← hlog, hsplit]; exact List.mem_append_left _ (List.mem_of_getLast? g))) (.inr (.inl rfl))
  obtain ⟨i', r1, o1, o2⟩ := own
  have := given_once g2 hg o2
  subst this
  rw [hi] at o1
  cases o1
  rfl

/-! ### A peer that has returned does nothing any more -/

theorem continues_reachable {sha1 : Bytes → Bytes} {t : Torrent} {p0 : Peer} {disk : Disk} {W W' : World} (h : World.Reachable sha1 t p0 disk W)
    (hc : Continues sha1 t p0 W W') : World.Reachable sha1 t p0 disk W' := by
  induction hc with
  | here => exact h
  | step _ st ih => exact ih.step st

theorem returned_stays {sha1 : Bytes → Bytes} {t : Torrent} {p0 : Peer} {W W' : World} (hc : Continues sha1 t p0 W W') {i q : Nat} {r : Run}
    (hi : W.peers[i]? = some (q, r)) (hr : r.loc = .returned) : W'.peers[i]? = some (q, r) := by
  induction hc with
  | here => exact hi
  | step _ st ih =>
    cases st with
    | spawn q' _ => simp only; rw [List.getElem?_append_left (List.getElem?_eq_some_iff.1 ih).1]; exact ih
    | @peer W1 k q' r1 r2 es _ hk st _ _ =>
      simp only
      by_cases h : k = i
      · subst h
        rw [ih] at hk
        cases hk
        have : ∀ {s s' : Run}, s.loc = .returned → ¬ Run.Step sha1 t s s' := by
          intro s s' h st
          cases st <;> simp_all
        exact absurd st (this (by simp [Run.sync, hr]))
      · rw [List.getElem?_set_ne h]; exact ih
    | _ => exact ih

theorem queue_fixed {sha1 : Bytes → Bytes} {t : Torrent} {p0 : Peer} {W W' : World} (hc : Continues sha1 t p0 W W') {i q : Nat} {r : Run}
    (hi : W.peers[i]? = some (q, r)) : ∃ r', W'.peers[i]? = some (q, r') := by
  induction hc with
  | here => exact ⟨r, hi⟩
  | step _ st ih =>
    obtain ⟨r0, ih⟩ := ih
    cases st with
    | spawn q' _ => exact ⟨r0, by simp only; rw [List.getElem?_append_left (List.getElem?_eq_some_iff.1 ih).1]; exact ih⟩
    | @peer W1 k q' r1 r2 es _ hk st _ _ =>
      by_cases h : k = i
      · subst h
        rw [ih] at hk
        cases hk
        exact ⟨r2, List.getElem?_set_self (List.getElem?_eq_some_iff.1 ih).1⟩
      · exact ⟨r0, by simp only; rw [List.getElem?_set_ne h]; exact ih⟩
    | _ => exact ⟨r0, ih⟩

/-- C132, what follows: if a piece was given to a peer of a response, and all peers of the response have returned from `Run`, the piece
is not asked for any more, whatever peers other responses bring, unless further peers of the same response come. -/
theorem C132_lost_partial (sha1 : Bytes → Bytes) (t : Torrent) (disk : Disk) (W : World) (hW : World.Reachable sha1 t (willing t) disk W)
    (hn : ∀ k, t.requested.bit k = false) (hlen : t.requested.len ≤ 2 ^ 32) (j : Nat)
    (h0 : j ≠ 0 ∨ (0 ≤ t.pieceLength ∧ t.pieceLength < blockLength)) (i q : Nat) (r : Run) (hi : W.peers[i]? = some (q, r))
    (hg : (i, .req (.next (some j))) ∈ W.trace) (hr : ∀ (k : Nat) (r' : Run), W.peers[k]? = some (q, r') → r'.loc = .returned) (W' : World)
    (hc : Continues sha1 t (willing t) W W') (hp : ∀ (k : Nat) (r' : Run), W'.peers[k]? = some (q, r') → k < W.peers.length) (k : Nat) (m : PeerMessage)
    (hm : m.type = requestType) (hj : m.index = j) (hs : (k, .sent m) ∈ W'.trace) : (k, .sent m) ∈ W.trace := by
  have hW' := continues_reachable hW hc
  have hi' := returned_stays hc hi (hr i r hi)
  have hg' : (i, RunEv.req (.next (some j))) ∈ W'.trace := by
    have a : r.log = logOf i W.trace := (world_trace hW).2 _ _ _ hi
    have b : r.log = logOf i W'.trace := (world_trace hW').2 _ _ _ hi'
    exact mem_logOf.1 (by rw [← b, a]; exact mem_logOf.2 hg)
  have hkl := (world_trace hW').1 _ hs
  have hk : W'.peers[k]? = some (W'.peers[k].1, W'.peers[k].2) := List.getElem?_eq_getElem hkl
  have hq := C132_queue_partial sha1 t disk W' hW' hn hlen j h0 i q r hi' hg' k _ _ hk m hm hj hs
  rw [hq] at hk
  have hlt := hp k _ hk
  have hk0 : W.peers[k]? = some (W.peers[k].1, W.peers[k].2) := List.getElem?_eq_getElem hlt
  have hq0 : W.peers[k].1 = q := by
    obtain ⟨r2, h2⟩ := queue_fixed hc hk0
    rw [hk] at h2
    exact (congrArg Prod.fst (Option.some.inj h2)).symm
  rw [hq0] at hk0
  have hk1 := returned_stays hc hk0 (hr k _ hk0)
  have a : W.peers[k].2.log = logOf k W.trace := (world_trace hW).2 _ _ _ hk0
  have b : W.peers[k].2.log = logOf k W'.trace := (world_trace hW').2 _ _ _ hk1
  exact mem_logOf.1 (by rw [← a, b]; exact mem_logOf.2 hs)

/-- C132 is false of the code: in every torrent with pieces of less than 128 KiB, of which none was asked for and some are missing,
piece 0 can come to be asked for no more although nobody was ever asked for it: the request could not be sent to the peer it was given
to, it is in the retry queue, and the peers using that queue have returned. -/
theorem C132_violated (sha1 : Bytes → Bytes) (t : Torrent) (disk : Disk) (h0 : 0 ≤ t.pieceLength) (hmax : t.pieceLength < blockLength)
    (hd : t.downloaded.all = false) (hn : ∀ k, t.requested.bit k = false) (hl : 0 < t.requested.len) (hlen : t.requested.len ≤ 2 ^ 32) :
    ∃ W, World.Reachable sha1 t (willing t) disk W ∧ W.alive ∧ W.cancelled = false ∧ W.out.downloaded.all = false ∧
      W.queues 0 = [requestMessage 0 0 blockLength] ∧
      ∀ W', Continues sha1 t (willing t) W W' → (∀ (k : Nat) (r : Run), W'.peers[k]? = some (0, r) → k < W.peers.length) →
        ∀ k m, m.type = requestType → m.index = 0 → (k, .sent m) ∉ W'.trace := by
  obtain ⟨r, s14, l1, l2⟩ := both_given sha1 t disk h0 hmax hd (hn 0) hl
  have s15 := s14.zero [.sendFailed (requestMessage 0 0 blockLength)] (.requestFail l1) rfl (.quiet (by simp [quietEv]))
    (by simp [Run.emit])
  have s16 := s15.zero (q' := [requestMessage 0 0 blockLength]) (b' := t.requested.set 0) [.requeued (some (requestMessage 0 0 blockLength))]
    (.requeued (congrArg RunLoc.requeue l2)) rfl
    (by
      intro W h1 h2
      refine ⟨_, .cons (.requeued (s' := [requestMessage 0 0 blockLength]) ?_) .nil, by simp, h2⟩
      rw [h1]
      exact .work (l' := _) rfl (.last rfl))
    (by simp [Run.emit])
  have s17 := s16.silent0 (.waited rfl) rfl (by simp [Run.goto])
  have s18 := s17.silent0 (.ctxOk rfl rfl) rfl (by simp [Run.goto])
  have s19 := s18.silent0 (.notDone rfl hd) rfl (by simp [Run.goto])
  have s20 := s19.zero [.sendFailed keepaliveMessage] (.keepFail rfl) rfl (.quiet (by simp [quietEv])) (by simp [Run.emit])
  have u1 := s20.silent1 (.ctxOk rfl rfl) rfl (by simp [Run.goto])
  have u2 := u1.silent1 (.notDone rfl hd) rfl (by simp [Run.goto])
  have u3 := u2.one [.sendFailed keepaliveMessage] (.keepFail rfl) rfl (.quiet (by simp [quietEv])) (by simp [Run.emit])
  obtain ⟨W, hW, so⟩ := u3
  refine ⟨W, hW, so.isAlive, so.cancelled, by rw [so.done]; exact hd, so.queue, ?_⟩
  intro W' hc hp k m hm hi hs
  have := C132_lost_partial sha1 t disk W hW hn hlen 0 (.inr ⟨h0, hmax⟩) 0 0 _ (by rw [so.peers]; rfl) (by rw [so.trace]; simp)
    (by
      intro k r' hk
      rw [so.peers] at hk
      match k with
      | 0 => cases hk; rfl
      | 1 => cases hk; rfl
      | k + 2 => cases hk)
    W' hc hp k m hm hi hs
  rw [so.trace] at this
  simp at this
  obtain ⟨_, rfl⟩ := this
  exact absurd hm (by decide)

/-- The hypotheses are met, and further peers of other responses can come. -/
example : ∃ W W', World.Reachable tinySha tiny (willing tiny) (fun _ => []) W ∧ W.queues 0 = [requestMessage 0 0 blockLength] ∧
    Continues tinySha tiny (willing tiny) W W' ∧ W'.peers.length = W.peers.length + 1 ∧
    ∀ k m, m.type = requestType → m.index = 0 → (k, .sent m) ∉ W'.trace := by
  obtain ⟨W, hW, ha, _, _, hq, h⟩ := C132_violated tinySha tiny (fun _ => []) (by decide) (by decide) (by decide) (fun k => by rfl) (by decide) (by decide)
  have hc : Continues tinySha tiny (willing tiny) W _ := .step .here (.spawn 1 ha)
  refine ⟨W, _, hW, hq, hc, by simp, h _ hc ?_⟩
  intro k r hk
  simp only at hk
  by_cases hlt : k < W.peers.length
  · exact hlt
  · exfalso
    rw [List.getElem?_append_right (by omega)] at hk
    by_cases h1 : k - W.peers.length = 0
    · rw [h1] at hk
      simp at hk
    · rw [List.getElem?_eq_none (by simp; omega)] at hk
      cases hk

/-- A case of `C132_queue_partial` with a request that is sent. -/
example : ∃ W r, World.Reachable tinySha tiny (willing tiny) (fun _ => []) W ∧ W.peers[0]? = some (0, r) ∧ (∀ k, tiny.requested.bit k = false) ∧
    tiny.requested.len ≤ 2 ^ 32 ∧ (0, .req (.next (some 0))) ∈ W.trace ∧ (0, .sent (requestMessage 0 0 blockLength)) ∈ W.trace := by
  obtain ⟨r, s, l1, _⟩ := both_given tinySha tiny (fun _ => []) (by decide) (by decide) (by decide) (by decide) (by decide)
  obtain ⟨W, hW, so⟩ := s.zero [.sent (requestMessage 0 0 blockLength)] (.requestSent l1) rfl (.quiet (by simp [quietEv])) (by simp [Run.emit])
  exact ⟨W, _, hW, by rw [so.peers]; rfl, fun k => by rfl, by decide, by rw [so.trace]; simp, by rw [so.trace]; simp⟩

end Gotit.Props
