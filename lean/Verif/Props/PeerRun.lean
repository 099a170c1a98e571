import Verif.Spec.PeerRun
import Verif.Props.Requests
/-
  C52-C56: the main loop of a peer.
-/
namespace Gotit.Props
open Gotit Gotit.Spec

theorem requestType_eq : requestType = 6 := rfl
theorem interestedType_eq : interestedType = 2 := rfl
attribute [local simp] requestType_eq interestedType_eq

theorem newPeerMessage_type {f : Bytes} {m : PeerMessage} (h : newPeerMessage f = .ok m) :
    m.type = (f.head?).getD keepaliveType := by
  unfold newPeerMessage at h
  split at h
  · cases h; rfl
  · have key : ∀ (b : Bytes) i (k : Nat → Res PeerMessage), (uint32At b i).bind k = .ok m → ∃ v, k v = .ok m := by
      intro b i k hk
      unfold uint32At at hk
      split at hk
      · simp [Res.bind] at hk
      · exact ⟨_, hk⟩
    simp only at h
    split at h
    · obtain ⟨v, hv⟩ := key _ _ _ h
      cases hv; rfl
    split at h
    · obtain ⟨v, hv⟩ := key _ _ _ h
      obtain ⟨v, hv⟩ := key _ _ _ hv
      obtain ⟨v, hv⟩ := key _ _ _ hv
      cases hv; rfl
    split at h
    · obtain ⟨v, hv⟩ := key _ _ _ h
      obtain ⟨v, hv⟩ := key _ _ _ hv
      cases hv; rfl
    · cases h; rfl

theorem nextRequest_type {p : Peer} {failed next m} (hf : ∀ m, failed = some m → m.type = requestType)
    (h : (p.nextRequestMessage failed next).1 = some m) : m.type = requestType := by
  unfold Peer.nextRequestMessage at h
  split at h
  · split at h
    · cases h; exact hf _ rfl
    · split at h
      · simp at h
      · simp only [Option.some.injEq] at h; rw [← h]; rfl
  · simp only [Option.some.injEq] at h; rw [← h]; rfl

theorem nextRequest_flags {p : Peer} {failed next} :
    (p.nextRequestMessage failed next).2.1.clientChoked = p.clientChoked ∧
    (p.nextRequestMessage failed next).2.1.clientInterested = p.clientInterested := by
  unfold Peer.nextRequestMessage
  split
  · cases failed with
    | some m => exact ⟨rfl, rfl⟩
    | none => cases next <;> exact ⟨rfl, rfl⟩
  · exact ⟨rfl, rfl⟩

theorem nextRequest_none {p : Peer} {failed next} (h : (p.nextRequestMessage failed next).1 = none) :
    (p.nextRequestMessage failed next).2.2 = [.next none] := by
  unfold Peer.nextRequestMessage at h ⊢
  split at h <;> rename_i c
  · rw [if_pos c]
    cases failed with
    | some m => simp at h
    | none =>
      cases next with
      | none => rfl
      | some i => simp at h
  · simp at h

/-! ### The invariant of `Run` -/

theorem chokedBy_append (i : Bool) (a b : List RunEv) : chokedBy i (a ++ b) = chokedBy (chokedBy i a) b := by
  simp [chokedBy, List.foldl_append]

theorem ledger_append (x : Bool) (a b : List RunEv) : ledger x (a ++ b) = b.foldl (Ledger.add x) (ledger x a) := by
  simp [ledger, List.foldl_append]

theorem chokedBy_reqs (i : Bool) (l : List ReqEv) : chokedBy i (l.map .req) = i := by
  induction l with
  | nil => rfl
  | cons a l ih => exact ih

theorem add_reqs (x : Bool) (l : List ReqEv) : ∀ L : Ledger,
    ((l.map RunEv.req).foldl (Ledger.add x) L).outstanding = L.outstanding ∧
    ((l.map RunEv.req).foldl (Ledger.add x) L).due = L.due ∧
    (L.asked = false → ((l.map RunEv.req).foldl (Ledger.add x) L).asked = false) := by
  induction l with
  | nil => exact fun L => ⟨rfl, rfl, id⟩
  | cons a l ih =>
    intro L
    obtain ⟨h1, h2, h3⟩ := ih (L.add x (.req a))
    exact ⟨h1, h2, fun _ => h3 rfl⟩

theorem requeuedIn_append (a b : List RunEv) : requeuedIn (a ++ b) = requeuedIn a ++ requeuedIn b := by
  simp [requeuedIn]

theorem requeuedIn_reqs (l : List ReqEv) : requeuedIn (l.map .req) = [] := by
  induction l with
  | nil => rfl
  | cons a l ih => exact ih

/-- The requests sent so far were sent while unchoked and with nothing outstanding. -/
def GoodSends (c0 : Bool) (log : List RunEv) : Prop :=
  ∀ a m b, log = a ++ .sent m :: b → m.type = requestType → chokedBy c0 a = false ∧ (ledger false a).outstanding = none

theorem GoodSends.snoc {c0 : Bool} {log : List RunEv} {e : RunEv} (h : GoodSends c0 log)
    (he : ∀ m, e = .sent m → m.type = requestType → chokedBy c0 log = false ∧ (ledger false log).outstanding = none) :
    GoodSends c0 (log ++ [e]) := by
  intro a m b hab hm
  rcases List.eq_nil_or_concat b with rfl | ⟨b', x, rfl⟩
  · have := List.append_inj' hab (by simp)
    simp only [List.cons.injEq, and_true] at this
    rw [← this.1]; exact he m this.2 hm
  · have : log ++ [e] = (a ++ .sent m :: b') ++ [x] := by rw [hab]; simp
    have := List.append_inj' this (by simp)
    exact h a m b' this.1 hm

theorem GoodSends.reqs {c0 : Bool} (l : List ReqEv) : ∀ {log : List RunEv}, GoodSends c0 log → GoodSends c0 (log ++ l.map .req) := by
  induction l with
  | nil => intro log h; simpa using h
  | cons a l ih =>
    intro log h
    have := ih (log := log ++ [.req a]) (h.snoc (fun m e => nomatch e))
    simpa using this

structure Inv (p0 : Peer) (s : Run) : Prop where
  choked : s.loc = .panicked ∨ s.peer.clientChoked = chokedBy p0.clientChoked s.log
  interested : s.peer.clientInterested = p0.clientInterested
  send : ∀ m, s.loc = .sendRequest m → m.type = requestType ∧ s.requestMsg = some m ∧ s.sentPieceMsg = false ∧
    s.peer.clientChoked = false ∧ s.peer.clientInterested = true
  waiting : (s.sentPieceMsg = true → ∃ m, s.requestMsg = some m ∧ m.type = requestType) ∧
    (ledger false s.log).outstanding = if s.sentPieceMsg then s.requestMsg else none
  requeue : ∀ o, s.loc = .requeue o → s.sentPieceMsg = false ∧ ∃ m r, o = some m ∧ m.type = requestType ∧
    (ledger false s.log).due = r ++ [m] ∧ requeuedIn s.log = r.map some
  settled : (∀ o, s.loc ≠ .requeue o) → requeuedIn s.log = (ledger false s.log).due.map some
  asked : (ledger false s.log).asked = true ↔ s.loc = .unchokeRead
  good : GoodSends p0.clientChoked s.log

/-- An event that is not about requests or choking, and a new place. -/
theorem Inv.quiet {p0 : Peer} {s : Run} (h : Inv p0 s) {es : List RunEv} {l : RunLoc}
    (hr : ∀ o, s.loc ≠ .requeue o) (hp : s.loc ≠ .panicked) (hc : ∀ i, chokedBy i es = i)
    (ho : (es.foldl (Ledger.add false) (ledger false s.log)).due = (ledger false s.log).due)
    (ho' : (es.foldl (Ledger.add false) (ledger false s.log)).outstanding = (ledger false s.log).outstanding)
    (hq : requeuedIn es = []) (hg : GoodSends p0.clientChoked s.log → GoodSends p0.clientChoked (s.log ++ es))
    (h1 : ∀ m, l ≠ .sendRequest m) (h2 : ∀ o, l ≠ .requeue o)
    (ha : (es.foldl (Ledger.add false) (ledger false s.log)).asked = true ↔ l = .unchokeRead) : Inv p0 (s.emit es l) := by
  refine ⟨.inr ?_, h.interested, fun m e => absurd e (h1 m), ⟨h.waiting.1, ?_⟩, fun o e => absurd e (h2 o), fun _ => ?_, ?_, hg h.good⟩
  · show s.peer.clientChoked = chokedBy _ (s.log ++ es)
    rw [chokedBy_append, hc]
    exact h.choked.resolve_left hp
  · show (ledger false (s.log ++ es)).outstanding = _
    rw [ledger_append, ho']; exact h.waiting.2
  · show requeuedIn (s.log ++ es) = (ledger false (s.log ++ es)).due.map some
    rw [requeuedIn_append, hq, ledger_append, ho, List.append_nil]
    exact h.settled hr
  · show (ledger false (s.log ++ es)).asked = true ↔ _
    rw [ledger_append]; exact ha

theorem emit_nil (s : Run) (l : RunLoc) : s.emit [] l = s.goto l := by simp [Run.emit, Run.goto]

theorem Inv.move {p0 : Peer} {s : Run} (h : Inv p0 s) {l : RunLoc} (hu : s.loc ≠ .unchokeRead)
    (hr : ∀ o, s.loc ≠ .requeue o) (hp : s.loc ≠ .panicked)
    (h1 : ∀ m, l ≠ .sendRequest m) (h2 : ∀ o, l ≠ .requeue o) (h3 : l ≠ .unchokeRead) : Inv p0 (s.goto l) := by
  rw [← emit_nil]
  refine h.quiet hr hp (fun _ => rfl) rfl rfl rfl (fun g => by simpa using g) h1 h2 ?_
  exact ⟨fun e => absurd (h.asked.1 e) hu, fun e => absurd e h3⟩

theorem Inv.handle {sha1 : Bytes → Bytes} {t : Torrent} {p0 : Peer} {s : Run} (h : Inv p0 s) (f : Bytes) (b : Bool)
    (hr : ∀ o, s.loc ≠ .requeue o) (hp : s.loc ≠ .panicked) : Inv p0 (s.handle sha1 t f b) := by
  have hg : GoodSends p0.clientChoked (s.log ++ [.received f]) := h.good.snoc (fun m e => nomatch e)
  have hl : ledger false (s.log ++ [.received f]) = { ledger false s.log with asked := false } := by
    rw [ledger_append]; rfl
  have hq : requeuedIn (s.log ++ [.received f]) = requeuedIn s.log := by rw [requeuedIn_append]; simp [requeuedIn]
  have hs : requeuedIn (s.log ++ [.received f]) = (ledger false (s.log ++ [.received f])).due.map some := by
    rw [hq, hl]; exact h.settled hr
  have hw : (ledger false (s.log ++ [.received f])).outstanding = if s.sentPieceMsg then s.requestMsg else none := by
    rw [hl]; exact h.waiting.2
  have ha : (ledger false (s.log ++ [.received f])).asked = false := by rw [hl]
  have key : ∀ (m : PeerMessage) o p, newPeerMessage f = .ok m → s.peer.handlePeerMessage sha1 t m = .ok (o, p) →
      p.clientChoked = chokedBy p0.clientChoked (s.log ++ [.received f]) ∧ p.clientInterested = p0.clientInterested := by
    intro m o p hm hh
    obtain ⟨f1, _, f2, _⟩ := handle_flags hh
    refine ⟨?_, f2.trans h.interested⟩
    have ht := newPeerMessage_type hm
    rw [f1, chokedBy_append, ← h.choked.resolve_left hp]
    cases f with
    | nil => 
      replace ht : m.type = keepaliveType := ht
      rw [ht]; rfl
    | cons x xs =>
      replace ht : m.type = x := ht
      rw [ht]
      by_cases h0 : x = 0
      · subst h0; rfl
      · by_cases h1 : x = 1
        · subst h1; rfl
        · rw [if_neg (by exact h0), if_neg (by exact h1)]
          simp only [chokedBy, List.foldl_cons, List.foldl_nil]
          split
          · rename_i e; cases e; exact absurd rfl h0
          · rename_i e; cases e; exact absurd rfl h1
          · rfl
  unfold Run.handle
  simp only
  split
  · rename_i p e
    have : ∃ m, newPeerMessage f = .ok m ∧ s.peer.handlePeerMessage sha1 t m = .ok (none, p) := by
      cases hm : newPeerMessage f with
      | ok m => rw [hm] at e; exact ⟨m, rfl, e⟩
      | err e' => rw [hm] at e; simp [Res.bind] at e
      | panic e' => rw [hm] at e; simp [Res.bind] at e
    obtain ⟨m, hm, hh⟩ := this
    obtain ⟨k1, k2⟩ := key m _ _ hm hh
    refine ⟨.inr k1, k2, ?_, ⟨h.waiting.1, hw⟩, ?_, fun _ => hs, ?_, hg⟩
    · intro m e; cases b <;> cases e
    · intro m e; cases b <;> cases e
    · rw [ha]; cases b <;> simp
  · rename_i m' p e
    have : ∃ m, newPeerMessage f = .ok m ∧ s.peer.handlePeerMessage sha1 t m = .ok (some m', p) := by
      cases hm : newPeerMessage f with
      | ok m => rw [hm] at e; exact ⟨m, rfl, e⟩
      | err e' => rw [hm] at e; simp [Res.bind] at e
      | panic e' => rw [hm] at e; simp [Res.bind] at e
    obtain ⟨m, hm, hh⟩ := this
    obtain ⟨k1, k2⟩ := key m _ _ hm hh
    refine ⟨.inr k1, k2, (fun m e => nomatch e), ⟨h.waiting.1, hw⟩, (fun m e => nomatch e), fun _ => hs, ?_, hg⟩
    rw [ha]; simp
  · refine ⟨.inl rfl, h.interested, (fun m e => nomatch e), ⟨h.waiting.1, hw⟩, (fun m e => nomatch e), fun _ => hs, ?_, hg⟩
    show (ledger false (s.log ++ [.received f])).asked = true ↔ _
    rw [ha]; simp [Run.goto]

theorem Inv.step {sha1 : Bytes → Bytes} {t : Torrent} {p0 : Peer} {s s' : Run} (h : Inv p0 s) (st : Run.Step sha1 t s s') :
    Inv p0 s' := by
  cases st with
  | kept e =>
    refine h.quiet (by simp [e]) (by simp [e]) (fun _ => rfl) rfl rfl rfl (fun g => g.snoc ?_) (by simp) (by simp) ?_
    · intro m e hm; cases e; exact absurd hm (by decide)
    · exact ⟨fun x => absurd (show false = true from x) (by simp), (by simp)⟩
  | keepFail e =>
    refine h.quiet (by simp [e]) (by simp [e]) (fun _ => rfl) rfl rfl rfl (fun g => g.snoc ?_) (by simp) (by simp) ?_
    · intro m e; cases e
    · exact ⟨fun x => absurd (show false = true from x) (by simp), (by simp)⟩
  | uSent e =>
    refine h.quiet (by simp [e]) (by simp [e]) (fun _ => rfl) rfl rfl rfl (fun g => g.snoc ?_) (by simp) (by simp) ?_
    · intro m e hm; cases e; exact absurd hm (by decide)
    · exact ⟨fun _ => rfl, fun _ => rfl⟩
  | uSendFail e =>
    refine h.quiet (by simp [e]) (by simp [e]) (fun _ => rfl) rfl rfl rfl (fun g => g.snoc ?_) (by simp) (by simp) ?_
    · intro m e; cases e
    · exact ⟨fun x => absurd (show false = true from x) (by simp), (by simp)⟩
  | uReadFail e =>
    have ha := h.asked.2 e
    have hadd : ∀ L : Ledger, L.asked = true → [RunEv.readFailed].foldl (Ledger.add false) L = { L with asked := false } := by
      intro L hL; simp [Ledger.add, hL]
    refine h.quiet (by simp [e]) (by simp [e]) (fun _ => rfl) ?_ ?_ rfl (fun g => g.snoc ?_) (by simp) (by simp) ?_
    · rw [hadd _ ha]
    · rw [hadd _ ha]
    · intro m e; cases e
    · rw [hadd _ ha]; simp
  | uRead f e => exact h.handle f true (by simp [e]) (by simp [e])
  | read f e => exact h.handle f false (by simp [e]) (by simp [e])
  | next failed nxt e h1 h2 h3 h4 =>
    have hl := ledger_append false s.log ((s.peer.nextRequestMessage failed nxt).2.2.map .req)
    obtain ⟨a1, a2, a3⟩ := add_reqs false (s.peer.nextRequestMessage failed nxt).2.2 (ledger false s.log)
    rw [← hl] at a1 a2 a3
    have ha : (ledger false s.log).asked = false := by
      have := mt h.asked.1 (by simp [e])
      simpa using this
    have hw := h.waiting.2
    rw [h3] at hw
    obtain ⟨f1, f2⟩ := nextRequest_flags (p := s.peer) (failed := failed) (next := nxt)
    have hb := h.settled (by simp [e])
    refine ⟨.inr ?_, f2.trans h.interested, ?_, ⟨fun e => absurd e (by simp [h3]), ?_⟩, ?_, fun _ => ?_, ?_, h.good.reqs _⟩
    · simp only [chokedBy_append, chokedBy_reqs, f1]
      exact h.choked.resolve_left (by simp [e])
    · intro m hm
      simp only at hm
      split at hm
      · cases hm
      · cases hm
        rename_i hn
        exact ⟨nextRequest_type h4 hn, hn, h3, f1.trans h1, f2.trans h2⟩
    · simp [a1, hw, h3]
    · intro o ho
      simp only at ho
      split at ho <;> cases ho
    · simp only [requeuedIn_append, requeuedIn_reqs, List.append_nil, a2, hb]
    · simp only [a3 ha]
      split <;> simp
  | @requestSent m e =>
    obtain ⟨h1, h2, h3, h4, h5⟩ := h.send m e
    have hl : ledger false (s.log ++ [.sent m]) = { outstanding := some m, due := (ledger false s.log).due, asked := false } := by
      rw [ledger_append]; simp [Ledger.add, h1]
    have hc := h.choked.resolve_left (by simp [e])
    refine ⟨.inr ?_, h.interested, (fun m e => nomatch e), ⟨fun _ => ⟨m, h2, h1⟩, ?_⟩, (fun m e => nomatch e), fun _ => ?_, ?_, ?_⟩
    · simp only [Run.emit, chokedBy_append]
      exact hc
    · simp only [Run.emit, hl, h2, if_true]
    · simp only [Run.emit, hl, requeuedIn_append, h.settled (by simp [e])]
      simp [requeuedIn]
    · simp [Run.emit, hl]
    · refine h.good.snoc ?_
      intro _ _ _
      refine ⟨hc.symm.trans h4, ?_⟩
      rw [h.waiting.2, h3]; rfl
  | @requestFail m e =>
    obtain ⟨h1, h2, h3, h4, h5⟩ := h.send m e
    have hl : ledger false (s.log ++ [.sendFailed m]) =
        { outstanding := (ledger false s.log).outstanding, due := (ledger false s.log).due ++ [m], asked := false } := by
      rw [ledger_append]; simp [Ledger.add, h1]
    refine ⟨.inr ?_, h.interested, (fun m e => nomatch e), ⟨h.waiting.1, ?_⟩, ?_, ?_, ?_, ?_⟩
    · simp only [Run.emit, chokedBy_append]
      exact h.choked.resolve_left (by simp [e])
    · simp only [Run.emit, hl]; exact h.waiting.2
    · intro o ho
      simp only [Run.emit, RunLoc.requeue.injEq] at ho
      refine ⟨h3, m, (ledger false s.log).due, by rw [← ho, h2], h1, by simp only [Run.emit, hl], ?_⟩
      simp only [Run.emit, requeuedIn_append, h.settled (by simp [e])]
      simp [requeuedIn]
    · intro hn; exact absurd rfl (hn s.requestMsg)
    · simp [Run.emit, hl]
    · exact h.good.snoc (fun m e => nomatch e)
  | @requeued o e =>
    obtain ⟨h1, m, r, rfl, h2, h3, h4⟩ := h.requeue o e
    have hl : ledger false (s.log ++ [.requeued (some m)]) = { ledger false s.log with asked := false } := by
      rw [ledger_append]; rfl
    refine ⟨.inr ?_, h.interested, (fun m e => nomatch e), ⟨h.waiting.1, ?_⟩, (fun m e => nomatch e), fun _ => ?_, ?_, ?_⟩
    · simp only [Run.emit, chokedBy_append]
      exact h.choked.resolve_left (by simp [e])
    · simp only [Run.emit, hl]; exact h.waiting.2
    · simp only [Run.emit, hl, requeuedIn_append, h3, h4]
      simp [requeuedIn]
    · simp [Run.emit, hl]
    · exact h.good.snoc (fun m e => nomatch e)
  | readFailWaiting e h1 =>
    obtain ⟨m, h2, h3⟩ := h.waiting.1 h1
    have hw := h.waiting.2
    rw [h1, h2, if_pos rfl] at hw
    have ha : (ledger false s.log).asked = false := by
      have := mt h.asked.1 (by simp [e])
      simpa using this
    have hl : ledger false (s.log ++ [.readFailed]) = { outstanding := none, due := (ledger false s.log).due ++ [m], asked := false } := by
      rw [ledger_append]; simp [Ledger.add, ha, hw]
    refine ⟨.inr ?_, h.interested, (fun m e => nomatch e), ⟨(fun e => nomatch e), ?_⟩, ?_, ?_, ?_, ?_⟩
    · simp only [Run.emit, chokedBy_append]
      exact h.choked.resolve_left (by simp [e])
    · simp [Run.emit, hl]
    · intro o ho
      simp only [Run.emit, RunLoc.requeue.injEq] at ho
      refine ⟨rfl, m, (ledger false s.log).due, by rw [← ho, h2], h3, by simp only [Run.emit, hl], ?_⟩
      simp only [Run.emit, requeuedIn_append, h.settled (by simp [e])]
      simp [requeuedIn]
    · intro hn; exact absurd rfl (hn s.requestMsg)
    · simp [Run.emit, hl]
    · exact h.good.snoc (fun m e => nomatch e)
  | readFail e h1 =>
    have hw := h.waiting.2
    rw [h1] at hw
    have hw' : (ledger false s.log).outstanding = none := by simpa using hw
    have ha : (ledger false s.log).asked = false := by
      have := mt h.asked.1 (by simp [e])
      simpa using this
    have hadd : [RunEv.readFailed].foldl (Ledger.add false) (ledger false s.log) = ledger false s.log := by
      cases hL : ledger false s.log with
      | mk a b c =>
        rw [hL] at ha hw'
        simp only at ha hw'
        subst ha; subst hw'
        simp [Ledger.add]
    refine h.quiet (by simp [e]) (by simp [e]) (fun _ => rfl) ?_ ?_ rfl (fun g => g.snoc ?_) (by simp) (by simp) ?_
    · rw [hadd]
    · rw [hadd]
    · intro m e; cases e
    · rw [hadd, ha]; simp
  | delivered e h1 =>
    refine h.quiet (by simp [e]) (by simp [e]) (fun _ => rfl) rfl rfl rfl (fun g => g.snoc ?_) ?_ ?_ ?_
    · intro m e; cases e
    · intro m; split <;> simp
    · intro m; split <;> simp
    · refine ⟨fun x => (by revert x; simp [Ledger.add]), ?_⟩
      split <;> simp
  | _ => exact h.move (by simp [*]) (by simp [*]) (by simp [*]) (by simp) (by simp) (by simp)

theorem inv_start (p0 : Peer) : Inv p0 (Run.start p0) := by
  refine ⟨.inr rfl, rfl, (fun m e => nomatch e), ⟨(fun e => nomatch e), rfl⟩, (fun m e => nomatch e), fun _ => rfl,
    ⟨(fun e => nomatch e), (fun e => nomatch e)⟩, ?_⟩
  intro a m b h
  simp [Run.start] at h

theorem Inv.env {p0 : Peer} {s s' : Run} (h : Inv p0 s) (st : Run.Env s s') : Inv p0 s' := by
  cases st <;> exact ⟨h.choked, h.interested, h.send, h.waiting, h.requeue, h.settled, h.asked, h.good⟩

theorem reachable_inv {sha1 : Bytes → Bytes} {t : Torrent} {p0 : Peer} {s : Run} (h : Run.Reachable sha1 t p0 s) : Inv p0 s := by
  induction h with
  | start => exact inv_start p0
  | step _ st ih => exact ih.step st
  | env _ st ih => exact ih.env st

/-! ## C53 -/

/-- C53: in every execution of `Run`, whatever the peer was before, when a request is sent the last choke or unchoke message
received was unchoke (or there was none and the peer was unchoked before). -/
theorem C53_unchoked (sha1 : Bytes → Bytes) (t : Torrent) (p0 : Peer) (s : Run) (h : Run.Reachable sha1 t p0 s)
    (a b : List RunEv) (m : PeerMessage) (hl : s.log = a ++ .sent m :: b) (hm : m.type = requestType) :
    chokedBy p0.clientChoked a = false := ((reachable_inv h).good a m b hl hm).1

/-! ## C54 -/

/-- C54, first half: when a request is sent, no other request is outstanding, that is, since the request before a read has
failed (read errors right after an interested message do not count). -/
theorem C54_one (sha1 : Bytes → Bytes) (t : Torrent) (p0 : Peer) (s : Run) (h : Run.Reachable sha1 t p0 s)
    (a b : List RunEv) (m : PeerMessage) (hl : s.log = a ++ .sent m :: b) (hm : m.type = requestType) :
    (ledger false a).outstanding = none := ((reachable_inv h).good a m b hl hm).2

/-- C54, second half, for all read errors but those right after an interested message: exactly the requests due have been put
in the retry queue, each once and in order, except for the last one while the call putting it there has not returned. -/
theorem C54_requeue_partial (sha1 : Bytes → Bytes) (t : Torrent) (p0 : Peer) (s : Run) (h : Run.Reachable sha1 t p0 s) :
    requeuedIn s.log = (ledger false s.log).due.map some ∨
    ∃ m, s.loc = .requeue (some m) ∧ requeuedIn s.log ++ [some m] = (ledger false s.log).due.map some := by
  have inv := reachable_inv h
  by_cases hr : ∃ o, s.loc = .requeue o
  · obtain ⟨o, ho⟩ := hr
    obtain ⟨_, m, r, rfl, _, h3, h4⟩ := inv.requeue o ho
    exact .inr ⟨m, ho, by rw [h3, h4]; simp⟩
  · exact .inl (inv.settled fun o e => hr ⟨o, e⟩)

theorem due_types (x : Bool) (log : List RunEv) :
    (∀ m, (ledger x log).outstanding = some m → m.type = requestType) ∧ ∀ m ∈ (ledger x log).due, m.type = requestType := by
  induction log using snoc_induction with
  | h0 => exact ⟨(fun m e => nomatch e), (fun m e => nomatch e)⟩
  | h1 l e ih =>
    rw [ledger_append]
    obtain ⟨h1, h2⟩ := ih
    simp only [List.foldl_cons, List.foldl_nil]
    cases e with
    | sent m =>
      simp only [Ledger.add]
      split
      · rename_i c
        exact ⟨fun m' e => by cases e; exact c, h2⟩
      · exact ⟨h1, h2⟩
    | sendFailed m =>
      simp only [Ledger.add]
      refine ⟨h1, ?_⟩
      split
      · rename_i c
        intro m' hm'
        rcases List.mem_append.1 hm' with h | h
        · exact h2 _ h
        · simp only [List.mem_singleton] at h; subst h; exact c
      · exact h2
    | readFailed =>
      simp only [Ledger.add]
      split
      · refine ⟨(fun m e => nomatch e), ?_⟩
        intro m hm
        rcases List.mem_append.1 hm with h | h
        · exact h2 _ h
        · exact h1 m (by simpa using h)
      · exact ⟨h1, h2⟩
    | _ => exact ⟨h1, h2⟩

/-- What `Run` puts in the retry queue are requests, never nil: the assumption of the model about what the queue returns holds
if all that is put in it comes from `Run`. -/
theorem C54_requeue_requests (sha1 : Bytes → Bytes) (t : Torrent) (p0 : Peer) (s : Run) (h : Run.Reachable sha1 t p0 s)
    (o : Option PeerMessage) (ho : o ∈ requeuedIn s.log) : ∃ m, o = some m ∧ m.type = requestType := by
  have hd := (due_types false s.log).2
  have : o ∈ (ledger false s.log).due.map some := by
    rcases C54_requeue_partial sha1 t p0 s h with e | ⟨m, _, e⟩
    · rwa [← e]
    · rw [← e]; simp [ho]
  obtain ⟨m, hm, rfl⟩ := List.mem_map.1 this
  exact ⟨m, rfl, hd m hm⟩

/-! ## C55 -/

theorem ledger_keeps (b : List RunEv) : ∀ L : Ledger, L.outstanding ≠ none → RunEv.readFailed ∉ b →
    (b.foldl (Ledger.add false) L).outstanding ≠ none := by
  induction b with
  | nil => exact fun L h _ => h
  | cons e b ih =>
    intro L h hn
    simp only [List.mem_cons, not_or] at hn
    refine ih _ ?_ hn.2
    cases e with
    | sent m => simp only [Ledger.add]; split <;> simp [h]
    | sendFailed m => exact h
    | readFailed => exact absurd rfl hn.1
    | _ => exact h

/-- C55 is false of the code: in every execution, after a request has been sent no other request is sent until a read fails,
however many answers arrive. -/
theorem C55_violated (sha1 : Bytes → Bytes) (t : Torrent) (p0 : Peer) (s : Run) (h : Run.Reachable sha1 t p0 s)
    (a b : List RunEv) (m : PeerMessage) (hl : s.log = a ++ .sent m :: b) (hm : m.type = requestType) (hb : RunEv.readFailed ∉ b) :
    requestsSent b = [] := by
  cases hr : requestsSent b with
  | nil => rfl
  | cons m' rest =>
    exfalso
    have : m' ∈ requestsSent b := by rw [hr]; simp
    obtain ⟨e, he, hx⟩ := List.mem_filterMap.1 this
    split at hx
    · rename_i m2
      split at hx
      · rename_i c
        obtain ⟨x, y, rfl⟩ := List.append_of_mem he
        have := C54_one sha1 t p0 s h (a ++ .sent m :: x) y m2 (by rw [hl]; simp) c
        rw [ledger_append, List.foldl_cons] at this
        refine ledger_keeps x _ ?_ (fun hh => hb (by simp [hh])) this
        simp [Ledger.add, hm]
      · cases hx
    · cases hx

/-! ## C52 -/

/-- C52 is false of the code: whatever the remote peer does, `Run` on a new peer never sends a request, never asks `Next` for
a piece and never takes anything from the retry queue. -/
theorem C52_violated (sha1 : Bytes → Bytes) (t : Torrent) (s : Run) (h : Run.Reachable sha1 t (newPeer t) s) :
    requestsSent s.log = [] ∧ ∀ e, RunEv.req e ∉ s.log := by
  suffices hh : s.sentPieceMsg = false ∧ (∀ m, s.loc ≠ .sendRequest m) ∧ (∀ m, s.loc ≠ .requeue m) ∧ requestsSent s.log = [] ∧
      ∀ e, RunEv.req e ∉ s.log from hh.2.2.2
  have app : ∀ a b, requestsSent (a ++ b) = requestsSent a ++ requestsSent b := by intro a b; simp [requestsSent]
  induction h with
  | start => exact ⟨rfl, (fun m e => nomatch e), (fun m e => nomatch e), rfl, fun e => by simp [Run.start]⟩
  | env _ st ih => cases st <;> exact ih
  | @step s s' hr st ih =>
    obtain ⟨h1, h2, h2', h3, h4⟩ := ih
    have hi : s.peer.clientInterested = false := (reachable_inv hr).interested
    have emit : ∀ es l, requestsSent es = [] → (∀ e, RunEv.req e ∉ es) → (∀ m, l ≠ .sendRequest m) → (∀ m, l ≠ .requeue m) →
        (s.emit es l).sentPieceMsg = false ∧ (∀ m, (s.emit es l).loc ≠ .sendRequest m) ∧ (∀ m, (s.emit es l).loc ≠ .requeue m) ∧
        requestsSent (s.emit es l).log = [] ∧ ∀ e, RunEv.req e ∉ (s.emit es l).log := by
      intro es l e1 e2 e3 e4
      refine ⟨h1, e3, e4, ?_, ?_⟩
      · simp only [Run.emit, app, h3, e1, List.append_nil]
      · intro e he
        rcases List.mem_append.1 he with he | he
        · exact h4 e he
        · exact e2 e he
    have move : ∀ l, (∀ m, l ≠ .sendRequest m) → (∀ m, l ≠ .requeue m) →
        (s.goto l).sentPieceMsg = false ∧ (∀ m, (s.goto l).loc ≠ .sendRequest m) ∧ (∀ m, (s.goto l).loc ≠ .requeue m) ∧
        requestsSent (s.goto l).log = [] ∧ ∀ e, RunEv.req e ∉ (s.goto l).log := by
      intro l e3 e4
      rw [← emit_nil]
      exact emit [] l rfl (by simp) e3 e4
    have hand : ∀ f b, (s.handle sha1 t f b).sentPieceMsg = false ∧ (∀ m, (s.handle sha1 t f b).loc ≠ .sendRequest m) ∧
        (∀ m, (s.handle sha1 t f b).loc ≠ .requeue m) ∧
        requestsSent (s.handle sha1 t f b).log = [] ∧ ∀ e, RunEv.req e ∉ (s.handle sha1 t f b).log := by
      intro f b
      obtain ⟨_, _, _, g1, g2⟩ := emit [.received f] .loopTop rfl (by simp) (by simp) (by simp)
      unfold Run.handle
      simp only
      split
      · refine ⟨h1, ?_, ?_, g1, g2⟩ <;> intro m <;> simp only <;> split <;> simp
      · exact ⟨h1, (fun m e => nomatch e), (fun m e => nomatch e), g1, g2⟩
      · exact ⟨h1, (fun m e => nomatch e), (fun m e => nomatch e), g1, g2⟩
    cases st with
    | kept e => exact emit _ _ (by decide) (by simp) (by simp) (by simp)
    | keepFail e => exact emit _ _ rfl (by simp) (by simp) (by simp)
    | uSent e => exact emit _ _ (by decide) (by simp) (by simp) (by simp)
    | uSendFail e => exact emit _ _ rfl (by simp) (by simp) (by simp)
    | uReadFail e => exact emit _ _ rfl (by simp) (by simp) (by simp)
    | readFail e h1 => exact emit _ _ rfl (by simp) (by simp) (by simp)
    | delivered e h1 => exact emit _ _ rfl (by simp) (by intro m; split <;> simp) (by intro m; split <;> simp)
    | uRead f e => exact hand _ _
    | read f e => exact hand _ _
    | next _ _ e c1 c2 => rw [hi] at c2; cases c2
    | requestSent e => exact absurd e (h2 _)
    | requestFail e => exact absurd e (h2 _)
    | requeued e => exact absurd e (h2' _)
    | readFailWaiting e c => rw [h1] at c; cases c
    | _ => exact move _ (by simp) (by simp)

/-- The place reached after `n` steps of an iteration in which nothing special happens. -/
def stage (n : Nat) (l : RunLoc) : Prop :=
  match n with
  | 0 => l = .loopTop
  | 1 => l = .checkDone
  | 2 => l = .keepAlive
  | 3 => l = .ifChoked
  | 4 => l = .ifRequest
  | 5 => ∃ m, l = .sendRequest m ∧ m.type = requestType
  | _ => False

theorem exec_log {sha1 : Bytes → Bytes} {t : Torrent} {s s' : Run} (st : Run.Step sha1 t s s') : ∃ es, s'.log = s.log ++ es := by
  cases st <;> first
    | exact ⟨_, rfl⟩
    | exact ⟨[], (List.append_nil _).symm⟩
    | (unfold Run.handle
       simp only
       split <;> exact ⟨_, rfl⟩)

/-- C52 and C55, proved for a peer whose own interest flag is set: at the top of an iteration, with the peer unchoked and no
request outstanding, within six steps of `Run` a request is sent, or sending it fails, or `Next` has no piece, or a keep-alive
cannot be sent, or the context is cancelled or the torrent done. Missing: nothing sets the interest flag, and a request that
is answered stays outstanding. -/
theorem C52_C55_partial (sha1 : Bytes → Bytes) (t : Torrent) (p0 : Peer) (s s' : Run) (h : Run.Reachable sha1 t p0 s)
    (hi : p0.clientInterested = true) (htop : s.loc = .loopTop) (hc : chokedBy p0.clientChoked s.log = false)
    (ho : (ledger false s.log).outstanding = none) (he : Run.Exec sha1 t s 6 s') :
    s'.cancelled = true ∨ s'.done = true ∨
    ∃ new, s'.log = s.log ++ new ∧ ((∃ e ∈ new, Attempt e) ∨ RunEv.sendFailed keepaliveMessage ∈ new) := by
  have inv := reachable_inv h
  have i1 : s.peer.clientChoked = false := (inv.choked.resolve_left (by simp [htop])).trans hc
  have i2 : s.peer.clientInterested = true := inv.interested.trans hi
  have i3 : s.sentPieceMsg = false := by
    cases hs : s.sentPieceMsg with
    | false => rfl
    | true =>
      obtain ⟨m, hm, _⟩ := inv.waiting.1 hs
      have := inv.waiting.2
      rw [ho, hs, hm] at this
      cases this
  suffices hh : ∀ n s', Run.Exec sha1 t s n s' → s'.cancelled = true ∨ s'.done = true ∨
      ∃ new, s'.log = s.log ++ new ∧ (((∃ e ∈ new, Attempt e) ∨ RunEv.sendFailed keepaliveMessage ∈ new) ∨
        (stage n s'.loc ∧ s'.peer.clientChoked = false ∧ s'.peer.clientInterested = true ∧ s'.sentPieceMsg = false)) by
    rcases hh 6 s' he with h | h | ⟨new, h1, h2 | ⟨h2, _⟩⟩
    · exact .inl h
    · exact .inr (.inl h)
    · exact .inr (.inr ⟨new, h1, h2⟩)
    · exact h2.elim
  clear he s'
  intro n s' he
  induction he with
  | refl => exact .inr (.inr ⟨[], by simp, .inr ⟨htop, i1, i2, i3⟩⟩)
  | env _ st hk ih =>
    cases st with
    | cancel => exact .inl rfl
    | finish => exact .inr (.inl rfl)
    | unfinish => exact ih.imp_right fun h => h.imp_left hk
    | close => exact ih
  | @step n s1 s2 _ st ih =>
    have mono : (s1.cancelled = true → s2.cancelled = true) ∧ (s1.done = true → s2.done = true) := by
      cases st <;> first
        | exact ⟨id, id⟩
        | (unfold Run.handle
           simp only
           split <;> exact ⟨id, id⟩)
    rcases ih with ih | ih | ⟨new, hl, ih⟩
    · exact .inl (mono.1 ih)
    · exact .inr (.inl (mono.2 ih))
    · rcases ih with ih | ⟨hs, c1, c2, c3⟩
      · obtain ⟨es, hes⟩ := exec_log st
        refine .inr (.inr ⟨new ++ es, by rw [hes, hl, List.append_assoc], .inl ?_⟩)
        rcases ih with ⟨e, he, ha⟩ | ih
        · exact .inl ⟨e, by simp [he], ha⟩
        · exact .inr (by simp [ih])
      · match n, hs with
        | 0, hs =>
          replace hs : s1.loc = .loopTop := hs
          cases st with
          | ctxErr e h => exact .inl h
          | ctxOk e h => exact .inr (.inr ⟨new, hl, .inr ⟨rfl, c1, c2, c3⟩⟩)
          | _ => exfalso; simp_all
        | 1, hs =>
          replace hs : s1.loc = .checkDone := hs
          cases st with
          | isDone e h => exact .inr (.inl h)
          | notDone e h => exact .inr (.inr ⟨new, hl, .inr ⟨rfl, c1, c2, c3⟩⟩)
          | _ => exfalso; simp_all
        | 2, hs =>
          replace hs : s1.loc = .keepAlive := hs
          cases st with
          | notDue e => exact .inr (.inr ⟨new, hl, .inr ⟨rfl, c1, c2, c3⟩⟩)
          | kept e => exact .inr (.inr ⟨_, by rw [Run.emit, hl, List.append_assoc], .inr ⟨rfl, c1, c2, c3⟩⟩)
          | keepFail e => exact .inr (.inr ⟨_, by rw [Run.emit, hl, List.append_assoc], .inl (.inr (by simp))⟩)
          | _ => exfalso; simp_all
        | 3, hs =>
          replace hs : s1.loc = .ifChoked := hs
          cases st with
          | choked e h => rw [c1] at h; cases h
          | unchoked e h => exact .inr (.inr ⟨new, hl, .inr ⟨rfl, c1, c2, c3⟩⟩)
          | _ => exfalso; simp_all
        | 4, hs =>
          replace hs : s1.loc = .ifRequest := hs
          cases st with
          | noRequest e h => simp [c1, c2, c3] at h
          | next failed nxt e h1 h2 h3 h4 =>
            refine .inr (.inr ⟨new ++ (s1.peer.nextRequestMessage failed nxt).2.2.map .req, by simp only [hl, List.append_assoc], ?_⟩)
            cases hn : (s1.peer.nextRequestMessage failed nxt).1 with
            | none => exact .inl (.inl ⟨.req (.next none), by simp [nextRequest_none hn], trivial⟩)
            | some m =>
              refine .inr ⟨⟨m, by simp only, nextRequest_type h4 hn⟩, nextRequest_flags.1.trans c1, nextRequest_flags.2.trans c2, c3⟩
          | _ => exfalso; simp_all
        | 5, hs =>
          obtain ⟨m, hs, hm⟩ := hs
          cases st with
          | requestSent e =>
            rw [hs] at e; cases e
            exact .inr (.inr ⟨new ++ [.sent m], by simp only [Run.emit, hl, List.append_assoc], .inl (.inl ⟨.sent m, by simp, hm⟩)⟩)
          | requestFail e =>
            rw [hs] at e; cases e
            exact .inr (.inr ⟨new ++ [.sendFailed m], by simp only [Run.emit, hl, List.append_assoc], .inl (.inl ⟨.sendFailed m, by simp, hm⟩)⟩)
          | _ => exfalso; simp_all

/-! ## C56 -/

/-- How many steps `Run` can still make after a cancellation. -/
def rankCancelled : RunLoc → Nat
  | .returned | .panicked => 0
  | .loopTop | .unchokeTop => 1
  | .pause | .unchokeWait | .deliver _ false => 2
  | .requeue _ => 3
  | .read => 4
  | .sendRequest _ => 5
  | .ifRequest => 6
  | .deliver _ true => 7
  | .unchokeRead => 8
  | .unchokeSend => 9
  | .ifChoked => 10
  | .keepAlive => 11
  | .checkDone => 12

/-- How many steps `Run` can still make when the torrent is done, if nothing fails. -/
def rankDone : RunLoc → Nat
  | .returned | .panicked => 0
  | .checkDone => 1
  | .loopTop => 2
  | .pause | .deliver _ false => 3
  | .requeue _ => 4
  | .read => 5
  | .sendRequest _ => 6
  | .ifRequest => 7
  | .deliver _ true => 8
  | .unchokeRead => 9
  | .unchokeSend => 10
  | .unchokeTop => 11
  | .unchokeWait => 12
  | .ifChoked => 13
  | .keepAlive => 14

/-- How many requests `Run` can still send when it has to stop. -/
def quota : RunLoc → Nat
  | .sendRequest _ | .ifRequest | .deliver _ true | .unchokeRead | .unchokeSend | .unchokeTop | .unchokeWait | .ifChoked | .keepAlive
  | .checkDone => 1
  | _ => 0

/-- Failed reads and writes. -/
def failures (log : List RunEv) : Nat := log.countP (fun | .sendFailed _ => true | .readFailed => true | _ => false)

theorem handle_frame (sha1 : Bytes → Bytes) (t : Torrent) (s : Run) (f : Bytes) (b : Bool) :
    (s.handle sha1 t f b).log = s.log ++ [.received f] ∧ (s.handle sha1 t f b).cancelled = s.cancelled ∧
    (s.handle sha1 t f b).done = s.done ∧
    ((s.handle sha1 t f b).loc = (if b then .ifRequest else .loopTop) ∨ (∃ m, (s.handle sha1 t f b).loc = .deliver m b) ∨
      (s.handle sha1 t f b).loc = .panicked) := by
  unfold Run.handle
  simp only
  split
  · exact ⟨rfl, rfl, rfl, .inl rfl⟩
  · exact ⟨rfl, rfl, rfl, .inr (.inl ⟨_, rfl⟩)⟩
  · exact ⟨rfl, rfl, rfl, .inr (.inr rfl)⟩

theorem requestsSent_append (a b : List RunEv) : requestsSent (a ++ b) = requestsSent a ++ requestsSent b := by simp [requestsSent]

theorem requestsSent_reqs (l : List ReqEv) : requestsSent (l.map .req) = [] := by
  induction l with
  | nil => rfl
  | cons a l ih => exact ih

theorem failures_append (a b : List RunEv) : failures (a ++ b) = failures a + failures b := by simp [failures]

theorem failures_reqs (l : List ReqEv) : failures (l.map .req) = 0 := by
  induction l with
  | nil => rfl
  | cons a l ih => simpa [failures] using ih

theorem requestsSent_one (m : PeerMessage) : (requestsSent [.sent m]).length ≤ 1 := by
  simp only [requestsSent, List.filterMap_cons, List.filterMap_nil]
  split <;> simp

theorem sent_keepalive : requestsSent [.sent keepaliveMessage] = [] := by decide
theorem sent_interested : requestsSent [.sent interestedMessage] = [] := by decide

/-- One step after a cancellation. -/
theorem step_cancelled {sha1 : Bytes → Bytes} {t : Torrent} {s s' : Run} (hc : s.cancelled = true) (st : Run.Step sha1 t s s') :
    s'.cancelled = true ∧ rankCancelled s'.loc < rankCancelled s.loc ∧
    (requestsSent s'.log).length + quota s'.loc ≤ (requestsSent s.log).length + quota s.loc := by
  cases st with
  | uRead f e =>
    obtain ⟨h1, h2, _, h3⟩ := handle_frame sha1 t s f true
    refine ⟨h2.trans hc, ?_, ?_⟩
    · rw [e]; rcases h3 with h | ⟨m, h⟩ | h <;> rw [h] <;> simp [rankCancelled]
    · rw [h1, requestsSent_append, e]; rcases h3 with h | ⟨m, h⟩ | h <;> rw [h] <;> simp [quota, requestsSent]
  | read f e =>
    obtain ⟨h1, h2, _, h3⟩ := handle_frame sha1 t s f false
    refine ⟨h2.trans hc, ?_, ?_⟩
    · rw [e]; rcases h3 with h | ⟨m, h⟩ | h <;> rw [h] <;> simp [rankCancelled]
    · rw [h1, requestsSent_append, e]; rcases h3 with h | ⟨m, h⟩ | h <;> rw [h] <;> simp [quota, requestsSent]
  | next f n e =>
    refine ⟨hc, ?_, ?_⟩
    · rw [e]; simp only; split <;> simp [rankCancelled]
    · rw [e]; simp only [requestsSent_append, requestsSent_reqs, List.append_nil]; split <;> simp [quota]
  | @requestSent m e =>
    refine ⟨hc, ?_, ?_⟩
    · rw [e]; simp [rankCancelled, Run.emit]
    · have := requestsSent_one m
      rw [e]; simp only [Run.emit, requestsSent_append, List.length_append, quota]; omega
  | @delivered m b e =>
    refine ⟨hc, ?_, ?_⟩
    · rw [e]; simp only [Run.emit]; cases b <;> simp [rankCancelled]
    · rw [e]; simp only [Run.emit, requestsSent_append, List.length_append]; cases b <;> simp [quota, requestsSent]
  | ctxOk e h => rw [hc] at h; cases h
  | uCtxOk e h => rw [hc] at h; cases h
  | @deliverClosed m b e =>
    refine ⟨hc, ?_, ?_⟩
    · rw [e]; cases b <;> simp [rankCancelled, Run.goto]
    · simp [quota, Run.goto]
  | kept e => exact ⟨hc, by simp [e, rankCancelled, Run.emit], by simp [e, quota, Run.emit, requestsSent_append, sent_keepalive]⟩
  | uSent e => exact ⟨hc, by simp [e, rankCancelled, Run.emit], by simp [e, quota, Run.emit, requestsSent_append, sent_interested]⟩
  | _ => exact ⟨hc, by simp [*, rankCancelled, Run.emit, Run.goto], by simp [*, quota, Run.emit, Run.goto, requestsSent]⟩

/-- C56 for cancellation: from any state, once the context is cancelled `Run` makes at most twelve more steps and sends at most
one more request; when it is at the top of an iteration (or of the unchoke loop) the next step returns. Missing: that one
request, see `C56_violated`. -/
theorem C56_cancel_partial (sha1 : Bytes → Bytes) (t : Torrent) (s s' : Run) (n : Nat) (hc : s.cancelled = true)
    (he : Run.Exec sha1 t s n s') :
    n ≤ 12 ∧ (requestsSent s'.log).length ≤ (requestsSent s.log).length + 1 ∧
    (s'.loc = .loopTop ∨ s'.loc = .unchokeTop → ∀ s'', Run.Step sha1 t s' s'' → s''.loc = .returned) := by
  have key : s'.cancelled = true ∧ n + rankCancelled s'.loc ≤ rankCancelled s.loc ∧
      (requestsSent s'.log).length + quota s'.loc ≤ (requestsSent s.log).length + quota s.loc := by
    induction he with
    | refl => exact ⟨hc, by omega, by omega⟩
    | env _ st hk ih => cases st <;> exact ⟨by first | exact ih.1 | rfl | exact hk ih.1, ih.2⟩
    | step _ st ih =>
      obtain ⟨h1, h2, h3⟩ := step_cancelled ih.1 st
      exact ⟨h1, by omega, by omega⟩
  obtain ⟨h1, h2, h3⟩ := key
  have r : rankCancelled s.loc ≤ 12 := by
    cases s.loc with
    | deliver m b => cases b <;> simp [rankCancelled]
    | _ => simp [rankCancelled]
  have q : quota s.loc ≤ 1 := by
    cases s.loc with
    | deliver m b => cases b <;> simp [quota]
    | _ => simp [quota]
  refine ⟨by omega, by omega, ?_⟩
  rintro hl s'' st
  rcases hl with hl | hl
  · cases st with
    | ctxErr => rfl
    | ctxOk e h => rw [h1] at h; cases h
    | _ => exfalso; simp_all
  · cases st with
    | uCtxErr => rfl
    | uCtxOk e h => rw [h1] at h; cases h
    | _ => exfalso; simp_all

/-- `Run` is never stuck: until it returns or panics it can make a step (the channel to the writer is assumed to take a message
eventually). With `C56_cancel_partial` it therefore ends. -/
theorem C56_progress (sha1 : Bytes → Bytes) (t : Torrent) (s : Run) (h1 : s.loc ≠ .returned) (h2 : s.loc ≠ .panicked) :
    ∃ s', Run.Step sha1 t s s' := by
  cases e : s.loc with
  | loopTop =>
    cases c : s.cancelled
    · exact ⟨_, .ctxOk e c⟩
    · exact ⟨_, .ctxErr e c⟩
  | checkDone =>
    cases c : s.done
    · exact ⟨_, .notDone e c⟩
    · exact ⟨_, .isDone e c⟩
  | keepAlive => exact ⟨_, .notDue e⟩
  | ifChoked =>
    cases c : s.peer.clientChoked
    · exact ⟨_, .unchoked e c⟩
    · exact ⟨_, .choked e c⟩
  | unchokeTop =>
    cases c : s.cancelled
    · exact ⟨_, .uCtxOk e c⟩
    · exact ⟨_, .uCtxErr e c⟩
  | unchokeSend => exact ⟨_, .uSent e⟩
  | unchokeRead => exact ⟨_, .uReadFail e⟩
  | unchokeWait => exact ⟨_, .uWaited e⟩
  | ifRequest =>
    by_cases c : s.peer.clientChoked = true ∨ s.peer.clientInterested = false ∨ s.sentPieceMsg = true
    · exact ⟨_, .noRequest e c⟩
    · simp only [not_or, Bool.not_eq_true, Bool.not_eq_false] at c
      exact ⟨_, .next none none e c.1 c.2.1 c.2.2 (fun _ h => nomatch h)⟩
  | sendRequest m => exact ⟨_, .requestSent e⟩
  | requeue m => exact ⟨_, .requeued e⟩
  | read => exact ⟨_, .read [] e⟩
  | pause => exact ⟨_, .waited e⟩
  | deliver m b =>
    cases c : s.closed
    · exact ⟨_, .delivered e c⟩
    · exact ⟨_, .deliverClosed e c⟩
  | returned => exact absurd e h1
  | panicked => exact absurd e h2

/-- How many requests `Run` can still send when the torrent is done. -/
def quotaDone : RunLoc → Nat
  | .checkDone => 0
  | l => quota l

/-- One step when the torrent is done. -/
theorem step_done {sha1 : Bytes → Bytes} {t : Torrent} {s s' : Run} (hd : s.done = true) (st : Run.Step sha1 t s s') :
    s'.done = true ∧ rankDone s'.loc + 4 * failures s.log < rankDone s.loc + 4 * failures s'.log ∧
    (requestsSent s'.log).length + quotaDone s'.loc ≤ (requestsSent s.log).length + quotaDone s.loc := by
  cases st with
  | uRead f e =>
    obtain ⟨h1, _, h2, h3⟩ := handle_frame sha1 t s f true
    refine ⟨h2.trans hd, ?_, ?_⟩
    · rw [h1, failures_append, e]; rcases h3 with h | ⟨m, h⟩ | h <;> rw [h] <;> simp [rankDone, failures] <;> omega
    · rw [h1, requestsSent_append, e]; rcases h3 with h | ⟨m, h⟩ | h <;> rw [h] <;> simp [quotaDone, quota, requestsSent]
  | read f e =>
    obtain ⟨h1, _, h2, h3⟩ := handle_frame sha1 t s f false
    refine ⟨h2.trans hd, ?_, ?_⟩
    · rw [h1, failures_append, e]; rcases h3 with h | ⟨m, h⟩ | h <;> rw [h] <;> simp [rankDone, failures] <;> omega
    · rw [h1, requestsSent_append, e]; rcases h3 with h | ⟨m, h⟩ | h <;> rw [h] <;> simp [quotaDone, quota, requestsSent]
  | next f n e =>
    refine ⟨hd, ?_, ?_⟩
    · rw [e]; simp only [failures_append, failures_reqs]; split <;> simp [rankDone] <;> omega
    · rw [e]; simp only [requestsSent_append, requestsSent_reqs, List.append_nil]; split <;> simp [quotaDone, quota]
  | @requestSent m e =>
    refine ⟨hd, ?_, ?_⟩
    · rw [e]; simp [rankDone, Run.emit, failures_append, failures]
    · have := requestsSent_one m
      rw [e]; simp only [Run.emit, requestsSent_append, List.length_append, quotaDone, quota]; omega
  | @delivered m b e =>
    refine ⟨hd, ?_, ?_⟩
    · rw [e]; simp only [Run.emit, failures_append]; cases b <;> simp [rankDone, failures] <;> omega
    · rw [e]; simp only [Run.emit, requestsSent_append, List.length_append]; cases b <;> simp [quotaDone, quota, requestsSent]
  | notDone e h => rw [hd] at h; cases h
  | @deliverClosed m b e =>
    refine ⟨hd, ?_, ?_⟩
    · rw [e]; cases b <;> simp [rankDone, Run.goto] 
    · simp [quotaDone, quota, Run.goto]
  | kept e =>
    exact ⟨hd, by simp [e, rankDone, Run.emit, failures_append, failures] <;> omega,
      by simp [e, quotaDone, quota, Run.emit, requestsSent_append, sent_keepalive]⟩
  | uSent e =>
    exact ⟨hd, by simp [e, rankDone, Run.emit, failures_append, failures] <;> omega,
      by simp [e, quotaDone, quota, Run.emit, requestsSent_append, sent_interested]⟩
  | _ => 
    refine ⟨hd, ?_, by simp [*, quotaDone, quota, Run.emit, Run.goto, requestsSent]⟩
    first
      | (simp [*, rankDone, Run.emit, Run.goto, failures_append, failures]; done)
      | (simp [*, rankDone, Run.emit, Run.goto, failures_append, failures]; omega)

/-- C56 for completion: from any state, once the torrent is done `Run` sends at most one more request, and makes at most
14 more steps plus four for each failing read or write; at the top of an iteration it returns in the next two steps. Missing:
that one request, and a bound on the number of retries, see `C56_violated`. -/
theorem C56_done_partial (sha1 : Bytes → Bytes) (t : Torrent) (s s' : Run) (n : Nat) (hd : s.done = true)
    (he : Run.Exec sha1 t s n s') :
    n ≤ 14 + 4 * (failures s'.log - failures s.log) ∧ (requestsSent s'.log).length ≤ (requestsSent s.log).length + 1 ∧
    (s.loc = .loopTop → n ≤ 2 ∧ (n = 2 → s'.loc = .returned)) := by
  have key : s'.done = true ∧ n + rankDone s'.loc + 4 * failures s.log ≤ rankDone s.loc + 4 * failures s'.log ∧
      (requestsSent s'.log).length + quotaDone s'.loc ≤ (requestsSent s.log).length + quotaDone s.loc := by
    induction he with
    | refl => exact ⟨hd, by omega, by omega⟩
    | env _ st hk ih => cases st <;> exact ⟨by first | exact ih.1 | rfl | exact hk ih.1, ih.2⟩
    | step _ st ih =>
      obtain ⟨h1, h2, h3⟩ := step_done ih.1 st
      exact ⟨h1, by omega, by omega⟩
  have key2 : s.loc = .loopTop → s'.done = true ∧ ((n = 0 ∧ s'.loc = .loopTop) ∨ (n = 1 ∧ (s'.loc = .checkDone ∨ s'.loc = .returned)) ∨
      (n = 2 ∧ s'.loc = .returned)) := by
    intro hl
    clear key
    induction he with
    | refl => exact ⟨hd, .inl ⟨rfl, hl⟩⟩
    | env _ st hk ih => cases st <;> exact ⟨by first | exact ih.1 | rfl | exact hk ih.1, ih.2⟩
    | step _ st ih =>
      obtain ⟨ih1, ih2⟩ := ih
      refine ⟨(step_done ih1 st).1, ?_⟩
      rcases ih2 with ⟨rfl, e⟩ | ⟨rfl, e | e⟩ | ⟨rfl, e⟩
      · cases st with
        | ctxErr => exact .inr (.inl ⟨rfl, .inr rfl⟩)
        | ctxOk => exact .inr (.inl ⟨rfl, .inl rfl⟩)
        | _ => exfalso; simp_all
      · cases st with
        | isDone => exact .inr (.inr ⟨rfl, rfl⟩)
        | notDone _ h => rw [ih1] at h; cases h
        | _ => exfalso; simp_all
      · cases st <;> (exfalso; simp_all)
      · cases st <;> (exfalso; simp_all)
  obtain ⟨h1, h2, h3⟩ := key
  have r : rankDone s.loc ≤ 14 := by
    cases s.loc with
    | deliver m b => cases b <;> simp [rankDone]
    | _ => simp [rankDone]
  have q : quotaDone s.loc ≤ 1 := by
    cases s.loc with
    | deliver m b => cases b <;> simp [quotaDone, quota]
    | _ => simp [quotaDone, quota]
  refine ⟨by omega, by omega, ?_⟩
  intro hl
  rcases (key2 hl).2 with ⟨h, _⟩ | ⟨h, _⟩ | ⟨h, e⟩
  · exact ⟨by omega, fun x => by omega⟩
  · exact ⟨by omega, fun x => by omega⟩
  · exact ⟨by omega, fun _ => e⟩

/-! ## Executions that exist -/

/-- A peer that is unchoked and interested; `NewPeer` does not make one, see `C52_violated`. -/
def readyPeer : Peer := { newPeer tiny with clientChoked := false, clientInterested := true }

def firstRequest : PeerMessage := requestMessage 0 0 blockLength

/-- After the first request has been sent. -/
def afterRequest (log : List RunEv) (cancelled : Bool) : Run :=
  { peer := { readyPeer with blockIdx := 1 }, loc := .read, requestMsg := some firstRequest, sentPieceMsg := true, cancelled := cancelled,
    done := false, closed := false, log := log }

theorem run_first : Run.Reachable tinySha tiny readyPeer
    (afterRequest [.req (.next (some 0)), .req (.created firstRequest), .sent firstRequest] false) := by
  have h0 : Run.Reachable tinySha tiny readyPeer (Run.start readyPeer) := .start
  have h1 := h0.step (.ctxOk rfl rfl)
  have h2 := h1.step (.notDone rfl rfl)
  have h3 := h2.step (.notDue rfl)
  have h4 := h3.step (.unchoked rfl rfl)
  have h5 := h4.step (.next none (some 0) rfl rfl rfl rfl (fun _ h => nomatch h))
  exact h5.step (.requestSent (m := firstRequest) rfl)

/-- The hypotheses of C53 and C54 are met: a request is sent. -/
example : ∃ s, Run.Reachable tinySha tiny readyPeer s ∧ requestsSent s.log = [firstRequest] := ⟨_, run_first, rfl⟩

/-- C54: a read error after the request puts it in the retry queue. -/
example : ∃ s, Run.Reachable tinySha tiny readyPeer s ∧ requeuedIn s.log = [some firstRequest] :=
  ⟨_, (run_first.step (.readFailWaiting rfl rfl)).step (.requeued rfl), rfl⟩

/-- The request is answered with the piece, verified and given to the writer, and the next iteration starts. -/
theorem run_answered : ∃ s, Run.Reachable tinySha tiny readyPeer s ∧ s.loc = .loopTop ∧ s.cancelled = false ∧ s.done = false ∧
    s.peer.clientChoked = false ∧ s.sentPieceMsg = true ∧
    ∃ m b, s.log = [.req (.next (some 0)), .req (.created firstRequest), .sent firstRequest] ++ b ∧ RunEv.accepted m ∈ b ∧ .readFailed ∉ b := by
  have h1 := run_first.step (.read [7, 0, 0, 0, 0, 0, 0, 0, 0, 10, 20] rfl)
  have e : ∃ m, Run.handle tinySha tiny (afterRequest [.req (.next (some 0)), .req (.created firstRequest), .sent firstRequest] false)
      [7, 0, 0, 0, 0, 0, 0, 0, 0, 10, 20] false = { afterRequest [.req (.next (some 0)), .req (.created firstRequest), .sent firstRequest,
        .received [7, 0, 0, 0, 0, 0, 0, 0, 0, 10, 20]] false with
        loc := .deliver m false, peer := { readyPeer with blockIdx := 1, bitset := readyPeer.bitset.set 0 } } := ⟨_, rfl⟩
  obtain ⟨m, e⟩ := e
  rw [e] at h1
  have h2 := h1.step (.delivered rfl rfl)
  exact ⟨_, h2, rfl, rfl, rfl, rfl, rfl, m, [.received [7, 0, 0, 0, 0, 0, 0, 0, 0, 10, 20], .accepted m], rfl, by simp, by simp⟩

/-- C54 is false of the code: there is an execution in which `Run` returns although a read failed while a request was
outstanding and the request was never put in the retry queue. (The peer choked, and the read failed in the unchoke loop.) -/
theorem C54_violated : ∃ s, Run.Reachable tinySha tiny readyPeer s ∧ s.loc = .returned ∧
    (ledger true s.log).due = [firstRequest] ∧ requeuedIn s.log = [] := by
  have h1 := run_first.step (.read [0] rfl)
  have h2 := h1.step (.ctxOk rfl rfl)
  have h3 := h2.step (.notDone rfl rfl)
  have h4 := h3.step (.notDue rfl)
  have h5 := h4.step (.choked rfl rfl)
  have h6 := h5.step (.uCtxOk rfl rfl)
  have h7 := h6.step (.uSent rfl)
  have h8 := h7.step (.uReadFail rfl)
  have h9 := h8.env .cancel
  have h10 := h9.step (.uWaitCancel rfl rfl)
  exact ⟨_, h10, rfl, rfl, rfl⟩

/-- C56 is false of the code: (1) a request is sent after the context was cancelled; (2) a request is sent after the torrent is
done; (3) with the torrent done, `Run` can go on for any number of steps without returning. -/
theorem C56_violated :
    (∃ s s' n, Run.Reachable tinySha tiny readyPeer s ∧ s.cancelled = true ∧ Run.Exec tinySha tiny s n s' ∧
      requestsSent s.log = [] ∧ requestsSent s'.log ≠ []) ∧
    (∃ s s' n, Run.Reachable tinySha tiny readyPeer s ∧ s.done = true ∧ Run.Exec tinySha tiny s n s' ∧
      requestsSent s.log = [] ∧ requestsSent s'.log ≠ []) ∧
    (∃ s, Run.Reachable tinySha tiny (newPeer tiny) s ∧ s.done = true ∧
      ∀ k, ∃ s' n, Run.Exec tinySha tiny s n s' ∧ n ≥ k ∧ s'.loc ≠ .returned) := by
  have h0 : Run.Reachable tinySha tiny readyPeer (Run.start readyPeer) := .start
  have h1 := h0.step (.ctxOk rfl rfl)
  have h2 := h1.step (.notDone rfl rfl)
  have h3 := h2.step (.notDue rfl)
  have h4 := h3.step (.unchoked rfl rfl)
  refine ⟨?_, ?_, ?_⟩
  · have h5 := h4.env .cancel
    refine ⟨_, _, _, h5, rfl, .step (.step .refl (.next none (some 0) rfl rfl rfl rfl (fun _ h => nomatch h)))
      (.requestSent (m := firstRequest) rfl), rfl, ?_⟩
    simp [requestsSent, Run.emit, firstRequest, requestMessage]
  · have h5 := h4.env .finish
    refine ⟨_, _, _, h5, rfl, .step (.step .refl (.next none (some 0) rfl rfl rfl rfl (fun _ h => nomatch h)))
      (.requestSent (m := firstRequest) rfl), rfl, ?_⟩
    simp [requestsSent, Run.emit, firstRequest, requestMessage]
  · have g0 : Run.Reachable tinySha tiny (newPeer tiny) (Run.start (newPeer tiny)) := .start
    have g1 := g0.step (.ctxOk rfl rfl)
    have g2 := g1.step (.notDone rfl rfl)
    have g3 := g2.step (.notDue rfl)
    have g4 := g3.step (.choked rfl rfl)
    have g5 := g4.env .finish
    refine ⟨_, g5, rfl, ?_⟩
    intro k
    suffices hh : ∃ s' n, Run.Exec tinySha tiny _ n s' ∧ n ≥ k ∧ s'.loc = .unchokeTop ∧ s'.cancelled = false by
      obtain ⟨s', n, a, b, c, _⟩ := hh
      exact ⟨s', n, a, b, by rw [c]; simp⟩
    induction k with
    | zero => exact ⟨_, 0, .refl, Nat.le_refl _, rfl, rfl⟩
    | succ k ih =>
      obtain ⟨s', n, a, b, c, d⟩ := ih
      exact ⟨_, n + 3, .step (.step (.step a (.uCtxOk c d)) (.uSendFail rfl)) (.uWaited rfl), by omega, rfl, d⟩

/-- The hypotheses of `C52_C55_partial` are met: the second iteration after a failed read. -/
example : ∃ s, Run.Reachable tinySha tiny readyPeer s ∧ s.loc = .loopTop ∧ chokedBy readyPeer.clientChoked s.log = false ∧
    (ledger false s.log).outstanding = none ∧ requestsSent s.log ≠ [] :=
  ⟨_, ((run_first.step (.readFailWaiting rfl rfl)).step (.requeued rfl)).step (.waited rfl), rfl, rfl, rfl, by decide⟩

end Gotit.Props
