import Verif.Model.Session
import Verif.Spec.Session
import Verif.Props.Connection
import Verif.Props.World
/-
  C128: which messages `Run` acts on, given what arrives on the connection; and C74, C76 over connections.
-/
namespace Gotit.Props
open Gotit Spec

/-! ## Lemmas about `ReadPeerMessage` -/

theorem arriving_append (a b : List Ev) : arriving (a ++ b) = arriving a ++ arriving b := by simp [arriving]

theorem arriving_deliver (segs : List Bytes) : arriving (deliver segs) = segs.flatten := by
  induction segs with
  | nil => rfl
  | cons d segs ih => simp only [deliver, arriving, List.map_cons, List.flatMap_cons, List.flatten_cons] at ih ⊢; rw [ih]

/-- Whatever a read does, it takes bytes from the front. -/
theorem readFull_front : ∀ (evs : List Ev) (n : Nat), ∃ pre, arriving evs = pre ++ arriving (readFull .stream n evs).2 := by
  intro evs
  induction evs with
  | nil => intro n; cases n <;> exact ⟨[], rfl⟩
  | cons e evs ih =>
    intro n
    cases n with
    | zero => exact ⟨[], rfl⟩
    | succ n =>
      cases e with
      | data d =>
        simp only [readFull]
        split
        · refine ⟨d.take (n + 1), ?_⟩
          simp only [putBack]
          split
          · simp only [arriving, List.flatMap_cons, ← List.append_assoc, List.take_append_drop]
          · simp only [arriving, List.flatMap_cons]
            rw [List.take_of_length_le (by omega)]
        · obtain ⟨pre, h⟩ := ih (n + 1 - d.length)
          refine ⟨d ++ pre, ?_⟩
          rcases hrd : readFull .stream (n + 1 - d.length) evs with ⟨a, b⟩
          rw [hrd] at h
          cases a <;>
          · simp only [arriving, List.flatMap_cons, List.append_assoc] at h ⊢
            rw [h]
      | timeout => exact ⟨[], rfl⟩
      | fail e => exact ⟨[], rfl⟩
      | eof => exact ⟨[], rfl⟩

theorem readPeerMessage_front (evs : List Ev) : ∃ pre, arriving evs = pre ++ arriving (readPeerMessage evs).2 := by
  unfold readPeerMessage readExactly
  obtain ⟨p1, h1⟩ := readFull_front evs 4
  split
  · rename_i hdr evs1 h
    rw [h] at h1
    obtain ⟨p2, h2⟩ := readFull_front evs1 (getBE hdr)
    exact ⟨p1 ++ p2, by rw [h1, h2, List.append_assoc]⟩
  · exact ⟨p1, h1⟩

/-- A read that is not served by the first segments goes on after them. -/
theorem readFull_through : ∀ (segs : List Bytes) (n : Nat) (rest : List Ev), segs.flatten.length < n →
    readFull .stream n (deliver segs ++ rest) =
      match readFull .stream (n - segs.flatten.length) rest with
      | (.ok r, evs) => (.ok (segs.flatten ++ r), evs)
      | x => x := by
  intro segs
  induction segs with
  | nil =>
    intro n rest h
    simp only [deliver, List.map_nil, List.nil_append, List.flatten_nil, List.length_nil, Nat.sub_zero]
    split
    · assumption
    · rfl
  | cons d segs ih =>
    intro n rest h
    cases n with
    | zero => simp at h
    | succ n =>
      simp only [List.flatten_cons, List.length_append] at h
      simp only [deliver, List.map_cons, List.cons_append, readFull]
      rw [if_neg (by omega), ← deliver, ih _ _ (by omega)]
      simp only [List.flatten_cons, List.length_append]
      rw [show n + 1 - (d.length + segs.flatten.length) = n + 1 - d.length - segs.flatten.length by omega]
      rcases readFull .stream (n + 1 - d.length - segs.flatten.length) rest with ⟨a, b⟩
      cases a <;> simp

/-- The ways in which a connection stops to give bytes. -/
inductive Stops : List Ev → List Ev → Prop
  | nothing : Stops [] []
  | eof {rest} : Stops (.eof :: rest) (.eof :: rest)
  | timeout {rest} : Stops (.timeout :: rest) rest
  | fail {e rest} : Stops (.fail e :: rest) rest

theorem readFull_stops {evs evs' : List Ev} (h : Stops evs evs') (n : Nat) : ∃ e, readFull .stream (n + 1) evs = (.err e, evs') := by
  cases h <;> exact ⟨_, rfl⟩

/-- A message that does not arrive completely before the connection stops is not returned. -/
theorem readPeerMessage_stops {evs evs' : List Ev} (h : Stops evs evs') (segs : List Bytes) (hu : Unfinished segs.flatten) :
    ∃ e, readPeerMessage (deliver segs ++ evs) = (.err e, evs') := by
  unfold readPeerMessage readExactly
  by_cases h4 : segs.flatten.length < 4
  · rw [readFull_through _ _ _ h4]
    obtain ⟨n, hn⟩ : ∃ n, 4 - segs.flatten.length = n + 1 := ⟨4 - segs.flatten.length - 1, by omega⟩
    obtain ⟨e, he⟩ := readFull_stops h n
    rw [hn, he]
    exact ⟨e, rfl⟩
  · obtain ⟨s1, h1, h2⟩ := readFull_deliver segs 4 evs (by omega)
    rw [h1]
    simp only
    have hlt : s1.flatten.length < getBE (segs.flatten.take 4) := by
      apply Classical.byContradiction
      intro hge
      apply hu (segs.flatten.take 4) (s1.flatten.take (getBE (segs.flatten.take 4))) (s1.flatten.drop (getBE (segs.flatten.take 4)))
      · rw [List.length_take]; omega
      · rw [bigEndian_eq, List.length_take]; omega
      · rw [List.take_append_drop, h2, List.take_append_drop]
    rw [readFull_through _ _ _ hlt]
    obtain ⟨n, hn⟩ : ∃ n, getBE (segs.flatten.take 4) - s1.flatten.length = n + 1 := ⟨getBE (segs.flatten.take 4) - s1.flatten.length - 1, by omega⟩
    obtain ⟨e, he⟩ := readFull_stops h n
    rw [hn, he]
    exact ⟨e, rfl⟩

theorem unfinished_nil : Unfinished [] := by
  intro hdr f more h _ he
  have := congrArg List.length he
  simp [h] at this
  omega

/-- One call on an unbroken connection: it returns the next message, or fails and no message is lost. -/
theorem readPeerMessage_unbroken {fs : List Bytes} {c : List Ev} (h : Unbroken fs c) :
    (∃ f fs' c', fs = f :: fs' ∧ readPeerMessage c = (.ok f, c') ∧ Unbroken fs' c') ∨
    (∃ e c', readPeerMessage c = (.err e, c') ∧ Unbroken fs c') := by
  cases h with
  | @last fs wire tail segs hs hu hf =>
    cases hs with
    | nil =>
      right
      obtain ⟨e, he⟩ := readPeerMessage_stops .nothing segs (by rw [hf]; simpa using hu)
      rw [List.append_nil] at he
      exact ⟨e, _, he, .last (segs := []) .nil unfinished_nil rfl⟩
    | @cons body restb hdr wire hh hb hs =>
      left
      obtain ⟨s1, h1, h2⟩ := readPeerMessage_deliver segs [] hdr body (wire ++ tail) hh (by rw [← bigEndian_eq]; exact hb) (by simpa using hf)
      simp only [List.append_nil] at h1
      exact ⟨body, restb, _, rfl, h1, .last hs hu h2⟩
  | @closed fs wire tail segs rest hs hu hf =>
    cases hs with
    | nil =>
      right
      obtain ⟨e, he⟩ := readPeerMessage_stops (.eof (rest := rest)) segs (by rw [hf]; simpa using hu)
      exact ⟨e, _, he, .closed (segs := []) .nil unfinished_nil rfl⟩
    | @cons body restb hdr wire hh hb hs =>
      left
      obtain ⟨s1, h1, h2⟩ := readPeerMessage_deliver segs (.eof :: rest) hdr body (wire ++ tail) hh (by rw [← bigEndian_eq]; exact hb) (by simpa using hf)
      exact ⟨body, restb, _, rfl, h1, .closed hs hu h2⟩
  | @timeout fs fs' wire segs rest hs hf hr =>
    cases hs with
    | nil =>
      right
      obtain ⟨e, he⟩ := readPeerMessage_stops (.timeout (rest := rest)) segs (by rw [hf]; exact unfinished_nil)
      exact ⟨e, _, he, hr⟩
    | @cons body restb hdr wire hh hb hs =>
      left
      obtain ⟨s1, h1, h2⟩ := readPeerMessage_deliver segs (.timeout :: rest) hdr body wire hh (by rw [← bigEndian_eq]; exact hb) hf
      exact ⟨body, restb ++ fs', _, rfl, h1, .timeout hs h2 hr⟩
  | @fail fs fs' wire segs rest e hs hf hr =>
    cases hs with
    | nil =>
      right
      obtain ⟨e', he⟩ := readPeerMessage_stops (.fail (e := e) (rest := rest)) segs (by rw [hf]; exact unfinished_nil)
      exact ⟨e', _, he, hr⟩
    | @cons body restb hdr wire hh hb hs =>
      left
      obtain ⟨s1, h1, h2⟩ := readPeerMessage_deliver segs (.fail e :: rest) hdr body wire hh (by rw [← bigEndian_eq]; exact hb) hf
      exact ⟨body, restb ++ fs', _, rfl, h1, .fail e hs h2 hr⟩

/-! ## C128 -/

theorem heard_append (a b : List RunEv) : heard (a ++ b) = heard a ++ heard b := by simp [heard]

theorem CutFrom.later {fs : List Bytes} {wire : Bytes} (h : CutFrom fs wire) (pre : Bytes) : CutFrom fs (pre ++ wire) := by
  cases h with
  | nil => exact .nil
  | @cons skipped hdr f fs wire h1 h2 h3 => rw [← List.append_assoc]; exact .cons h1 h2 h3

theorem readsAll_cut {c c' : List Ev} {es : List RunEv} (h : ReadsAll c es c') (fs : List Bytes) (hc : CutFrom fs (arriving c')) :
    CutFrom (heard es ++ fs) (arriving c) := by
  induction h with
  | nil => exact hc
  | @cons c c1 c2 e es h1 _ ih =>
    have := ih hc
    cases h1 with
    | received hr =>
      obtain ⟨hdr, g1, g2, g3, _⟩ := C32_sound _ _ _ hr
      rw [g3]
      exact CutFrom.cons (skipped := []) g1 (by rw [bigEndian_eq]; exact g2) this
    | failed hr =>
      obtain ⟨pre, hp⟩ := readPeerMessage_front c
      rw [hr] at hp
      rw [hp]
      exact CutFrom.later this pre
    | sent => exact this
    | sendFailed => exact this
    | req => exact this
    | requeued => exact this
    | accepted => exact this

theorem readsAll_unbroken {c c' : List Ev} {es : List RunEv} (h : ReadsAll c es c') (fs : List Bytes) (hu : Unbroken fs c) :
    ∃ fs', fs = heard es ++ fs' ∧ Unbroken fs' c' := by
  induction h generalizing fs with
  | nil => exact ⟨fs, rfl, hu⟩
  | @cons c c1 c2 e es h1 _ ih =>
    cases h1 with
    | received hr =>
      rcases readPeerMessage_unbroken hu with ⟨f', fs', c', k1, k2, k3⟩ | ⟨e, c', k2, k3⟩
      · rw [hr] at k2
        simp only [Prod.mk.injEq, Res.ok.injEq] at k2
        obtain ⟨rfl, rfl⟩ := k2
        obtain ⟨fs'', g1, g2⟩ := ih fs' k3
        exact ⟨fs'', by rw [k1, g1]; rfl, g2⟩
      · rw [hr] at k2; simp at k2
    | failed hr =>
      rcases readPeerMessage_unbroken hu with ⟨f', fs', c', k1, k2, k3⟩ | ⟨e, c', k2, k3⟩
      · rw [hr] at k2; simp at k2
      · rw [hr] at k2
        simp only [Prod.mk.injEq] at k2
        obtain ⟨_, rfl⟩ := k2
        exact ih fs k3
    | sent => exact ih fs hu
    | sendFailed => exact ih fs hu
    | req => exact ih fs hu
    | requeued => exact ih fs hu
    | accepted => exact ih fs hu

theorem env_log {r r' : Run} (h : Run.Env r r') : r'.log = r.log := by cases h <;> rfl

/-- C128, what holds on every connection: each message `Run` acts on stands in the bytes that arrived, after four bytes with its length; the messages are
in order and do not overlap. Missing: bytes may be skipped between them (see `C128_violated`). -/
theorem C128_cut_partial (sha1 : Bytes → Bytes) (t : Torrent) (p0 : Peer) (conn : List Ev) (r : Run) (c : List Ev)
    (h : Session sha1 t p0 conn r c) : CutFrom (heard r.log) (arriving conn) := by
  suffices ∀ fs, CutFrom fs (arriving c) → CutFrom (heard r.log ++ fs) (arriving conn) by
    have := this [] .nil
    rwa [List.append_nil] at this
  induction h with
  | start => intro fs h; exact h
  | step _ _ hl hr ih =>
    intro fs h
    rw [hl, heard_append, List.append_assoc]
    exact ih _ (readsAll_cut hr fs h)
  | env _ he ih => rw [env_log he]; exact ih

/-- C128, when no deadline passes and no error happens in the middle of a message: the messages `Run` acts on are those the peer sent, in order;
what was not read yet is still to be read. -/
theorem C128_unbroken_partial (sha1 : Bytes → Bytes) (t : Torrent) (p0 : Peer) (conn : List Ev) (r : Run) (c : List Ev) (fs : List Bytes)
    (h : Session sha1 t p0 conn r c) (hu : Unbroken fs conn) : ∃ fs', fs = heard r.log ++ fs' ∧ Unbroken fs' c := by
  induction h with
  | start => exact ⟨fs, rfl, hu⟩
  | step _ _ hl hr ih =>
    obtain ⟨fs1, h1, h2⟩ := ih
    obtain ⟨fs2, h3, h4⟩ := readsAll_unbroken hr fs1 h2
    exact ⟨fs2, by rw [h1, h3, hl, heard_append, List.append_assoc], h4⟩
  | env _ he ih => rw [env_log he]; exact ih

/-! ## Every behaviour of `Run` is the work of some peer -/

/-- A message as one segment. -/
def asSegment (f : Bytes) : Ev := .data (putBE 4 f.length ++ f)

theorem readPeerMessage_segment (f : Bytes) (h : f.length < 2 ^ 32) (rest : List Ev) : readPeerMessage (asSegment f :: rest) = (.ok f, rest) := by
  unfold readPeerMessage readExactly asSegment
  simp only [readFull, List.length_append, putBE_length]
  rw [if_pos (by omega), take_prefix (by simp)]
  simp only [putBack, List.length_append, putBE_length]
  rw [getBE_putBE _ _ (by omega), drop_prefix (by simp)]
  cases f with
  | nil => simp [readFull]
  | cons b bs => simp [readFull, putBack]

/-- A connection on which the given events happen. -/
def connFor : List RunEv → List Ev
  | [] => []
  | .received f :: es => asSegment f :: connFor es
  | .readFailed :: es => .timeout :: connFor es
  | _ :: es => connFor es

theorem connFor_append (a b : List RunEv) : connFor (a ++ b) = connFor a ++ connFor b := by
  induction a with
  | nil => rfl
  | cons e a ih => cases e <;> simp [connFor, ih]

theorem readsAll_connFor : ∀ (es : List RunEv) (rest : List Ev), (∀ f, RunEv.received f ∈ es → f.length < 2 ^ 32) →
    ReadsAll (connFor es ++ rest) es rest := by
  intro es
  induction es with
  | nil => intro rest _; exact .nil
  | cons e es ih =>
    intro rest h
    have := ih rest (fun f hf => h f (by simp [hf]))
    cases e with
    | received f => exact .cons (.received (readPeerMessage_segment f (h f (by simp)) _)) this
    | readFailed => exact .cons (.failed (e := "i/o timeout") rfl) this
    | sent m => exact .cons .sent this
    | sendFailed m => exact .cons .sendFailed this
    | req e => exact .cons .req this
    | requeued m => exact .cons .requeued this
    | accepted m => exact .cons .accepted this

theorem readsAll_short {c c' : List Ev} {es : List RunEv} (h : ReadsAll c es c') : ∀ f, RunEv.received f ∈ es → f.length < 2 ^ 32 := by
  induction h with
  | nil => simp
  | cons h1 _ ih =>
    intro f hf
    simp only [List.mem_cons] at hf
    rcases hf with rfl | hf
    · cases h1 with
      | received h1 =>
        obtain ⟨hdr, g1, g2, _⟩ := C32_sound _ _ _ h1
        have := getBE_lt hdr
        rw [g1, g2] at this
        omega
    · exact ih f hf

/-- Every execution of `Run` in which the messages are shorter than 4 GiB happens on some connection, and only such executions happen on
connections. Model/PeerRun.lean, which lets reads return what they like, is therefore neither too narrow nor too wide. -/
theorem C128_any (sha1 : Bytes → Bytes) (t : Torrent) (p0 : Peer) (r : Run) :
    (∃ conn c, Session sha1 t p0 conn r c) ↔
      (Run.Reachable sha1 t p0 r ∧ ∀ f, RunEv.received f ∈ r.log → f.length < 2 ^ 32) := by
  constructor
  · rintro ⟨conn, c, h⟩
    induction h with
    | start => exact ⟨.start, by simp [Run.start]⟩
    | @step r r' c c' es _ st hl hr ih =>
      refine ⟨.step ih.1 st, ?_⟩
      intro f hf
      rw [hl, List.mem_append] at hf
      rcases hf with hf | hf
      · exact ih.2 f hf
      · exact readsAll_short hr f hf
    | env _ he ih => exact ⟨.env ih.1 he, by rw [env_log he]; exact ih.2⟩
  · rintro ⟨h, hf⟩
    suffices ∀ rest, Session sha1 t p0 (connFor r.log ++ rest) r rest from ⟨_, _, this []⟩
    induction h with
    | start => intro rest; exact .start
    | @step s s' _ st ih =>
      intro rest
      obtain ⟨es, hl⟩ := exec_log st
      rw [hl] at hf ⊢
      rw [connFor_append, List.append_assoc]
      exact .step (ih (fun f h => hf f (by simp [h])) _) st hl (readsAll_connFor es rest (fun f h => hf f (by simp [h])))
    | env _ he ih =>
      intro rest
      rw [env_log he] at hf ⊢
      exact .env (ih hf rest) he

/-- C128 is false of the code, for every message `forged`: a peer sends a single other message that contains the bytes of `forged` (say a block of the
torrent), the deadline passes while that message arrives, and the only message `Run` ever acts on is `forged`. -/
theorem C128_violated (sha1 : Bytes → Bytes) (t : Torrent) (p0 : Peer) (hp : p0.clientChoked = true) (forged : Bytes) (h : forged.length + 4 < 2 ^ 32) :
    ∃ body wire before after r, Sent [body] wire ∧ before ++ after = wire ∧ body ≠ forged ∧
      Session sha1 t p0 [.data before, .timeout, .data after] r [] ∧ heard r.log = [forged] := by
  obtain ⟨wire, before, after, h1, h2, h3, h4, h5⟩ := C33_resync_violated forged h
  have s0 : Session sha1 t p0 [.data before, .timeout, .data after] (Run.start p0) [.data before, .timeout, .data after] := .start
  have s1 := s0.step (.ctxOk rfl rfl) (es := []) (by simp [Run.goto]) .nil
  have s2 := s1.step (.notDone rfl rfl) (es := []) (by simp [Run.goto]) .nil
  have s3 := s2.step (.notDue rfl) (es := []) (by simp [Run.goto]) .nil
  have s4 := s3.step (.choked rfl hp) (es := []) (by simp [Run.goto]) .nil
  have s5 := s4.step (.uCtxOk rfl rfl) (es := []) (by simp [Run.goto]) .nil
  have s6 := s5.step (.uSent rfl) (es := [.sent interestedMessage]) (by simp [Run.emit]) (.cons .sent .nil)
  have s7 := s6.step (.uReadFail rfl) (es := [.readFailed]) (by simp [Run.emit]) (.cons (.failed h3) .nil)
  have s8 := s7.step (.uWaited rfl) (es := []) (by simp [Run.goto]) .nil
  have s9 := s8.step (.uCtxOk rfl rfl) (es := []) (by simp [Run.goto]) .nil
  have s10 := s9.step (.uSent rfl) (es := [.sent interestedMessage]) (by simp [Run.emit]) (.cons .sent .nil)
  have s11 := s10.step (.uRead forged rfl) (es := [.received forged]) (handle_frame _ _ _ _ _).1 (.cons (.received h4) .nil)
  refine ⟨_, wire, before, after, _, h1, h2, fun e => h5 e.symm, s11, ?_⟩
  rw [(handle_frame _ _ _ _ _).1]
  simp [heard, Run.emit, Run.goto, Run.start]

/-- C128, with the handshake: when `Announce` has succeeded, the messages `Run` acts on are cut from the bytes after the 68 of the handshake. -/
theorem C128_announced_partial (sha1 : Bytes → Bytes) (t : Torrent) (p0 : Peer) (hash clientId : Bytes) (a : Attempt) (l l' : Link) (k : Nat)
    (conn : List Ev) (ha : peerAnnounce hash clientId a l = (l', .ok ())) (hc : l'.conn = some (k, conn)) (r : Run) (c : List Ev)
    (h : Session sha1 t p0 conn r c) :
    ∃ handshake rest, handshake.length = 68 ∧ arriving a.evs = handshake ++ rest ∧ CutFrom (heard r.log) rest := by
  unfold peerAnnounce at ha
  split at ha
  · simp at ha
  · simp only at ha
    split at ha
    · simp at ha
    · split at ha
      · simp at ha
      · simp at ha
      · rename_i response evs hr
        obtain ⟨g1, _, g3⟩ := readFull_exact _ _ _ _ hr
        split at ha
        · simp only [Prod.mk.injEq, and_true] at ha
          subst ha
          simp only [Option.some.injEq, Prod.mk.injEq] at hc
          obtain ⟨_, rfl⟩ := hc
          exact ⟨response, _, g3, g1, C128_cut_partial _ _ _ _ _ _ h⟩
        · simp at ha

/-! ## Whole downloads -/

/-- The events of peer `i`. -/
def eventsOf (trace : List (Nat × RunEv)) (i : Nat) : List RunEv := trace.filterMap (fun x => if x.1 = i then some x.2 else none)

theorem eventsOf_append (a b : List (Nat × RunEv)) (i : Nat) : eventsOf (a ++ b) i = eventsOf a i ++ eventsOf b i := by simp [eventsOf]

theorem readsAt_each {cs cs' : Nat → List Ev} {es : List (Nat × RunEv)} (h : ReadsAt cs es cs') (i : Nat) : ReadsAll (cs i) (eventsOf es i) (cs' i) := by
  induction h with
  | nil => exact .nil
  | @cons cs cs' j e c es h1 _ ih =>
    by_cases hj : j = i
    · subst hj
      simp only [if_pos] at ih
      simp only [eventsOf, List.filterMap_cons, if_pos]
      exact .cons h1 ih
    · simp only [if_neg (fun h : i = j => hj h.symm)] at ih
      simp only [eventsOf, List.filterMap_cons, if_neg hj]
      exact ih

theorem wired_each {sha1 : Bytes → Bytes} {t : Torrent} {p0 : Peer} {disk : Disk} {conns cs : Nat → List Ev} {W : World}
    (h : Wired sha1 t p0 disk conns W cs) (i : Nat) (fs : List Bytes) (hc : CutFrom fs (arriving (cs i))) :
    CutFrom (heard (eventsOf W.trace i) ++ fs) (arriving (conns i)) := by
  induction h generalizing fs with
  | start => exact hc
  | step _ _ hl hr ih =>
    rw [hl, eventsOf_append, heard_append, List.append_assoc]
    exact ih _ (readsAll_cut (readsAt_each hr i) fs hc)

theorem CutFrom.mem {fs : List Bytes} {wire : Bytes} (h : CutFrom fs wire) : ∀ f ∈ fs, ∃ a hdr b, wire = a ++ (hdr ++ (f ++ b)) ∧
    hdr.length = 4 ∧ bigEndian hdr = f.length := by
  induction h with
  | nil => simp
  | @cons skipped hdr f fs wire h1 h2 _ ih =>
    intro g hg
    simp only [List.mem_cons] at hg
    rcases hg with rfl | hg
    · exact ⟨_, _, _, rfl, h1, h2⟩
    · obtain ⟨a, hdr', b, k1, k2, k3⟩ := ih g hg
      exact ⟨skipped ++ (hdr ++ (f ++ a)), hdr', b, by rw [k1]; simp, k2, k3⟩

theorem wired_reachable {sha1 : Bytes → Bytes} {t : Torrent} {p0 : Peer} {disk : Disk} {conns cs : Nat → List Ev} {W : World}
    (h : Wired sha1 t p0 disk conns W cs) : World.Reachable sha1 t p0 disk W := by
  induction h with
  | start => exact .start
  | step _ st _ _ ih => exact .step ih st

theorem step_trace {sha1 : Bytes → Bytes} {t : Torrent} {p0 : Peer} {W W' : World} (h : World.Step sha1 t p0 W W') :
    ∃ es, W'.trace = W.trace ++ es := by
  cases h <;> first
    | exact ⟨_, rfl⟩
    | exact ⟨[], (List.append_nil _).symm⟩

theorem readsAt_connFor : ∀ (es : List (Nat × RunEv)) (rest : Nat → List Ev), (∀ i f, (i, RunEv.received f) ∈ es → f.length < 2 ^ 32) →
    ReadsAt (fun i => connFor (eventsOf es i) ++ rest i) es rest := by
  intro es
  induction es with
  | nil => intro rest _; exact .nil
  | cons x es ih =>
    intro rest h
    obtain ⟨i, e⟩ := x
    have hr := ih rest (fun j f hf => h j f (by simp [hf]))
    have key : ReadsAll (connFor (eventsOf ((i, e) :: es) i) ++ rest i) [e] (connFor (eventsOf es i) ++ rest i) := by
      have := readsAll_connFor [e] (connFor (eventsOf es i) ++ rest i) (fun f hf => h i f (by
        simp only [List.mem_singleton] at hf; subst hf; simp))
      rw [← List.append_assoc, ← connFor_append] at this
      simpa [eventsOf] using this
    cases key with
    | cons k1 k2 =>
      cases k2
      refine .cons k1 ?_
      have : (fun j => if j = i then connFor (eventsOf es i) ++ rest i else connFor (eventsOf ((i, e) :: es) j) ++ rest j) =
          (fun j => connFor (eventsOf es j) ++ rest j) := by
        funext j
        by_cases hj : j = i
        · subst hj; rw [if_pos rfl]
        · rw [if_neg hj]
          simp only [eventsOf, List.filterMap_cons, if_neg (fun h : i = j => hj h.symm)]
      rw [this]
      exact hr

/-- Every state of a download in which the messages are shorter than 4 GiB is reached with some bytes on the connections, and only such states are: what
is said of all states of Model/World.lean is said of all things remote peers can send, and what is shown to be possible there can be done
by remote peers. -/
theorem C128_world_any (sha1 : Bytes → Bytes) (t : Torrent) (p0 : Peer) (disk : Disk) (W : World) :
    (∃ conns cs, Wired sha1 t p0 disk conns W cs) ↔
      (World.Reachable sha1 t p0 disk W ∧ ∀ i f, (i, RunEv.received f) ∈ W.trace → f.length < 2 ^ 32) := by
  constructor
  · rintro ⟨conns, cs, h⟩
    refine ⟨wired_reachable h, ?_⟩
    intro i f hf
    have hc := wired_each h i [] .nil
    rw [List.append_nil] at hc
    obtain ⟨a, hdr, b, k1, k2, k3⟩ := CutFrom.mem hc f (by
      simp only [heard, eventsOf, List.mem_filterMap]
      exact ⟨.received f, ⟨(i, .received f), hf, by simp⟩, rfl⟩)
    have := getBE_lt hdr
    rw [bigEndian_eq] at k3
    rw [k2, k3] at this
    omega
  · rintro ⟨h, hf⟩
    suffices ∀ rest : Nat → List Ev, Wired sha1 t p0 disk (fun i => connFor (eventsOf W.trace i) ++ rest i) W rest from ⟨_, _, this (fun _ => [])⟩
    induction h with
    | start => intro rest; exact .start
    | @step W W' _ st ih =>
      intro rest
      obtain ⟨es, hl⟩ := step_trace st
      rw [hl] at hf ⊢
      have h1 := ih (fun i f h => hf i f (by simp [h])) (fun i => connFor (eventsOf es i) ++ rest i)
      simp only [← List.append_assoc, ← connFor_append, ← eventsOf_append] at h1
      exact .step h1 st hl (readsAt_connFor es rest (fun i f h => hf i f (by simp [h])))

/-- C76 over connections: at any time every byte of the torrent's files is zero or the byte at its place in a block `d` that stands in the bytes
that arrived from some peer, as the payload of a piece message, and whose SHA-1 the metainfo lists for the piece the message names. -/
theorem C76_stream (sha1 : Bytes → Bytes) (os : Os) (mi : Metainfo) (root : Bytes) (disk0 disk : Disk) (t : Torrent)
    (hn : newTorrent sha1 os mi root disk0 = (.ok t, disk)) (hs : Sensible mi) (pl : Nat) (hpl : t.pieceLength = pl)
    (hsm : t.pieces.length * pl + 2 ^ 32 ≤ 2 ^ 63) (p0 : Peer) (conns cs : Nat → List Ev) (W : World) (hW : Wired sha1 t p0 disk conns W cs) :
    OldOrFrom (fun pos d => ∃ i a hdr index begin_ b p, arriving (conns i) = a ++ (hdr ++ (7 :: (index ++ (begin_ ++ (d ++ b))))) ∧
        hdr.length = 4 ∧ bigEndian hdr = 9 + d.length ∧ index.length = 4 ∧ begin_.length = 4 ∧
        t.pieces[bigEndian index]? = some p ∧ p.sha1 = sha1 d ∧ pos = bigEndian index * pl + bigEndian begin_)
      (List.replicate (total (extents t)) 0) (layout W.out.disk (extents t)) := by
  obtain ⟨h1, h2⟩ := (C76_verified sha1 os mi root disk0 disk t hn hs pl hpl hsm p0 W (wired_reachable hW)).1
  refine ⟨h1, ?_⟩
  intro x hx
  rcases h2 x hx with h | ⟨pos, d, ⟨i, f, index, begin_, p, g1, g2, g3, g4, g5⟩, k⟩
  · exact .inl h
  · right
    refine ⟨pos, d, ?_, k⟩
    have hc := wired_each hW i [] .nil
    rw [List.append_nil] at hc
    obtain ⟨a, hdr, b, k1, k2, k3⟩ := CutFrom.mem hc f (by
      simp only [heard, eventsOf, List.mem_filterMap]
      exact ⟨.received f, ⟨(i, .received f), g1, by simp⟩, rfl⟩)
    obtain ⟨q, hf, hq, e1, e2, e3⟩ : ∃ q, f = 7 :: q ∧ 8 ≤ q.length ∧ index = bigEndian (q.take 4) ∧ begin_ = bigEndian ((q.drop 4).take 4) ∧ d = q.drop 8 := by
      cases f with
      | nil => simp [hear] at g2
      | cons id q =>
        simp only [hear] at g2
        repeat' split at g2
        all_goals try (simp at g2; done)
        rename_i hid hq
        simp only [Heard.piece.injEq] at g2
        refine ⟨q, by rw [hid], hq, ?_, ?_, g2.2.2.symm⟩
        · rw [← g2.1]; simp [num4]
        · rw [← g2.2.1]; simp [num4]
    refine ⟨i, a, hdr, q.take 4, (q.drop 4).take 4, b, p, ?_, k2, ?_, ?_, ?_, ?_, g4, ?_⟩
    · have e : q = q.take 4 ++ ((q.drop 4).take 4 ++ d) := by
        rw [e3, show q.drop 8 = (q.drop 4).drop 4 by rw [List.drop_drop], List.take_append_drop, List.take_append_drop]
      have e' : f ++ b = 7 :: (q.take 4 ++ ((q.drop 4).take 4 ++ (d ++ b))) := by
        rw [hf, List.cons_append]
        congr 1
        exact (congrArg (· ++ b) e).trans (by simp only [List.append_assoc])
      rw [k1, e']
    · rw [k3, hf, e3, List.length_cons, List.length_drop]; omega
    · rw [List.length_take]; omega
    · rw [List.length_take, List.length_drop]; omega
    · rw [← e1]; exact g3
    · rw [← e1, ← e2]; exact g5

/-! ## Examples -/

/-- An unchoke message and a keep-alive, cut into three segments, with a passed deadline between them. -/
example : Unbroken [[1], []] [.data [0, 0], .data [0, 1, 1], .timeout, .data [0, 0, 0, 0]] :=
  .timeout (fs := [[1]]) (fs' := [[]]) (wire := [0, 0, 0, 1, 1]) (segs := [[0, 0], [0, 1, 1]]) (rest := [.data [0, 0, 0, 0]])
    (.cons (hdr := [0, 0, 0, 1]) (wire := []) rfl (by decide) .nil) rfl
    (.last (segs := [[0, 0, 0, 0]]) (wire := [0, 0, 0, 0]) (tail := []) (.cons (hdr := [0, 0, 0, 0]) (wire := []) rfl (by decide) .nil) unfinished_nil rfl)

/-- `Run` of a new peer gets the unchoke message from that connection. -/
example : ∃ r c, Session tinySha tiny (newPeer tiny) [.data [0, 0], .data [0, 1, 1], .timeout, .data [0, 0, 0, 0]] r c ∧ heard r.log = [[1]] := by
  have s0 : Session tinySha tiny (newPeer tiny) [.data [0, 0], .data [0, 1, 1], .timeout, .data [0, 0, 0, 0]] _ _ := .start
  have s1 := s0.step (.ctxOk rfl rfl) (es := []) (by simp [Run.goto]) .nil
  have s2 := s1.step (.notDone rfl rfl) (es := []) (by simp [Run.goto]) .nil
  have s3 := s2.step (.notDue rfl) (es := []) (by simp [Run.goto]) .nil
  have s4 := s3.step (.choked rfl rfl) (es := []) (by simp [Run.goto]) .nil
  have s5 := s4.step (.uCtxOk rfl rfl) (es := []) (by simp [Run.goto]) .nil
  have s6 := s5.step (.uSent rfl) (es := [.sent interestedMessage]) (by simp [Run.emit]) (.cons .sent .nil)
  have s7 := s6.step (.uRead [1] rfl) (es := [.received [1]]) (handle_frame _ _ _ _ _).1
    (.cons (.received (c' := [.timeout, .data [0, 0, 0, 0]]) (by simp [readPeerMessage, readExactly, readFull, putBack, getBE])) .nil)
  refine ⟨_, _, s7, ?_⟩
  rw [(handle_frame _ _ _ _ _).1]
  simp [heard, Run.emit, Run.goto, Run.start]

/-- `C128_violated` for the message "choke". -/
example : ∃ body wire before after r, Sent [body] wire ∧ before ++ after = wire ∧ body ≠ [0] ∧
    Session tinySha tiny (newPeer tiny) [.data before, .timeout, .data after] r [] ∧ heard r.log = [[0]] :=
  C128_violated _ _ _ rfl [0] (by decide)

/-- A download of eight bytes over a connection: `C76_stream` speaks about it. -/
example : ∃ t disk' W conns cs, Wired (fun _ => List.replicate 20 1) t (newPeer t) disk' conns W cs ∧ W.out.downloaded.all = true ∧
    layout W.out.disk (extents t) = [1, 2, 3, 4, 5, 6, 7, 8] := by
  obtain ⟨t, d', h1, h2, h3, h4, _⟩ := fewBytes_opens 8 2 (by omega) (by omega) (by omega) [1, 2, 3, 4, 5, 6, 7, 8] rfl
  obtain ⟨W, g1, g2, g3, g4, _⟩ := C78_pushed_partial _ _ _ _ _ _ _ h1 h2 _ 4 h3 (by simp) (by simp) (by omega) (by rw [h4]; decide) (by omega)
    (by simp)
  obtain ⟨conns, cs, k⟩ := (C128_world_any _ _ _ _ W).2 ⟨g1, g4⟩
  exact ⟨t, d', W, conns, cs, k, g2, g3⟩

end Gotit.Props
