import Verif.Spec.Outgoing
import Verif.Props.Interest
/-
  C146: what the other side hears is what the client said.
-/
namespace Gotit.Props
open Gotit Spec

/-! ### The other side -/

theorem hears_nil {hs : List Heard} (h : Hears [] hs) : hs = [] := by
  obtain ⟨bodies, whole, rest, h1, h2, _, h4⟩ := h
  obtain ⟨h5, _⟩ := List.append_eq_nil_iff.1 h1.symm
  cases h2 with
  | nil => exact h4
  | cons a b c => simp only [List.append_eq_nil_iff] at h5; rw [h5.1] at a; cases a

/-- A whole message at the beginning is heard first. -/
theorem hears_frame {hdr body w : Bytes} {hs : List Heard} (h1 : hdr.length = 4) (h2 : bigEndian hdr = body.length) :
    Hears (hdr ++ (body ++ w)) hs ↔ ∃ hs', hs = hear body :: hs' ∧ Hears w hs' := by
  constructor
  · rintro ⟨bodies, whole, rest, g1, g2, g3, g4⟩
    cases g2 with
    | nil =>
      exfalso
      simp only [List.nil_append] at g1
      subst g1
      have : (hdr ++ (body ++ w)).take 4 = hdr := by rw [List.take_append_of_le_length (by omega), List.take_of_length_le (by omega)]
      rcases g3 with g3 | g3
      · simp only [List.length_append] at g3; omega
      · rw [this, h2] at g3; simp only [List.length_append] at g3; omega
    | @cons body' rest' hdr' wire a b c =>
      simp only [List.append_assoc] at g1
      obtain ⟨e1, e2⟩ := List.append_inj g1 (by omega)
      subst e1
      obtain ⟨e3, e4⟩ := List.append_inj e2 (by omega)
      subst e3
      exact ⟨_, by rw [g4]; rfl, rest', wire, rest, e4, c, g3, rfl⟩
  · rintro ⟨hs', rfl, bodies, whole, rest, g1, g2, g3, g4⟩
    exact ⟨body :: bodies, hdr ++ (body ++ whole), rest, by simp [g1], .cons h1 h2 g2, g3, by rw [g4]; rfl⟩

/-- What is heard is determined by the bytes. -/
theorem hears_unique {w : Bytes} {hs hs' : List Heard} (h : Hears w hs) (h' : Hears w hs') : hs = hs' := by
  obtain ⟨bodies, whole, rest, h1, h2, h3, rfl⟩ := h
  induction h2 generalizing w hs' with
  | nil =>
    simp only [List.nil_append] at h1
    subst h1
    obtain ⟨bodies', whole', rest', g1, g2, g3, rfl⟩ := h'
    cases g2 with
    | nil => rfl
    | @cons body rs hdr wire a b c =>
      exfalso
      simp only [List.append_assoc] at g1
      subst g1
      have : (hdr ++ (body ++ (wire ++ rest'))).take 4 = hdr := by
        rw [List.take_append_of_le_length (by omega), List.take_of_length_le (by omega)]
      rcases h3 with h3 | h3
      · simp only [List.length_append] at h3; omega
      · rw [this, b] at h3; simp only [List.length_append] at h3; omega
  | @cons body rs hdr wire a b c ih =>
    subst h1
    simp only [List.append_assoc] at h'
    obtain ⟨hs'', rfl, h''⟩ := (hears_frame a b).1 h'
    rw [List.map_cons, ih h'' rfl]

/-- There is always something to be heard, possibly nothing. -/
theorem hears_total : ∀ (n : Nat) (w : Bytes), w.length ≤ n → ∃ hs, Hears w hs := by
  intro n
  induction n with
  | zero =>
    intro w h
    rw [List.length_eq_zero_iff.1 (Nat.le_zero.1 h)]
    exact ⟨[], [], [], [], rfl, .nil, .inl (by simp), rfl⟩
  | succ n ih =>
    intro w h
    by_cases h1 : Incomplete w
    · exact ⟨[], [], [], w, rfl, .nil, h1, rfl⟩
    · simp only [Incomplete, not_or, Nat.not_lt] at h1
      obtain ⟨h1, h2⟩ := h1
      obtain ⟨hs, hh⟩ := ih ((w.drop 4).drop (bigEndian (w.take 4))) (by simp only [List.length_drop]; omega)
      refine ⟨hear ((w.drop 4).take (bigEndian (w.take 4))) :: hs, ?_⟩
      have := (hears_frame (hdr := w.take 4) (body := (w.drop 4).take (bigEndian (w.take 4)))
        (w := (w.drop 4).drop (bigEndian (w.take 4))) (hs := hear ((w.drop 4).take (bigEndian (w.take 4))) :: hs)
        (by rw [List.length_take]; omega) (by rw [List.length_take, List.length_drop]; omega)).2 ⟨hs, rfl, hh⟩
      rwa [List.take_append_drop, List.take_append_drop] at this

theorem hears_interested {w : Bytes} {hs : List Heard} : Hears (interestedMessage.wire ++ w) hs ↔ ∃ hs', hs = .signal 2 :: hs' ∧ Hears w hs' :=
  hears_frame (hdr := [0, 0, 0, 1]) (body := [2]) rfl (by decide)

theorem hears_keepalive {w : Bytes} {hs : List Heard} : Hears (keepaliveMessage.wire ++ w) hs ↔ ∃ hs', hs = .keepalive :: hs' ∧ Hears w hs' :=
  hears_frame (hdr := [0, 0, 0, 0]) (body := []) rfl (by decide)

/-! ### What Run writes -/

/-- The first message of the list that was sent. -/
def firstSent (es : List RunEv) : Option PeerMessage :=
  es.findSome? fun
    | .sent m => some m
    | _ => none

theorem firstSent_snoc (b : List RunEv) (e : RunEv) : firstSent (b ++ [e]) = (firstSent b).or (firstSent [e]) := by
  simp only [firstSent, List.findSome?_append]

/-- Where `Run` is between a write that failed and the next one. -/
def Between (l : RunLoc) : Prop := l = .unchokeWait ∨ l = .unchokeTop ∨ l = .unchokeSend ∨ l = .returned

structure Writes (s : Run) : Prop where
  known : ∀ m, RunEv.sent m ∈ s.log ∨ RunEv.sendFailed m ∈ s.log → m = interestedMessage ∨ m = keepaliveMessage
  none : ∀ m, s.loc ≠ .sendRequest m
  again : ∀ a m b m', s.log = a ++ .sendFailed m :: b → firstSent b = some m' → m' = interestedMessage
  pending : ∀ a m b, s.log = a ++ .sendFailed m :: b → firstSent b = Option.none → Between s.loc

theorem writes_goto {s : Run} {l : RunLoc} (h : Writes s) (h1 : ∀ m, l ≠ .sendRequest m) (h2 : Between s.loc → Between l) : Writes (s.goto l) :=
  ⟨h.known, h1, h.again, fun a m b e1 e2 => h2 (h.pending a m b e1 e2)⟩

theorem writes_event {s s' : Run} (h : Writes s) (e : RunEv) (hl : s'.log = s.log ++ [e])
    (h1 : ∀ m, s'.loc ≠ .sendRequest m)
    (h2 : ∀ m, e = .sent m ∨ e = .sendFailed m → m = interestedMessage ∨ m = keepaliveMessage)
    (h3 : ∀ m, e = .sent m → Between s.loc → m = interestedMessage)
    (h4 : (∃ m, e = .sendFailed m) → Between s'.loc)
    (h5 : Between s.loc → (∃ m, e = .sent m) ∨ Between s'.loc) : Writes s' := by
  have split : ∀ a m b, s.log ++ [e] = a ++ .sendFailed m :: b →
      (b = [] ∧ e = .sendFailed m) ∨ ∃ b', b = b' ++ [e] ∧ s.log = a ++ .sendFailed m :: b' := by
    intro a m b hh
    rcases List.eq_nil_or_concat b with hb | ⟨b', x, hb⟩
    · subst hb
      exact .inl ⟨rfl, (List.append_inj' hh rfl).2 |> fun h => by simpa using h⟩
    · subst hb
      rw [List.concat_eq_append, show a ++ RunEv.sendFailed m :: (b' ++ [x]) = (a ++ RunEv.sendFailed m :: b') ++ [x] by simp] at hh
      obtain ⟨e1, e2⟩ := List.append_inj' hh rfl
      simp only [List.cons.injEq, and_true] at e2
      subst e2
      exact .inr ⟨b', by rw [List.concat_eq_append], e1⟩
  refine ⟨?_, h1, ?_, ?_⟩
  · intro m hm
    rw [hl] at hm
    simp only [List.mem_append, List.mem_singleton] at hm
    rcases hm with (hm | hm) | (hm | hm)
    · exact h.known m (.inl hm)
    · exact h2 m (.inl hm.symm)
    · exact h.known m (.inr hm)
    · exact h2 m (.inr hm.symm)
  · intro a m b m' h6 h7
    rw [hl] at h6
    rcases split a m b h6 with ⟨hb, _⟩ | ⟨b', hb, h8⟩
    · subst hb; cases h7
    · subst hb
      rw [firstSent_snoc] at h7
      cases h9 : firstSent b' with
      | some x =>
        rw [h9] at h7
        simp only [Option.some_or, Option.some.injEq] at h7
        subst h7
        exact h.again a m b' _ h8 h9
      | none =>
        rw [h9, Option.none_or] at h7
        have hb := h.pending a m b' h8 h9
        cases e with
        | sent x =>
          simp only [firstSent, List.findSome?_cons, Option.some.injEq] at h7
          subst h7
          exact h3 _ rfl hb
        | _ => simp [firstSent] at h7
  · intro a m b h6 h7
    rw [hl] at h6
    rcases split a m b h6 with ⟨hb, h8⟩ | ⟨b', hb, h8⟩
    · exact h4 ⟨m, h8⟩
    · subst hb
      rw [firstSent_snoc] at h7
      cases h9 : firstSent b' with
      | some x => rw [h9] at h7; simp at h7
      | none =>
        rw [h9, Option.none_or] at h7
        rcases h5 (h.pending a m b' h8 h9) with ⟨x, hx⟩ | h10
        · subst hx; simp [firstSent] at h7
        · exact h10

theorem run_writes {sha1 : Bytes → Bytes} {t : Torrent} {s : Run} (h : Run.Reachable sha1 t (newPeer t) s) : Writes s := by
  induction h with
  | start => exact ⟨fun m h => by simp [Run.start] at h, fun m h => by simp [Run.start] at h, fun a m b m' h => by simp [Run.start] at h,
      fun a m b h => by simp [Run.start] at h⟩
  | env _ st ih => cases st <;> exact ⟨ih.known, ih.none, ih.again, ih.pending⟩
  | @step s s' hr st ih =>
    have hi : s.peer.clientInterested = false := (reachable_inv hr).interested
    have hand : ∀ f b, ¬ Between s.loc → Writes (s.handle sha1 t f b) := by
      intro f b hb
      refine writes_event ih (.received f) ?_ ?_ (by simp) (by simp) (by simp) (fun h => absurd h hb)
      · unfold Run.handle
        simp only
        split <;> rfl
      · intro m
        unfold Run.handle
        simp only
        split
        · simp only; split <;> simp
        · simp
        · simp [Run.goto]
    cases st with
    | kept e => exact writes_event ih _ rfl (by simp [Run.emit]) (by simp) (by simp [Between, e]) (by simp) (by simp)
    | keepFail e => exact writes_event ih _ rfl (by simp [Run.emit]) (by simp) (by simp) (by simp [Run.emit, Between]) (by simp [Run.emit, Between])
    | uSent e => exact writes_event ih _ rfl (by simp [Run.emit]) (by simp) (by simp) (by simp) (by simp)
    | uSendFail e => exact writes_event ih _ rfl (by simp [Run.emit]) (by simp) (by simp) (by simp [Run.emit, Between]) (by simp [Run.emit, Between])
    | uReadFail e => exact writes_event ih _ rfl (by simp [Run.emit]) (by simp) (by simp) (by simp) (by simp [e, Between])
    | readFail e _ => exact writes_event ih _ rfl (by simp [Run.emit]) (by simp) (by simp) (by simp) (by simp [e, Between])
    | readFailWaiting e _ => exact writes_event ih (.readFailed) rfl (by simp [Run.emit]) (by simp) (by simp) (by simp) (by simp [e, Between])
    | delivered e _ => exact writes_event ih _ rfl (by intro m; simp only [Run.emit]; split <;> simp) (by simp) (by simp) (by simp) (by simp [e, Between])
    | uRead f e => exact hand _ _ (by simp [e, Between])
    | read f e => exact hand _ _ (by simp [e, Between])
    | next failed nxt e c1 c2 c3 c4 => rw [hi] at c2; cases c2
    | requestSent e => exact absurd e (ih.none _)
    | requestFail e => exact absurd e (ih.none _)
    | requeued e => exact writes_event ih _ rfl (by simp [Run.emit]) (by simp) (by simp) (by simp) (by simp [e, Between])
    | _ => exact writes_goto ih (by simp) (by simp_all [Between])

/-! ### The bytes -/

theorem outgoing_other {cut : Nat → Nat} {i : Nat} {e : RunEv} {es : List RunEv} (h1 : ∀ m, e ≠ .sent m) (h2 : ∀ m, e ≠ .sendFailed m) :
    outgoingFrom cut i (e :: es) = outgoingFrom cut (i + 1) es ∧ said (e :: es) = said es := by
  cases e with
  | sent m => exact absurd rfl (h1 m)
  | sendFailed m => exact absurd rfl (h2 m)
  | _ => exact ⟨rfl, rfl⟩

/-- A part of a message that is neither nothing nor all of it. -/
theorem part_of {m : PeerMessage} (hm : m = interestedMessage ∨ m = keepaliveMessage) {k : Nat} (hk : k ≠ 0) :
    m.wire.take (min k (m.wire.length - 1)) ∈ [[0], [0, 0], [0, 0, 0], [0, 0, 0, 1]] := by
  have hw1 : interestedMessage.wire = [0, 0, 0, 1, 2] := by decide
  have hw2 : keepaliveMessage.wire = [0, 0, 0, 0] := by decide
  rcases hm with e | e <;> subst e
  · rw [hw1]
    have : min k ([0, 0, 0, 1, 2] : Bytes).length.pred ≤ 4 := Nat.min_le_right _ _
    have h1 : min k (([0, 0, 0, 1, 2] : Bytes).length - 1) = 1 ∨ min k (([0, 0, 0, 1, 2] : Bytes).length - 1) = 2 ∨
        min k (([0, 0, 0, 1, 2] : Bytes).length - 1) = 3 ∨ min k (([0, 0, 0, 1, 2] : Bytes).length - 1) = 4 := by
      simp only [List.length_cons, List.length_nil]; omega
    rcases h1 with h1 | h1 | h1 | h1 <;> rw [h1] <;> decide
  · rw [hw2]
    have h1 : min k (([0, 0, 0, 0] : Bytes).length - 1) = 1 ∨ min k (([0, 0, 0, 0] : Bytes).length - 1) = 2 ∨
        min k (([0, 0, 0, 0] : Bytes).length - 1) = 3 := by
      simp only [List.length_cons, List.length_nil]; omega
    rcases h1 with h1 | h1 | h1 <;> rw [h1] <;> decide

/-- Whatever contains a whole message begins with three zeros. -/
theorem zeros_first (cut : Nat → Nat) : ∀ (es : List RunEv) (i : Nat),
    (∀ m, RunEv.sent m ∈ es ∨ RunEv.sendFailed m ∈ es → m = interestedMessage ∨ m = keepaliveMessage) → (∃ m, RunEv.sent m ∈ es) →
    ∃ x r, outgoingFrom cut i es = 0 :: 0 :: 0 :: x :: r := by
  intro es
  induction es with
  | nil => rintro i _ ⟨m, h⟩; cases h
  | cons e es ih =>
    intro i h1 h2
    have h1' : ∀ m, RunEv.sent m ∈ es ∨ RunEv.sendFailed m ∈ es → m = interestedMessage ∨ m = keepaliveMessage :=
      fun m hm => h1 m (hm.imp (List.mem_cons_of_mem _) (List.mem_cons_of_mem _))
    by_cases h3 : ∃ m, e = .sent m
    · obtain ⟨m, rfl⟩ := h3
      rcases h1 m (.inl (by simp)) with e | e <;> subst e
      · exact ⟨1, 2 :: outgoingFrom cut (i + 1) es, rfl⟩
      · exact ⟨0, outgoingFrom cut (i + 1) es, rfl⟩
    · have h4 : ∃ m, RunEv.sent m ∈ es := by
        obtain ⟨m, hm⟩ := h2
        rcases List.mem_cons.1 hm with hm | hm
        · exact absurd ⟨m, hm.symm⟩ h3
        · exact ⟨m, hm⟩
      obtain ⟨x, r, hr⟩ := ih (i + 1) h1' h4
      by_cases h5 : ∃ m, e = .sendFailed m
      · obtain ⟨m, rfl⟩ := h5
        simp only [outgoingFrom, hr]
        by_cases hk : cut i = 0
        · rw [hk]; exact ⟨x, r, by simp⟩
        · have := part_of (h1 m (.inr (by simp))) hk
          simp only [List.mem_cons, List.not_mem_nil, or_false] at this
          rcases this with e | e | e | e <;> rw [e]
          · exact ⟨0, x :: r, rfl⟩
          · exact ⟨0, 0 :: x :: r, rfl⟩
          · exact ⟨0, 0 :: 0 :: x :: r, rfl⟩
          · exact ⟨1, 0 :: 0 :: 0 :: x :: r, rfl⟩
      · rw [(outgoing_other (fun m hm => h3 ⟨m, hm⟩) (fun m hm => h5 ⟨m, hm⟩)).1]
        exact ⟨x, r, hr⟩

/-- After a part of a message, three zeros and more are heard as a keep-alive or as choke. -/
theorem misheard {p : Bytes} (hp : p ∈ [[0], [0, 0], [0, 0, 0], ([0, 0, 0, 1] : Bytes)]) {x : UInt8} {r : Bytes} {hs : List Heard}
    (h : Hears (p ++ 0 :: 0 :: 0 :: x :: r) hs) : ∃ hs', hs = .keepalive :: hs' ∨ hs = .signal 0 :: hs' := by
  have key : ∀ w, Hears ([0, 0, 0, 0] ++ ([] ++ w)) hs → ∃ hs', hs = .keepalive :: hs' ∨ hs = .signal 0 :: hs' := by
    intro w hw
    obtain ⟨hs', e, _⟩ := (hears_frame rfl (by decide)).1 hw
    exact ⟨hs', .inl e⟩
  simp only [List.mem_cons, List.not_mem_nil, or_false] at hp
  rcases hp with e | e | e | e <;> subst e
  · exact key (x :: r) h
  · exact key (0 :: x :: r) h
  · exact key (0 :: 0 :: x :: r) h
  · obtain ⟨hs', e, _⟩ := (hears_frame (hdr := [0, 0, 0, 1]) (body := [0]) (w := 0 :: 0 :: x :: r) rfl (by decide)).1 h
    exact ⟨hs', .inr e⟩

theorem said_first : ∀ (es : List RunEv) (m : PeerMessage), firstSent es = some m → ∃ l, said es = hearWire m.wire :: l := by
  intro es
  induction es with
  | nil => intro m h; cases h
  | cons e es ih =>
    intro m h
    cases e with
    | sent x =>
      simp only [firstSent, List.findSome?_cons, Option.some.injEq] at h
      subst h
      exact ⟨said es, rfl⟩
    | _ => exact ih m (by simpa [firstSent] using h)

theorem firstSent_some : ∀ (es : List RunEv), (∃ m, RunEv.sent m ∈ es) → ∃ m, firstSent es = some m := by
  intro es
  induction es with
  | nil => rintro ⟨m, h⟩; cases h
  | cons e es ih =>
    rintro ⟨m, h⟩
    cases e with
    | sent x => exact ⟨x, rfl⟩
    | _ =>
      obtain ⟨y, hy⟩ := ih ⟨m, by simpa using h⟩
      exact ⟨y, by simpa [firstSent] using hy⟩

theorem broken (cut : Nat → Nat) : ∀ (es : List RunEv) (i : Nat),
    (∀ m, RunEv.sent m ∈ es ∨ RunEv.sendFailed m ∈ es → m = interestedMessage ∨ m = keepaliveMessage) →
    (∀ a m b m', es = a ++ .sendFailed m :: b → firstSent b = some m' → m' = interestedMessage) →
    ∀ a m b m', es = a ++ .sendFailed m :: b → cut (i + a.length) ≠ 0 → RunEv.sent m' ∈ b →
    ∀ hs, Hears (outgoingFrom cut i es) hs → hs ≠ said es := by
  intro es
  induction es with
  | nil => intro i _ _ a m b m' h; simp at h
  | cons e es ih =>
    intro i h1 h2 a m b m' h3 h4 h5 hs hh
    have h1' : ∀ m, RunEv.sent m ∈ es ∨ RunEv.sendFailed m ∈ es → m = interestedMessage ∨ m = keepaliveMessage :=
      fun m hm => h1 m (hm.imp (List.mem_cons_of_mem _) (List.mem_cons_of_mem _))
    have h2' : ∀ a m b m', es = a ++ .sendFailed m :: b → firstSent b = some m' → m' = interestedMessage :=
      fun a m b m' he => h2 (e :: a) m b m' (by rw [he]; rfl)
    have here : ∀ x, e = .sendFailed x → cut i ≠ 0 → (∃ y, RunEv.sent y ∈ es) → hs ≠ said (e :: es) := by
      intro x hx hk hy
      subst hx
      obtain ⟨z, r, hz⟩ := zeros_first cut es (i + 1) h1' hy
      simp only [outgoingFrom, hz] at hh
      obtain ⟨hs', hm⟩ := misheard (part_of (h1 x (.inr (by simp))) hk) hh
      obtain ⟨f, hf⟩ := firstSent_some es hy
      have hI := h2 [] x es f rfl hf
      subst hI
      obtain ⟨l, hl⟩ := said_first es _ hf
      rw [hear_interested] at hl
      rw [show said (RunEv.sendFailed x :: es) = said es from rfl, hl]
      rcases hm with e | e <;> rw [e] <;> simp
    cases a with
    | nil =>
      obtain ⟨rfl, rfl⟩ := List.cons.inj h3
      exact here m rfl h4 ⟨m', h5⟩
    | cons a0 a =>
      simp only [List.cons_append, List.cons.injEq] at h3
      obtain ⟨rfl, rfl⟩ := h3
      have h4' : cut (i + 1 + a.length) ≠ 0 := by rwa [show i + 1 + a.length = i + (e :: a).length by simp; omega]
      have next := fun hs' => ih (i + 1) h1' h2' a m b m' rfl h4' h5 hs'
      by_cases hs1 : ∃ x, e = .sent x
      · obtain ⟨x, rfl⟩ := hs1
        simp only [outgoingFrom] at hh
        rcases h1 x (.inl (by simp)) with e | e <;> subst e
        · obtain ⟨hs', rfl, hh'⟩ := hears_interested.1 hh
          intro he
          rw [show said (RunEv.sent interestedMessage :: (a ++ .sendFailed m :: b)) = hearWire interestedMessage.wire :: said (a ++ .sendFailed m :: b) from rfl] at he
          exact next hs' hh' (List.cons.inj he).2
        · obtain ⟨hs', rfl, hh'⟩ := hears_keepalive.1 hh
          intro he
          rw [show said (RunEv.sent keepaliveMessage :: (a ++ .sendFailed m :: b)) = hearWire keepaliveMessage.wire :: said (a ++ .sendFailed m :: b) from rfl] at he
          exact next hs' hh' (List.cons.inj he).2
      · by_cases hs2 : ∃ x, e = .sendFailed x
        · obtain ⟨x, rfl⟩ := hs2
          by_cases hk : cut i = 0
          · simp only [outgoingFrom, hk, Nat.zero_min, List.take_zero, List.nil_append] at hh
            exact next hs hh
          · exact here x rfl hk ⟨m', by simp [h5]⟩
        · obtain ⟨o1, o2⟩ := outgoing_other (cut := cut) (i := i) (es := a ++ .sendFailed m :: b) (fun m hm => hs1 ⟨m, hm⟩) (fun m hm => hs2 ⟨m, hm⟩)
          rw [o1] at hh
          rw [o2]
          exact next hs hh

/-- C146, exactly where it fails: if a write failed after a part of its message and `Run` later wrote another message, then the other side does
not hear what the client said: it takes the remains for a keep-alive or for "choke", which the client never says. -/
theorem C146_broken_partial (sha1 : Bytes → Bytes) (t : Torrent) (s : Run) (h : Run.Reachable sha1 t (newPeer t) s) (cut : Nat → Nat)
    (a b : List RunEv) (m m' : PeerMessage) (hl : s.log = a ++ .sendFailed m :: b) (hc : cut a.length ≠ 0) (hb : RunEv.sent m' ∈ b)
    (hs : List Heard) (hh : Hears (outgoing cut s.log) hs) : hs ≠ said s.log :=
  broken cut s.log 0 (run_writes h).known (run_writes h).again a m b m' hl (by rwa [Nat.zero_add]) hb hs hh

/-! ### When nothing is cut -/

theorem no_writes (cut : Nat → Nat) : ∀ (es : List RunEv) (i : Nat), (∀ m, RunEv.sent m ∉ es ∧ RunEv.sendFailed m ∉ es) →
    outgoingFrom cut i es = [] ∧ said es = [] := by
  intro es
  induction es with
  | nil => intro i _; exact ⟨rfl, rfl⟩
  | cons e es ih =>
    intro i h
    obtain ⟨o1, o2⟩ := outgoing_other (cut := cut) (i := i) (e := e) (es := es) (fun m hm => (h m).1 (by simp [hm])) (fun m hm => (h m).2 (by simp [hm]))
    rw [o1, o2]
    exact ih (i + 1) fun m => ⟨fun hm => (h m).1 (List.mem_cons_of_mem _ hm), fun hm => (h m).2 (List.mem_cons_of_mem _ hm)⟩

theorem intact (cut : Nat → Nat) : ∀ (es : List RunEv) (i : Nat),
    (∀ m, RunEv.sent m ∈ es ∨ RunEv.sendFailed m ∈ es → m = interestedMessage ∨ m = keepaliveMessage) →
    (∀ a m b, es = a ++ .sendFailed m :: b → cut (i + a.length) = 0 ∨ ∀ m', RunEv.sent m' ∉ b ∧ RunEv.sendFailed m' ∉ b) →
    Hears (outgoingFrom cut i es) (said es) := by
  intro es
  induction es with
  | nil => intro i _ _; exact ⟨[], [], [], rfl, .nil, .inl (by simp), rfl⟩
  | cons e es ih =>
    intro i h1 h2
    have next := ih (i + 1) (fun m hm => h1 m (hm.imp (List.mem_cons_of_mem _) (List.mem_cons_of_mem _)))
      (fun a m b he => by
        have := h2 (e :: a) m b (by rw [he]; rfl)
        rwa [show i + (e :: a).length = i + 1 + a.length by simp; omega] at this)
    by_cases hs1 : ∃ x, e = .sent x
    · obtain ⟨x, rfl⟩ := hs1
      rcases h1 x (.inl (by simp)) with e | e <;> subst e
      · exact hears_interested.2 ⟨_, by rw [← hear_interested]; rfl, next⟩
      · exact hears_keepalive.2 ⟨_, by rw [← hear_keepalive]; rfl, next⟩
    · by_cases hs2 : ∃ x, e = .sendFailed x
      · obtain ⟨x, rfl⟩ := hs2
        by_cases hk : cut i = 0
        · simp only [outgoingFrom, hk, Nat.zero_min, List.take_zero, List.nil_append]
          exact next
        · rcases h2 [] x es rfl with h | h
          · exact absurd h hk
          · obtain ⟨o1, o2⟩ := no_writes cut es (i + 1) h
            have := part_of (h1 x (.inr (by simp))) hk
            simp only [outgoingFrom, o1, List.append_nil]
            rw [show said (RunEv.sendFailed x :: es) = said es from rfl, o2]
            refine ⟨[], [], _, rfl, .nil, ?_, rfl⟩
            simp only [List.mem_cons, List.not_mem_nil, or_false] at this
            rcases this with e | e | e | e <;> rw [e] <;> simp [Incomplete]
            decide
      · obtain ⟨o1, o2⟩ := outgoing_other (cut := cut) (i := i) (es := es) (fun m hm => hs1 ⟨m, hm⟩) (fun m hm => hs2 ⟨m, hm⟩)
        rw [o1, o2]
        exact next

/-- C146, what holds: as long as no write that failed had sent a part of its message, except possibly the very last one, the other side hears
exactly the messages the client said, in order. -/
theorem C146_intact_partial (sha1 : Bytes → Bytes) (t : Torrent) (s : Run) (h : Run.Reachable sha1 t (newPeer t) s) (cut : Nat → Nat)
    (hc : ∀ a m b, s.log = a ++ .sendFailed m :: b → cut a.length = 0 ∨ ∀ m', RunEv.sent m' ∉ b ∧ RunEv.sendFailed m' ∉ b) (hs : List Heard) :
    Hears (outgoing cut s.log) hs ↔ hs = said s.log := by
  have := intact cut s.log 0 (run_writes h).known (fun a m b he => by rw [Nat.zero_add]; exact hc a m b he)
  exact ⟨fun hh => hears_unique hh this, fun e => e ▸ this⟩

/-- C146 is false of the code. `unchoke` says "interested", the write fails when the four bytes of the length have been sent, and "interested"
is said again, `n` times, each time without an answer. For as long as `n` is at most 52, all that the other side hears is "choke". -/
theorem C146_violated (sha1 : Bytes → Bytes) (t : Torrent) (n : Nat) (h1 : 1 ≤ n) (h2 : n ≤ 52) :
    ∃ s cut, Run.Reachable sha1 t (newPeer t) s ∧ said s.log = List.replicate n (.signal 2) ∧ Hears (outgoing cut s.log) [.signal 0] := by
  have base : ∀ n, ∃ s, Run.Reachable sha1 t (newPeer t) s ∧ s.loc = .unchokeWait ∧ s.cancelled = false ∧
      s.log = .sendFailed interestedMessage :: (List.replicate n [.sent interestedMessage, .readFailed]).flatten := by
    intro n
    induction n with
    | zero =>
      have h0 : Run.Reachable sha1 t (newPeer t) (Run.start (newPeer t)) := .start
      have g1 := h0.step (.ctxOk rfl rfl)
      have g2 := g1.step (.notDone rfl rfl)
      have g3 := g2.step (.notDue rfl)
      have g4 := g3.step (.choked rfl rfl)
      have g5 := g4.step (.uCtxOk rfl rfl)
      exact ⟨_, g5.step (.uSendFail rfl), rfl, rfl, rfl⟩
    | succ n ih =>
      obtain ⟨s, i1, i2, i3, i4⟩ := ih
      have g1 := i1.step (.uWaited i2)
      have g2 := g1.step (.uCtxOk rfl i3)
      have g3 := g2.step (.uSent rfl)
      refine ⟨_, g3.step (.uReadFail rfl), rfl, i3, ?_⟩
      simp [Run.emit, Run.goto, i4, List.replicate_succ', List.flatten_append]
  obtain ⟨s, s1, _, _, s4⟩ := base n
  refine ⟨s, fun _ => 4, s1, ?_, ?_⟩
  · rw [s4, show said (RunEv.sendFailed interestedMessage :: (List.replicate n [RunEv.sent interestedMessage, .readFailed]).flatten) =
      said (List.replicate n [RunEv.sent interestedMessage, .readFailed]).flatten from rfl]
    clear h1 h2 s4
    induction n with
    | zero => rfl
    | succ n ih =>
      rw [List.replicate_succ, List.flatten_cons, List.replicate_succ, ← ih]
      show hearWire interestedMessage.wire :: _ = _
      rw [hear_interested]
      rfl
  · rw [s4]
    have out : ∀ n i, outgoingFrom (fun _ => 4) i (List.replicate n [RunEv.sent interestedMessage, .readFailed]).flatten =
        (List.replicate n ([0, 0, 0, 1, 2] : Bytes)).flatten := by
      intro n
      induction n with
      | zero => intro i; rfl
      | succ n ih =>
        intro i
        rw [List.replicate_succ, List.flatten_cons, List.replicate_succ, List.flatten_cons, ← ih (i + 1 + 1)]
        rfl
    have len : ∀ n, (List.replicate n ([0, 0, 0, 1, 2] : Bytes)).flatten.length = 5 * n := by
      intro n
      induction n with
      | zero => rfl
      | succ n ih => rw [List.replicate_succ, List.flatten_cons, List.length_append, ih]; simp; omega
    show Hears ([0, 0, 0, 1] ++ outgoingFrom (fun _ => 4) 1 _) _
    rw [out]
    cases n with
    | zero => omega
    | succ n =>
      rw [List.replicate_succ, List.flatten_cons]
      refine (hears_frame (hdr := [0, 0, 0, 1]) (body := [0]) (w := 0 :: 0 :: 1 :: 2 :: (List.replicate n ([0, 0, 0, 1, 2] : Bytes)).flatten)
        rfl (by decide)).2 ⟨[], rfl, [], [], _, rfl, .nil, .inr ?_, rfl⟩
      have hv : bigEndian [0, 0, 1, 2] = 258 := by decide
      simp only [List.length_cons, len, List.take_succ_cons, List.take_zero, hv]
      omega

/-! ### Examples -/

/-- A call of `Run` in which nothing is cut: interested is said, nothing comes back, and it is said again. -/
example (sha1 : Bytes → Bytes) (t : Torrent) : ∃ s, Run.Reachable sha1 t (newPeer t) s ∧ said s.log = [.signal 2, .signal 2] ∧
    (∀ a m b, s.log = a ++ .sendFailed m :: b → (0 : Nat) = 0 ∨ ∀ m', RunEv.sent m' ∉ b ∧ RunEv.sendFailed m' ∉ b) := by
  have h0 : Run.Reachable sha1 t (newPeer t) (Run.start (newPeer t)) := .start
  have g1 := h0.step (.ctxOk rfl rfl)
  have g2 := g1.step (.notDone rfl rfl)
  have g3 := g2.step (.notDue rfl)
  have g4 := g3.step (.choked rfl rfl)
  have g5 := g4.step (.uCtxOk rfl rfl)
  have g6 := g5.step (.uSent rfl)
  have g7 := g6.step (.uReadFail rfl)
  have g8 := g7.step (.uWaited rfl)
  have g9 := g8.step (.uCtxOk rfl rfl)
  exact ⟨_, g9.step (.uSent rfl), (show said [.sent interestedMessage, .readFailed, .sent interestedMessage] = _ by decide), fun _ _ _ _ => .inl rfl⟩

/-- One in which the first write is cut after two bytes and the second is not: the other side hears a keep-alive. -/
example (sha1 : Bytes → Bytes) (t : Torrent) : ∃ s, Run.Reachable sha1 t (newPeer t) s ∧
    s.log = [] ++ .sendFailed interestedMessage :: [.sent interestedMessage] ∧ said s.log = [.signal 2] ∧
    Hears (outgoing (fun _ => 2) s.log) [.keepalive] := by
  have h0 : Run.Reachable sha1 t (newPeer t) (Run.start (newPeer t)) := .start
  have g1 := h0.step (.ctxOk rfl rfl)
  have g2 := g1.step (.notDone rfl rfl)
  have g3 := g2.step (.notDue rfl)
  have g4 := g3.step (.choked rfl rfl)
  have g5 := g4.step (.uCtxOk rfl rfl)
  have g6 := g5.step (.uSendFail rfl)
  have g7 := g6.step (.uWaited rfl)
  have g8 := g7.step (.uCtxOk rfl rfl)
  exact ⟨_, g8.step (.uSent rfl), rfl, (show said [.sendFailed interestedMessage, .sent interestedMessage] = _ by decide), [[]], [0, 0, 0, 0], [0, 1, 2],
    (show outgoing (fun _ => 2) [.sendFailed interestedMessage, .sent interestedMessage] = _ by decide), .cons (hdr := [0, 0, 0, 0]) rfl rfl .nil,
    .inl (by decide), by decide⟩

end Gotit.Props
