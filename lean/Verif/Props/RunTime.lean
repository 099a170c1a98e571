import Verif.Model.RunTime
import Verif.Spec.KeepAlive
import Verif.Lemmas.Round
import Verif.Props.PeerRun
/-
  C108: a connection is never silent for two minutes. C109: a dead connection is given up. C56 with time.
-/
namespace Gotit.Props
open Gotit Gotit.Spec

/-! ## When a keep-alive is due -/

theorem fadd_mono (p : Nat) {x x' y y' : Frac} (hx : 0 < x.den) (hx' : 0 < x'.den) (hy : 0 < y.den) (hy' : 0 < y'.den)
    (h1 : x.le x') (h2 : y.le y') : (fadd (p + 1) x y).le (fadd (p + 1) x' y') := by
  refine roundBits_mono _ _ _ _ _ (Nat.mul_pos hx hy) (Nat.mul_pos hx' hy') ?_
  unfold Frac.le at h1 h2
  have a : x.num * y.den * (x'.den * y'.den) ≤ x'.num * y'.den * (x.den * y.den) := by
    have := Nat.mul_le_mul_right (y.den * y'.den) h1
    calc x.num * y.den * (x'.den * y'.den) = x.num * x'.den * (y.den * y'.den) := by ac_rfl
      _ ≤ _ := this
      _ = _ := by ac_rfl
  have b : y.num * x.den * (x'.den * y'.den) ≤ y'.num * x'.den * (x.den * y.den) := by
    have := Nat.mul_le_mul_right (x.den * x'.den) h2
    calc y.num * x.den * (x'.den * y'.den) = y.num * y'.den * (x.den * x'.den) := by ac_rfl
      _ ≤ _ := this
      _ = _ := by ac_rfl
  rw [Nat.add_mul, Nat.add_mul]
  omega

theorem minutes_mono {m m' n n' : Nat} (h1 : m ≤ m') (h2 : n ≤ n') :
    (fadd 53 (toFloat 53 m) (fdiv 53 (toFloat 53 n) ⟨60000000000, 1⟩)).le (fadd 53 (toFloat 53 m') (fdiv 53 (toFloat 53 n') ⟨60000000000, 1⟩)) :=
  fadd_mono 52 (roundBits_den _ _ _) (roundBits_den _ _ _) (roundBits_den _ _ _) (roundBits_den _ _ _) (toFloat_mono 52 _ _ h1)
    (fdiv_mono 52 (roundBits_den _ _ _) (roundBits_den _ _ _) (by decide) (by decide) (toFloat_mono 52 _ _ h2) (by simp [Frac.le]))

/-- The comparison in float64 is right: a keep-alive is due after exactly 114 seconds. -/
theorem keepAliveDue_iff (ns : Nat) : keepAliveDue ns = true ↔ 114000000000 ≤ ns := by
  have hd : 0 < (durationMinutes ns).den := roundBits_den _ _ _
  have hle : keepAliveDue ns = true ↔ (roundBits 53 19 10).le (durationMinutes ns) := by simp [keepAliveDue, Frac.le]
  rw [hle]
  have hm := Nat.div_add_mod ns 60000000000
  have hl := Nat.mod_lt ns (show 0 < 60000000000 by decide)
  generalize hq : ns / 60000000000 = m at *
  generalize hr : ns % 60000000000 = n at *
  have e : durationMinutes ns = fadd 53 (toFloat 53 m) (fdiv 53 (toFloat 53 n) ⟨60000000000, 1⟩) := by rw [durationMinutes, hq, hr]
  rw [e]
  constructor
  · intro h
    apply Decidable.byContradiction
    intro hlt
    have up : (fadd 53 (toFloat 53 m) (fdiv 53 (toFloat 53 n) ⟨60000000000, 1⟩)).le
        (fadd 53 (toFloat 53 1) (fdiv 53 (toFloat 53 53999999999) ⟨60000000000, 1⟩)) ∨
        (fadd 53 (toFloat 53 m) (fdiv 53 (toFloat 53 n) ⟨60000000000, 1⟩)).le
        (fadd 53 (toFloat 53 0) (fdiv 53 (toFloat 53 60000000000) ⟨60000000000, 1⟩)) := by
      by_cases h0 : m = 0
      · exact .inr (minutes_mono (by omega) (by omega))
      · exact .inl (minutes_mono (by omega) (by omega))
    rcases up with up | up
    · exact absurd (Frac.le_trans (roundBits_den _ _ _) h up) (by unfold Frac.le; decide +kernel)
    · exact absurd (Frac.le_trans (roundBits_den _ _ _) h up) (by unfold Frac.le; decide +kernel)
  · intro h
    by_cases h2 : 2 ≤ m
    · exact Frac.le_trans (y := fadd 53 (toFloat 53 2) (fdiv 53 (toFloat 53 0) ⟨60000000000, 1⟩)) (roundBits_den _ _ _)
        (by unfold Frac.le; decide +kernel) (minutes_mono h2 (by omega))
    · exact Frac.le_trans (y := fadd 53 (toFloat 53 1) (fdiv 53 (toFloat 53 54000000000) ⟨60000000000, 1⟩)) (roundBits_den _ _ _)
        (by unfold Frac.le; decide +kernel) (minutes_mono (by omega) (by omega))

/-! ## Where a step leads -/

/-- The points a step of `Run` can lead to. -/
def Flows (s : Run) (l' : RunLoc) : Prop :=
  match s.loc with
  | .loopTop => (s.cancelled = true ∧ l' = .returned) ∨ (s.cancelled = false ∧ l' = .checkDone)
  | .checkDone => l' = .returned ∨ l' = .keepAlive
  | .keepAlive => l' = .ifChoked ∨ l' = .returned
  | .ifChoked => (s.peer.clientChoked = true ∧ l' = .unchokeTop) ∨ (s.peer.clientChoked = false ∧ l' = .ifRequest)
  | .unchokeTop => (s.cancelled = true ∧ l' = .returned) ∨ (s.cancelled = false ∧ l' = .unchokeSend)
  | .unchokeSend => l' = .unchokeRead ∨ l' = .unchokeWait
  | .unchokeRead => l' = .unchokeWait ∨ l' = .ifRequest ∨ (∃ m, l' = .deliver m true) ∨ l' = .panicked
  | .unchokeWait => l' = .unchokeTop ∨ (s.cancelled = true ∧ l' = .returned)
  | .ifRequest => l' = .read ∨ l' = .pause ∨ ∃ m, l' = .sendRequest m
  | .sendRequest _ => l' = .read ∨ ∃ m, l' = .requeue m
  | .requeue _ => l' = .pause
  | .read => (∃ m, l' = .requeue m) ∨ l' = .pause ∨ l' = .loopTop ∨ (∃ m, l' = .deliver m false) ∨ l' = .panicked
  | .pause => l' = .loopTop ∨ (s.cancelled = true ∧ l' = .returned)
  | .deliver _ b => l' = (if b then .ifRequest else .loopTop) ∨ l' = .panicked
  | .returned => False
  | .panicked => False

theorem step_flows {sha1 : Bytes → Bytes} {t : Torrent} {s s' : Run} (st : Run.Step sha1 t s s') : Flows s s'.loc := by
  cases st with
  | uRead frame e =>
    rcases (handle_frame sha1 t s frame true).2.2.2 with h | h | h
    · simp [Flows, e, h]
    · simp [Flows, e, h]
    · simp [Flows, e, h]
  | read frame e =>
    rcases (handle_frame sha1 t s frame false).2.2.2 with h | h | h
    · simp [Flows, e, h]
    · simp [Flows, e, h]
    · simp [Flows, e, h]
  | next failed nxt e =>
    simp only [Flows, e]
    split <;> simp
  | _ => simp_all [Flows, Run.goto, Run.emit]

/-- A step that writes a message successfully. -/
theorem sent_from {sha1 : Bytes → Bytes} {t : Torrent} {s s' : Run} (st : Run.Step sha1 t s s') {m : PeerMessage}
    (h : s'.log = s.log ++ [.sent m]) :
    (s.loc = .keepAlive ∧ s'.loc = .ifChoked) ∨ (s.loc = .unchokeSend ∧ s'.loc = .unchokeRead) ∨ (∃ m, s.loc = .sendRequest m) ∧ s'.loc = .read := by
  cases st with
  | uRead frame e => rw [(handle_frame _ _ _ _ _).1] at h; simp at h
  | read frame e => rw [(handle_frame _ _ _ _ _).1] at h; simp at h
  | next failed nxt e =>
    simp only [List.append_cancel_left_eq] at h
    have : RunEv.sent m ∈ (s.peer.nextRequestMessage failed nxt).2.2.map .req := by rw [h]; simp
    simp at this
  | requestSent e => exact .inr (.inr ⟨⟨_, e⟩, rfl⟩)
  | kept e => exact .inl ⟨e, rfl⟩
  | uSent e => exact .inr (.inl ⟨e, rfl⟩)
  | _ => simp [Run.goto, Run.emit] at h

theorem sent_when {sha1 : Bytes → Bytes} {t : Torrent} {s s' : Run} (st : Run.Step sha1 t s s')
    (h : s.loc = .unchokeSend ∧ s'.loc = .unchokeRead ∨ (∃ m, s.loc = .sendRequest m) ∧ s'.loc = .read) : ∃ m, s'.log = s.log ++ [.sent m] := by
  cases st with
  | uSent e => exact ⟨_, rfl⟩
  | requestSent e => exact ⟨_, rfl⟩
  | _ => simp_all [Run.goto, Run.emit]

/-! ## Steps with time -/

/-- How long the goroutine can stay at a point it has come to from another, apart from the scheduler's delay. -/
def stay (lim : Limits) (cancelled : Bool) (l l' : RunLoc) : Option Nat :=
  match l' with
  | .unchokeWait => some (if cancelled then 0 else 30 * second)
  | .pause => some (if cancelled then 0 else match l with | .ifRequest => 2 * second | _ => 100000000)
  | l' => l'.takes lim

/-- What a step of the goroutine does to the times. -/
structure Acts (lim : Limits) (sha1 : Bytes → Bytes) (t : Torrent) (s s' : TRun) : Prop where
  run : Run.Step sha1 t s.run s'.run
  now : s'.now = s.now
  due : s'.due = none
  leaves : ∀ x, stay lim s.run.cancelled s.run.loc s'.run.loc = some x → ∃ u, s'.until_ = some u ∧ s.now ≤ u ∧ u ≤ s.now + lim.delay + x
  writes : (s'.times = s.times ∧ s'.lastMsgSent = s.lastMsgSent ∧ ∀ m, s'.run.log ≠ s.run.log ++ [.sent m]) ∨
    (s'.times = s.times ++ [s.now] ∧ (s'.lastMsgSent = s.lastMsgSent ∨ s'.lastMsgSent = s.now) ∧ ∃ m, s'.run.log = s.run.log ++ [.sent m])
  keep : s.run.loc = .keepAlive → (s.due = some false ∧ s'.run.loc = .ifChoked) ∨
    (s.due = some true ∧ ((∃ m, s'.run.log = s.run.log ++ [.sent m]) ∨ s'.run.loc = .returned))

theorem cancelled_same {sha1 : Bytes → Bytes} {t : Torrent} {s s' : Run} (st : Run.Step sha1 t s s') : s'.cancelled = s.cancelled := by
  cases st with
  | uRead frame e => unfold Run.handle; simp only; split <;> rfl
  | read frame e => unfold Run.handle; simp only; split <;> rfl
  | _ => rfl

theorem arrive_leaves {lim : Limits} {s : TRun} {r : Run} {c : Bool} {l : RunLoc} (h1 : r.loc ≠ .unchokeWait) (h2 : r.loc ≠ .pause) :
    ∀ x, stay lim c l r.loc = some x → ∃ u, (s.arrive lim r).until_ = some u ∧ s.now ≤ u ∧ u ≤ s.now + lim.delay + x := by
  intro x hx
  have : stay lim c l r.loc = r.loc.takes lim := by
    unfold stay
    split
    · exact absurd ‹_› h1
    · exact absurd ‹_› h2
    · rfl
  rw [this] at hx
  exact ⟨s.now + lim.delay + x, by simp [TRun.arrive, hx], by omega, by omega⟩

theorem step_acts {lim : Limits} {sha1 : Bytes → Bytes} {t : Torrent} {s s' : TRun} (st : TRun.Step lim sha1 t s s') :
    (∃ d, s' = { s with now := s.now + d } ∧ ∀ u, s.until_ = some u → s.now + d ≤ u) ∨
    (s.run.loc = .keepAlive ∧ s.due = none ∧ s' = { s with
      due := some (keepAliveDue (s.now - s.lastMsgSent))
      until_ := some (s.now + lim.delay + if keepAliveDue (s.now - s.lastMsgSent) then peerTimeout else 0) }) ∨
    (∃ u', s' = { s with run := { s.run with cancelled := true }, until_ := u' } ∧
      (u' = s.until_ ∧ s.run.loc ≠ .unchokeWait ∧ s.run.loc ≠ .pause ∨
        (s.run.loc = .unchokeWait ∨ s.run.loc = .pause) ∧ u' = s.until_.map (min (s.now + lim.delay)))) ∨
    (∃ r, Run.Env s.run r ∧ r.loc = s.run.loc ∧ r.cancelled = s.run.cancelled ∧ r.peer = s.run.peer ∧ r.log = s.run.log ∧ s' = { s with run := r }) ∨
    Acts lim sha1 t s s' := by
  cases st with
  | tick d h => exact .inl ⟨d, rfl, h⟩
  | clock e h => exact .inr (.inl ⟨e, h, rfl⟩)
  | cancel =>
    refine .inr (.inr (.inl ⟨_, rfl, ?_⟩))
    cases e : s.run.loc <;> simp
  | @env r h hc =>
    have hh : r.loc = s.run.loc ∧ r.peer = s.run.peer ∧ r.log = s.run.log := by cases h <;> exact ⟨rfl, rfl, rfl⟩
    exact .inr (.inr (.inr (.inl ⟨r, h, hh.1, hc, hh.2.1, hh.2.2, rfl⟩)))
  | notDue e h =>
    refine .inr (.inr (.inr (.inr ⟨.notDue e, rfl, rfl, arrive_leaves (by simp [TRun.arrive, Run.goto]) (by simp [TRun.arrive, Run.goto]), .inl ⟨rfl, rfl, ?_⟩, ?_⟩)))
    · intro m; simp [TRun.arrive, Run.goto]
    · intro _; exact .inl ⟨h, rfl⟩
  | kept e h =>
    refine .inr (.inr (.inr (.inr ⟨.kept e, rfl, rfl, arrive_leaves (s := s.wrote) (by simp [TRun.arrive, Run.emit]) (by simp [TRun.arrive, Run.emit]),
      .inr ⟨rfl, .inr rfl, _, rfl⟩, ?_⟩)))
    intro _; exact .inr ⟨h, .inl ⟨_, rfl⟩⟩
  | keepFail e h =>
    refine .inr (.inr (.inr (.inr ⟨.keepFail e, rfl, rfl, arrive_leaves (by simp [TRun.arrive, Run.emit]) (by simp [TRun.arrive, Run.emit]), .inl ⟨rfl, rfl, ?_⟩, ?_⟩)))
    · intro m; simp [TRun.arrive, Run.emit]
    · intro _; exact .inr ⟨h, .inr rfl⟩
  | choked e h =>
    refine .inr (.inr (.inr (.inr ⟨.choked e h, rfl, rfl, arrive_leaves (by simp [TRun.arrive, Run.goto]) (by simp [TRun.arrive, Run.goto]), .inl ⟨rfl, rfl, ?_⟩, ?_⟩)))
    · intro m; simp [TRun.arrive, Run.goto]
    · rw [e]; intro h; cases h
  | @sent r m hl st hlog =>
    have hf := sent_from st hlog
    have hne : s.run.loc ≠ .keepAlive := by rcases hl with h | h <;> simp [h]
    refine .inr (.inr (.inr (.inr ⟨st, rfl, rfl, arrive_leaves (s := s.wrote) ?_ ?_, .inr ⟨rfl, .inl rfl, _, hlog⟩, fun h => absurd h hne⟩)))
    · rcases hf with h | h | h <;> simp [TRun.arrive, h.2]
    · rcases hf with h | h | h <;> simp [TRun.arrive, h.2]
  | @backOff r d st hl hb =>
    refine .inr (.inr (.inr (.inr ⟨st, rfl, rfl, ?_, .inl ⟨rfl, rfl, ?_⟩, ?_⟩)))
    · intro x hx
      refine ⟨_, rfl, by omega, ?_⟩
      simp only [TRun.waits, hl, stay, Option.some.injEq] at hx ⊢
      have := hb.2.2
      rw [cancelled_same st]
      split at hx <;> split <;> simp_all <;> omega
    · intro m h
      have hf := sent_from st h
      rw [hl] at hf
      simp at hf
    · intro h
      have hf := step_flows st
      simp [Flows, h, hl] at hf
  | @idle r e st hl =>
    refine .inr (.inr (.inr (.inr ⟨st, rfl, rfl, ?_, .inl ⟨rfl, rfl, ?_⟩, ?_⟩)))
    · intro x hx
      refine ⟨_, rfl, by omega, ?_⟩
      simp only [TRun.waits, hl, stay, e, Option.some.injEq] at hx ⊢
      rw [cancelled_same st]
      split at hx <;> split <;> simp_all <;> omega
    · intro m h
      have hf := sent_from st h
      rw [hl] at hf
      simp at hf
    · rw [e]; intro h; cases h
  | @pauses r e st hl =>
    refine .inr (.inr (.inr (.inr ⟨st, rfl, rfl, ?_, .inl ⟨rfl, rfl, ?_⟩, ?_⟩)))
    · intro x hx
      refine ⟨_, rfl, by omega, ?_⟩
      have hx2 : stay lim s.run.cancelled s.run.loc .pause = some (if s.run.cancelled then 0 else 100000000) := by
        cases hh : s.run.loc <;> first | rfl | exact absurd hh e
      simp only [TRun.waits, hl, hx2, Option.some.injEq] at hx ⊢
      rw [cancelled_same st]
      split at hx <;> split <;> simp_all <;> omega
    · intro m h
      have hf := sent_from st h
      rw [hl] at hf
      simp at hf
    · intro h
      have hf := step_flows st
      simp [Flows, h, hl] at hf
  | @wakes r e hw st hl =>
    have hf := step_flows st
    refine .inr (.inr (.inr (.inr ⟨st, rfl, rfl, arrive_leaves ?_ ?_, .inl ⟨rfl, rfl, ?_⟩, ?_⟩)))
    · rcases e with e | e <;> (simp only [Flows, e] at hf; rcases hf with h | h <;> simp [TRun.arrive, h])
    · rcases e with e | e <;> (simp only [Flows, e] at hf; rcases hf with h | h <;> simp [TRun.arrive, h])
    · intro m h
      have := sent_from st h
      rcases e with e | e <;> simp [e] at this
    · rcases e with e | e <;> simp [e]
  | @wakesCancelled r e st hl =>
    refine .inr (.inr (.inr (.inr ⟨st, rfl, rfl, arrive_leaves (by simp [TRun.arrive, hl]) (by simp [TRun.arrive, hl]), .inl ⟨rfl, rfl, ?_⟩, ?_⟩)))
    · intro m h
      have := sent_from st h
      rcases e with e | e <;> simp [e] at this
    · rcases e with e | e <;> simp [e]
  | @other r a1 a2 a3 a4 a5 a6 a7 st =>
    exact .inr (.inr (.inr (.inr ⟨st, rfl, rfl, arrive_leaves a4 a5, .inl ⟨rfl, rfl, a7⟩, fun h => absurd h a1⟩)))

/-! ## C108 -/

/-- `Run` has returned or panicked. -/
def Ended (s : Run) : Prop := s.loc = .returned ∨ s.loc = .panicked

/-- How long after the last message a point is left at the latest, if a message waits at most `w` for the writer and the scheduler is at
most `d` late. -/
def lag (w d : Nat) : RunLoc → Option Bool → Nat
  | .loopTop, _ => 116000000000 + w + 7 * d
  | .checkDone, _ => 116000000000 + w + 8 * d
  | .keepAlive, none => 116000000000 + w + 9 * d
  | .keepAlive, some true => 117000000000 + w + 10 * d
  | .keepAlive, some false => 114000000000 + d
  | .ifChoked, _ => 114000000000 + 2 * d
  | .unchokeTop, _ => 114000000000 + 3 * d
  | .unchokeSend, _ => 115000000000 + 4 * d
  | .unchokeRead, _ => 1000000000 + d
  | .unchokeWait, _ => 31000000000 + 2 * d
  | .ifRequest, _ => 114000000000 + 3 * d
  | .sendRequest _, _ => 115000000000 + 4 * d
  | .read, _ => 115000000000 + 4 * d
  | .requeue _, _ => 115000000000 + 5 * d
  | .pause, _ => 116000000000 + 6 * d
  | .deliver _ true, _ => 1000000000 + w + 2 * d
  | .deliver _ false, _ => 115000000000 + w + 5 * d
  | .returned, _ => 0
  | .panicked, _ => 0

theorem lag_le (w d : Nat) (l : RunLoc) (due : Option Bool) : lag w d l due ≤ 117000000000 + w + 10 * d := by
  cases l with
  | keepAlive =>
    cases due with
    | none => simp only [lag]; omega
    | some b => cases b <;> simp only [lag] <;> omega
  | deliver m b => cases b <;> simp only [lag] <;> omega
  | _ => simp only [lag]; omega

/-- The last message was sent at the time `base`. -/
def Fresh (lim : Limits) (w base : Nat) (s : TRun) : Prop :=
  s.lastMsgSent ≤ base ∧ base ≤ s.now ∧
    (Ended s.run ∨ ∃ u, s.until_ = some u ∧ s.now ≤ u ∧ u ≤ base + lag w lim.delay s.run.loc s.due)

theorem fresh_step {lim : Limits} {sha1 : Bytes → Bytes} {t : Torrent} {w base : Nat} {s s' : TRun} (hw : lim.writer = some w)
    (hw2 : w ≤ 100000000000) (hf : Fresh lim w base s) (st : TRun.Step lim sha1 t s s')
    (hi : s.run.loc = .unchokeSend → s'.run.loc ≠ .unchokeWait) :
    (s'.times = s.times ∧ Fresh lim w base s') ∨
    (s'.times = s.times ++ [s.now] ∧ s.now ≤ base + (117000000000 + w + 10 * lim.delay) ∧ Fresh lim w s.now s') := by
  obtain ⟨h1, h2, h3⟩ := hf
  rcases step_acts st with ⟨d, rfl, ht⟩ | ⟨e1, e2, rfl⟩ | ⟨u', rfl, hu⟩ | ⟨r, _, r1, r2, r3, r4, rfl⟩ | ac
  · refine .inl ⟨rfl, h1, ?_, ?_⟩
    · simp only; omega
    · rcases h3 with h3 | ⟨u, a, b, c⟩
      · exact .inl h3
      · exact .inr ⟨u, a, ht u a, c⟩
  · refine .inl ⟨rfl, h1, h2, .inr ?_⟩
    rcases h3 with h3 | ⟨u, a, b, c⟩
    · rcases h3 with h3 | h3 <;> rw [e1] at h3 <;> cases h3
    · refine ⟨_, rfl, by simp only; omega, ?_⟩
      simp only [e1, e2, lag] at c ⊢
      cases hk : keepAliveDue (s.now - s.lastMsgSent) with
      | true => simp only [peerTimeout, second, if_true, lag]; omega
      | false =>
        have : ¬ 114000000000 ≤ s.now - s.lastMsgSent := by rw [← keepAliveDue_iff, hk]; simp
        simp only [lag]
        simp only [Bool.false_eq_true, if_false]
        omega
  · refine .inl ⟨rfl, h1, h2, ?_⟩
    rcases h3 with h3 | ⟨u, a, b, c⟩
    · exact .inl h3
    · refine .inr ?_
      rcases hu with ⟨rfl, _⟩ | ⟨_, rfl⟩
      · exact ⟨u, a, b, c⟩
      · exact ⟨_, by simp only [a]; rfl, by simp only; omega, by simp only; omega⟩
  · refine .inl ⟨rfl, h1, h2, ?_⟩
    rcases h3 with h3 | h3
    · exact .inl (by unfold Ended at *; rw [r1]; exact h3)
    · exact .inr (by simp only [r1]; exact h3)
  · obtain ⟨run, anow, adue, leaves, writes, keep⟩ := ac
    have hfl := step_flows run
    rcases h3 with h3 | ⟨u, a, b, c⟩
    · rcases h3 with h3 | h3 <;> simp [Flows, h3] at hfl
    have key : ∀ base', s.now ≤ base' + lag w lim.delay s.run.loc s.due →
        ((∃ m, s'.run.log = s.run.log ++ [.sent m]) → base' = s.now) →
        (Ended s'.run ∨ ∃ u, s'.until_ = some u ∧ s'.now ≤ u ∧ u ≤ base' + lag w lim.delay s'.run.loc s'.due) := by
      intro base' hb hsent
      rw [anow, adue]
      have fin : ∀ x, stay lim s.run.cancelled s.run.loc s'.run.loc = some x → s.now + lim.delay + x ≤ base' + lag w lim.delay s'.run.loc none →
          (Ended s'.run ∨ ∃ u, s'.until_ = some u ∧ s.now ≤ u ∧ u ≤ base' + lag w lim.delay s'.run.loc none) := by
        intro x hx hle
        obtain ⟨v, v1, v2, v3⟩ := leaves x hx
        exact .inr ⟨v, v1, v2, by omega⟩
      cases hl : s.run.loc with
      | loopTop =>
        simp only [Flows, hl] at hfl
        rcases hfl with ⟨_, h⟩ | ⟨_, h⟩
        · exact .inl (.inl h)
        · refine fin 0 (by rw [h]; rfl) ?_
          simp only [h, hl, lag] at hb ⊢; omega
      | checkDone =>
        simp only [Flows, hl] at hfl
        rcases hfl with h | h
        · exact .inl (.inl h)
        · refine fin 0 (by rw [h]; rfl) ?_
          simp only [h, hl, lag] at hb ⊢; omega
      | keepAlive =>
        rcases keep hl with ⟨k1, k2⟩ | ⟨k1, k2 | k2⟩
        · refine fin 0 (by rw [k2]; rfl) ?_
          simp only [k1, k2, hl, lag] at hb ⊢; omega
        · have hb' := hsent k2
          simp only [Flows, hl] at hfl
          rcases hfl with h | h
          · refine fin 0 (by rw [h]; rfl) ?_
            simp only [h, lag]; omega
          · exact .inl (.inl h)
        · exact .inl (.inl k2)
      | ifChoked =>
        simp only [Flows, hl] at hfl
        rcases hfl with ⟨_, h⟩ | ⟨_, h⟩ <;>
        · refine fin 0 (by rw [h]; rfl) ?_
          simp only [h, hl, lag] at hb ⊢; omega
      | unchokeTop =>
        simp only [Flows, hl] at hfl
        rcases hfl with ⟨_, h⟩ | ⟨_, h⟩
        · exact .inl (.inl h)
        · refine fin peerTimeout (by rw [h]; rfl) ?_
          simp only [h, hl, lag, peerTimeout, second] at hb ⊢; omega
      | unchokeSend =>
        simp only [Flows, hl] at hfl
        rcases hfl with h | h
        · have hb' := hsent (sent_when run (.inl ⟨hl, h⟩))
          refine fin peerTimeout (by rw [h]; rfl) ?_
          simp only [h, lag, peerTimeout, second]; omega
        · exact absurd h (hi hl)
      | unchokeRead =>
        simp only [Flows, hl] at hfl
        rcases hfl with h | h | ⟨m, h⟩ | h
        · refine fin (if s.run.cancelled then 0 else 30 * second) (by rw [h]; rfl) ?_
          simp only [h, hl, lag, second] at hb ⊢
          split <;> omega
        · refine fin 0 (by rw [h]; rfl) ?_
          simp only [h, hl, lag] at hb ⊢; omega
        · refine fin w (by rw [h]; exact hw) ?_
          simp only [h, hl, lag] at hb ⊢; omega
        · exact .inl (.inr h)
      | unchokeWait =>
        simp only [Flows, hl] at hfl
        rcases hfl with h | ⟨_, h⟩
        · refine fin 0 (by rw [h]; rfl) ?_
          simp only [h, hl, lag] at hb ⊢; omega
        · exact .inl (.inl h)
      | ifRequest =>
        simp only [Flows, hl] at hfl
        rcases hfl with h | h | ⟨m, h⟩
        · refine fin peerTimeout (by rw [h]; rfl) ?_
          simp only [h, hl, lag, peerTimeout, second] at hb ⊢; omega
        · refine fin (if s.run.cancelled then 0 else 2 * second) (by rw [h, hl]; rfl) ?_
          simp only [h, hl, lag, second] at hb ⊢
          split <;> omega
        · refine fin peerTimeout (by rw [h]; rfl) ?_
          simp only [h, hl, lag, peerTimeout, second] at hb ⊢; omega
      | sendRequest m =>
        simp only [Flows, hl] at hfl
        rcases hfl with h | ⟨m', h⟩
        · have hb' := hsent (sent_when run (.inr ⟨⟨_, hl⟩, h⟩))
          refine fin peerTimeout (by rw [h]; rfl) ?_
          simp only [h, lag, peerTimeout, second]; omega
        · refine fin 0 (by rw [h]; rfl) ?_
          simp only [h, hl, lag] at hb ⊢; omega
      | requeue m =>
        simp only [Flows, hl] at hfl
        refine fin (if s.run.cancelled then 0 else 100000000) (by rw [hfl, hl]; rfl) ?_
        simp only [hfl, hl, lag] at hb ⊢
        split <;> omega
      | read =>
        simp only [Flows, hl] at hfl
        rcases hfl with ⟨m, h⟩ | h | h | ⟨m, h⟩ | h
        · refine fin 0 (by rw [h]; rfl) ?_
          simp only [h, hl, lag] at hb ⊢; omega
        · refine fin (if s.run.cancelled then 0 else 100000000) (by rw [h, hl]; rfl) ?_
          simp only [h, hl, lag] at hb ⊢
          split <;> omega
        · refine fin 0 (by rw [h]; rfl) ?_
          simp only [h, hl, lag] at hb ⊢; omega
        · refine fin w (by rw [h]; exact hw) ?_
          simp only [h, hl, lag] at hb ⊢; omega
        · exact .inl (.inr h)
      | pause =>
        simp only [Flows, hl] at hfl
        rcases hfl with h | ⟨_, h⟩
        · refine fin 0 (by rw [h]; rfl) ?_
          simp only [h, hl, lag] at hb ⊢; omega
        · exact .inl (.inl h)
      | deliver m b =>
        simp only [Flows, hl] at hfl
        rcases hfl with h | h
        · cases b
          · refine fin 0 (by rw [h]; rfl) ?_
            simp only [h, hl, lag] at hb ⊢; simp only [Bool.false_eq_true, if_false]; omega
          · refine fin 0 (by rw [h]; rfl) ?_
            simp only [h, hl, lag] at hb ⊢; simp only [if_true]; omega
        · exact .inl (.inr h)
      | returned => simp [Flows, hl] at hfl
      | panicked => simp [Flows, hl] at hfl
    rcases writes with ⟨w1, w2, w3⟩ | ⟨w1, w2, w3⟩
    · refine .inl ⟨w1, by rw [w2]; exact h1, by rw [anow]; exact h2, key base (by omega) (fun ⟨m, h⟩ => absurd h (w3 m))⟩
    · refine .inr ⟨w1, ?_, by rcases w2 with h | h <;> rw [h] <;> omega, by rw [anow]; exact Nat.le_refl _, key s.now (by omega) (fun _ => rfl)⟩
      have := lag_le w lim.delay s.run.loc s.due
      omega

theorem neverSilent_append {g : Nat} : ∀ {ts : List Nat} {b x : Nat}, NeverSilent g (ts ++ [b]) x → ∀ {now}, NeverSilent g (ts ++ [b, x]) now ↔ now ≤ x + g
  | [], b, x, h, now => by simp [NeverSilent] at h ⊢; intro _; exact h
  | [t], b, x, h, now => by simp [NeverSilent] at h ⊢; omega
  | t :: t' :: ts, b, x, h, now => by
    simp only [List.cons_append, NeverSilent] at h ⊢
    have := neverSilent_append (ts := t' :: ts) (b := b) (x := x) h.2 (now := now)
    simp only [List.cons_append] at this
    rw [this]
    simp [h.1]

theorem neverSilent_now {g : Nat} : ∀ {ts : List Nat} {b x : Nat}, NeverSilent g (ts ++ [b]) x → ∀ {now}, now ≤ b + g → NeverSilent g (ts ++ [b]) now
  | [], b, x, h, now, hn => hn
  | [t], b, x, h, now, hn => ⟨h.1, hn⟩
  | t :: t' :: ts, b, x, h, now, hn => by
    simp only [List.cons_append, NeverSilent] at h ⊢
    exact ⟨h.1, neverSilent_now (ts := t' :: ts) (x := x) h.2 hn⟩

theorem log_step {sha1 : Bytes → Bytes} {t : Torrent} {s s' : Run} (st : Run.Step sha1 t s s') : ∃ l, s'.log = s.log ++ l := by
  cases st with
  | uRead frame e => exact ⟨_, (handle_frame _ _ _ _ _).1⟩
  | read frame e => exact ⟨_, (handle_frame _ _ _ _ _).1⟩
  | next failed nxt e => exact ⟨_, rfl⟩
  | kept => exact ⟨_, rfl⟩
  | keepFail => exact ⟨_, rfl⟩
  | uSent => exact ⟨_, rfl⟩
  | uSendFail => exact ⟨_, rfl⟩
  | uReadFail => exact ⟨_, rfl⟩
  | requestSent => exact ⟨_, rfl⟩
  | requestFail => exact ⟨_, rfl⟩
  | requeued => exact ⟨_, rfl⟩
  | readFailWaiting => exact ⟨_, rfl⟩
  | readFail => exact ⟨_, rfl⟩
  | delivered => exact ⟨_, rfl⟩
  | _ => exact ⟨[], by simp [Run.goto]⟩

theorem log_timed {lim : Limits} {sha1 : Bytes → Bytes} {t : Torrent} {s s' : TRun} (st : TRun.Step lim sha1 t s s') :
    ∃ l, s'.run.log = s.run.log ++ l := by
  rcases step_acts st with ⟨d, rfl, _⟩ | ⟨_, _, rfl⟩ | ⟨u', rfl, _⟩ | ⟨r, _, _, _, _, r4, rfl⟩ | ac
  · exact ⟨[], by simp⟩
  · exact ⟨[], by simp⟩
  · exact ⟨[], by simp⟩
  · exact ⟨[], by simp [r4]⟩
  · exact log_step ac.run

/-- A failed attempt to send an interested message. -/
theorem unchoke_failed {sha1 : Bytes → Bytes} {t : Torrent} {s s' : Run} (st : Run.Step sha1 t s s') (h : s.loc = .unchokeSend)
    (h' : s'.loc = .unchokeWait) : .sendFailed interestedMessage ∈ s'.log := by
  cases st with
  | uSendFail e => simp [Run.emit]
  | uReadFail e => rw [e] at h; cases h
  | uRead frame e => rw [e] at h; cases h
  | read frame e => rw [e] at h; cases h
  | next failed nxt e => rw [e] at h; cases h
  | delivered e => rw [e] at h; cases h
  | _ => simp [Run.goto, Run.emit] at h'

/-- C108, the bound: as long as `Run` goes on and its interested messages can be sent, a message is sent at least every 117 seconds, longer
only by what a message waits for the writer and by ten delays of the scheduler. -/
theorem C108_bound_partial (lim : Limits) (w : Nat) (sha1 : Bytes → Bytes) (t : Torrent) (p : Peer) (lastMsgSent h now : Nat) (s : TRun)
    (hw : lim.writer = some w) (hw2 : w ≤ 100000000000) (h1 : lastMsgSent ≤ h) (h2 : h ≤ now) (h3 : now ≤ h + 114000000000)
    (he : TRun.Exec lim sha1 t (.start lim p lastMsgSent h now) s) (hi : .sendFailed interestedMessage ∉ s.run.log) (hn : ¬ Ended s.run) :
    NeverSilent (117000000000 + w + 10 * lim.delay) s.times s.now := by
  have key : ∃ pre base, s.times = pre ++ [base] ∧ NeverSilent (117000000000 + w + 10 * lim.delay) s.times base ∧ Fresh lim w base s := by
    clear hn
    induction he with
    | refl =>
      refine ⟨[], h, rfl, by simp [TRun.start, NeverSilent], h1, h2, .inr ⟨_, rfl, by simp [TRun.start], ?_⟩⟩
      simp only [TRun.start, Run.start, lag]
      omega
    | @step s s' _ st ih =>
      obtain ⟨l, hl⟩ := log_timed st
      obtain ⟨pre, base, a, b, c⟩ := ih (fun h => hi (by rw [hl]; simp [h]))
      have hi' : s.run.loc = .unchokeSend → s'.run.loc ≠ .unchokeWait := by
        intro x y
        rcases step_acts st with ⟨d, rfl, _⟩ | ⟨_, _, rfl⟩ | ⟨u', rfl, _⟩ | ⟨r, _, r1, _, _, _, rfl⟩ | ac
        · rw [x] at y; cases y
        · rw [x] at y; cases y
        · simp only at y; rw [x] at y; cases y
        · simp only at y; rw [r1, x] at y; cases y
        · exact hi (unchoke_failed ac.run x y)
      rcases fresh_step hw hw2 c st hi' with ⟨e1, e2⟩ | ⟨e1, e2, e3⟩
      · exact ⟨pre, base, by rw [e1, a], by rw [e1]; exact b, e2⟩
      · refine ⟨pre ++ [base], s.now, by rw [e1, a], ?_, e3⟩
        rw [e1, a, List.append_assoc]
        exact (neverSilent_append (neverSilent_now (a ▸ b) e2)).2 (by omega)
  obtain ⟨pre, base, a, b, c1, c2, c3⟩ := key
  rw [a] at b ⊢
  refine neverSilent_now b ?_
  rcases c3 with c3 | ⟨u, u1, u2, u3⟩
  · exact absurd c3 hn
  · have := lag_le w lim.delay s.run.loc s.due
    omega

/-- C108: a connection on which messages can be sent is never silent for two minutes, as long as what a message waits for the writer and ten
delays of the scheduler are three seconds together. Missing: a slower writer. -/
theorem C108_partial (lim : Limits) (w : Nat) (sha1 : Bytes → Bytes) (t : Torrent) (p : Peer) (lastMsgSent h now : Nat) (s : TRun)
    (hw : lim.writer = some w) (hd : w + 10 * lim.delay ≤ 3000000000) (h1 : lastMsgSent ≤ h) (h2 : h ≤ now) (h3 : now ≤ h + 114000000000)
    (he : TRun.Exec lim sha1 t (.start lim p lastMsgSent h now) s) (hi : .sendFailed interestedMessage ∉ s.run.log) (hn : ¬ Ended s.run) :
    NeverSilent twoMinutes s.times s.now := by
  have mono : ∀ {g g' : Nat} (ts : List Nat) (n : Nat), g ≤ g' → NeverSilent g ts n → NeverSilent g' ts n := by
    intro g g' ts n hg
    induction ts with
    | nil => intro _; trivial
    | cons a ts ih =>
      cases ts with
      | nil => intro hx; simp only [NeverSilent] at hx ⊢; omega
      | cons b ts => intro hx; exact ⟨Nat.le_trans hx.1 (by omega), ih hx.2⟩
  exact mono _ _ (by unfold twoMinutes; omega) (C108_bound_partial lim w sha1 t p lastMsgSent h now s hw (by omega) h1 h2 h3 he hi hn)

/-- Where the messages of `unchoke` are sent from. -/
theorem to_unchoke {lim : Limits} {sha1 : Bytes → Bytes} {t : Torrent} {p : Peer} (hc : p.clientChoked = true) :
    ∃ s, TRun.Exec lim sha1 t (.start lim p 0 0 0) s ∧ s.run = { Run.start p with loc := .unchokeTop } ∧ s.now = 0 ∧ s.times = [0] ∧
      s.until_ = some lim.delay ∧ s.lastMsgSent = 0 ∧ s.attempt = 0 := by
  have hk : keepAliveDue 0 = false := by decide +kernel
  have h1 : TRun.Exec lim sha1 t (.start lim p 0 0 0) _ := TRun.Exec.refl.step
    (.other (by simp [TRun.start, Run.start]) (by simp [TRun.start, Run.start]) (by simp [TRun.start, Run.start]) (by simp [Run.goto])
      (by simp [Run.goto]) (by simp [Run.goto]) (by simp [Run.goto]) (.ctxOk rfl rfl))
  have h2 := h1.step (.other (by simp [TRun.arrive, Run.goto]) (by simp [TRun.arrive, Run.goto]) (by simp [TRun.arrive, Run.goto])
      (by simp [Run.goto]) (by simp [Run.goto]) (by simp [Run.goto]) (by simp [Run.goto]) (.notDone rfl rfl))
  have h3 := h2.step (.clock rfl rfl)
  have h4 := h3.step (.notDue rfl (by simpa [TRun.arrive, TRun.start] using hk))
  have h5 := h4.step (.choked rfl hc)
  exact ⟨_, h5, rfl, rfl, rfl, by simp [TRun.arrive, RunLoc.takes, Run.goto, TRun.start], rfl, rfl⟩

/-- A new peer after the first interested message. -/
def askedRun : Run := { Run.start (newPeer tiny) with loc := .unchokeRead, log := [.sent interestedMessage] }

/-- A peer answers the first interested message with a piece; nothing bounds the time it waits for the writer. -/
theorem to_deliver (delay : Nat) :
    ∃ s m, TRun.Exec ⟨delay, none⟩ tinySha tiny (.start ⟨delay, none⟩ (newPeer tiny) 0 0 0) s ∧ s.run.loc = .deliver m true ∧
      s.run.log = [.sent interestedMessage, .received [7, 0, 0, 0, 0, 0, 0, 0, 0, 10, 20]] ∧ s.until_ = none ∧ s.now = 0 ∧ s.times = [0, 0] := by
  obtain ⟨s, h, e, en, et, _⟩ := to_unchoke (lim := ⟨delay, none⟩) (sha1 := tinySha) (t := tiny) (p := newPeer tiny) rfl
  have h1 := h.step (.other (by rw [e]; simp) (by rw [e]; simp) (by rw [e]; simp) (by simp [Run.goto]) (by simp [Run.goto]) (by simp [Run.goto])
    (by simp [Run.goto]) (.uCtxOk (by rw [e]) (by rw [e]; rfl)))
  have h2 := h1.step (.sent (m := interestedMessage) (.inl rfl) (.uSent rfl) rfl)
  have ex : ∃ s2, TRun.Exec ⟨delay, none⟩ tinySha tiny (.start ⟨delay, none⟩ (newPeer tiny) 0 0 0) s2 ∧ s2.run = askedRun ∧ s2.now = 0 ∧ s2.times = [0, 0] := by
    refine ⟨_, h2, ?_, en, ?_⟩
    · simp only [TRun.arrive, e]; rfl
    · simp only [TRun.arrive, TRun.wrote, et, en]; rfl
  obtain ⟨s2, k, k1, k2, k3⟩ := ex
  have hd : ∃ m, (askedRun.handle tinySha tiny [7, 0, 0, 0, 0, 0, 0, 0, 0, 10, 20] true).loc = .deliver m true := ⟨_, rfl⟩
  obtain ⟨m, hd⟩ := hd
  have hl := (handle_frame tinySha tiny askedRun [7, 0, 0, 0, 0, 0, 0, 0, 0, 10, 20] true).1
  have k4 := k.step (.other (r := askedRun.handle tinySha tiny [7, 0, 0, 0, 0, 0, 0, 0, 0, 10, 20] true)
    (by rw [k1]; simp [askedRun]) (by rw [k1]; simp [askedRun]) (by rw [k1]; simp [askedRun]) (by rw [hd]; simp) (by rw [hd]; simp) (by rw [hd]; simp)
    (by intro m; rw [hl, k1]; simp) (by rw [k1]; exact .uRead _ rfl))
  exact ⟨_, m, k4, hd, hl, by simp [TRun.arrive, hd, RunLoc.takes], k2, k3⟩

/-- C108 is false of the code: however long, a connection on which every message can be sent is silent if a verified piece waits for the
writer, because `handlePeerMessage` does not return before. -/
theorem C108_violated (delay g : Nat) :
    ∃ s, TRun.Exec ⟨delay, none⟩ tinySha tiny (.start ⟨delay, none⟩ (newPeer tiny) 0 0 0) s ∧ ¬ Ended s.run ∧
      (∀ m, .sendFailed m ∉ s.run.log) ∧ .readFailed ∉ s.run.log ∧ ¬ NeverSilent g s.times s.now := by
  obtain ⟨s, m, h, e1, e2, e3, e4, e5⟩ := to_deliver delay
  refine ⟨_, h.step (.tick (g + 1) (by intro u hu; rw [e3] at hu; cases hu)), ?_, ?_, ?_, ?_⟩
  · simp [Ended, e1]
  · intro m; simp [e2]
  · simp [e2]
  · simp [e4, e5, NeverSilent]

/-- A connection to an unchoked peer that says nothing: a keep-alive is sent after 114 seconds. -/
example : keepAliveDue 113999999999 = false ∧ keepAliveDue 114000000000 = true := by decide +kernel

/-! ## C56 with time -/

/-- How long the operation at a point lasts at most. -/
def most (w : Nat) (cancelled : Bool) : RunLoc → Option Bool → Nat
  | .keepAlive, some true => 1000000000
  | .unchokeSend, _ | .unchokeRead, _ | .sendRequest _, _ | .read, _ => 1000000000
  | .deliver _ _, _ => w
  | .unchokeWait, _ | .pause, _ => if cancelled then 0 else 30000000000
  | _, _ => 0

/-- Every point is left in time. -/
def Timely (lim : Limits) (w : Nat) (s : TRun) : Prop :=
  s.lastMsgSent ≤ s.now ∧
    (Ended s.run ∨ ∃ u, s.until_ = some u ∧ s.now ≤ u ∧ u ≤ s.now + lim.delay + most w s.run.cancelled s.run.loc s.due)

theorem stay_le {lim : Limits} {w : Nat} (hw : lim.writer = some w) (c : Bool) (l l' : RunLoc) (h : l' ≠ .returned) (h' : l' ≠ .panicked) :
    ∃ x, stay lim c l l' = some x ∧ x ≤ most w c l' none := by
  cases l' with
  | unchokeWait => exact ⟨_, rfl, by simp only [most, second]; split <;> omega⟩
  | pause =>
    refine ⟨_, rfl, ?_⟩
    simp only [most, second]
    split
    · omega
    · split <;> omega
  | deliver m b => exact ⟨w, hw, by simp [most]⟩
  | returned => exact absurd rfl h
  | panicked => exact absurd rfl h'
  | _ => exact ⟨_, rfl, by simp [most, peerTimeout, second]⟩

theorem timely_step {lim : Limits} {sha1 : Bytes → Bytes} {t : Torrent} {w : Nat} {s s' : TRun} (hw : lim.writer = some w)
    (hf : Timely lim w s) (st : TRun.Step lim sha1 t s s') : Timely lim w s' := by
  obtain ⟨h1, h3⟩ := hf
  rcases step_acts st with ⟨d, rfl, ht⟩ | ⟨e1, e2, rfl⟩ | ⟨u', rfl, hu⟩ | ⟨r, _, r1, r2, r3, r4, rfl⟩ | ac
  · refine ⟨by simp only; omega, ?_⟩
    rcases h3 with h3 | ⟨u, a, b, c⟩
    · exact .inl h3
    · exact .inr ⟨u, a, ht u a, by simp only; omega⟩
  · refine ⟨h1, .inr ⟨_, rfl, by simp only; omega, ?_⟩⟩
    simp only [e1]
    cases keepAliveDue (s.now - s.lastMsgSent) <;> simp [most, peerTimeout, second]
  · refine ⟨h1, ?_⟩
    rcases h3 with h3 | ⟨u, a, b, c⟩
    · exact .inl h3
    · refine .inr ?_
      rcases hu with ⟨rfl, n1, n2⟩ | ⟨hl, rfl⟩
      · refine ⟨u, a, b, ?_⟩
        simp only
        have : most w true s.run.loc s.due = most w s.run.cancelled s.run.loc s.due := by
          cases hh : s.run.loc <;> first | rfl | exact absurd hh n1 | exact absurd hh n2 | (cases s.due with | none => rfl | some b => cases b <;> rfl)
        omega
      · exact ⟨_, by simp only [a]; rfl, by simp only; omega, by simp only; omega⟩
  · refine ⟨h1, ?_⟩
    rcases h3 with h3 | h3
    · exact .inl (by unfold Ended at *; rw [r1]; exact h3)
    · exact .inr (by simp only [r1, r2]; exact h3)
  · obtain ⟨run, anow, adue, leaves, writes, keep⟩ := ac
    refine ⟨?_, ?_⟩
    · rcases writes with ⟨_, w2, _⟩ | ⟨_, w2, _⟩
      · omega
      · rcases w2 with w2 | w2 <;> omega
    · by_cases hr : s'.run.loc = .returned
      · exact .inl (.inl hr)
      by_cases hp : s'.run.loc = .panicked
      · exact .inl (.inr hp)
      obtain ⟨x, x1, x2⟩ := stay_le hw s.run.cancelled s.run.loc s'.run.loc hr hp
      obtain ⟨u, u1, u2, u3⟩ := leaves x x1
      rw [anow, adue, cancelled_same run]
      exact .inr ⟨u, u1, u2, by omega⟩

theorem timely_exec {lim : Limits} {sha1 : Bytes → Bytes} {t : Torrent} {w : Nat} {p : Peer} {l h now : Nat} {s : TRun} (hw : lim.writer = some w)
    (h1 : l ≤ now) (he : TRun.Exec lim sha1 t (.start lim p l h now) s) : Timely lim w s := by
  induction he with
  | refl => exact ⟨h1, .inr ⟨_, rfl, by simp [TRun.start], by simp [TRun.start]⟩⟩
  | step _ st ih => exact timely_step hw ih st

/-- How long `Run` goes on at most after it has left a point, once the context is cancelled. -/
def rest (w d : Nat) : RunLoc → Option Bool → Nat
  | .checkDone, _ => 3000000000 + w + 9 * d
  | .keepAlive, none => 3000000000 + w + 8 * d
  | .keepAlive, some _ => 2000000000 + w + 7 * d
  | .ifChoked, _ => 2000000000 + w + 6 * d
  | .unchokeSend, _ => 3000000000 + 2 * w + 8 * d
  | .unchokeRead, _ => 2000000000 + 2 * w + 7 * d
  | .unchokeWait, _ => d
  | .ifRequest, _ => 2000000000 + w + 5 * d
  | .sendRequest _, _ => 1000000000 + w + 4 * d
  | .read, _ => w + 3 * d
  | .requeue _, _ => 2 * d
  | .pause, _ => d
  | .deliver _ true, _ => 2000000000 + w + 6 * d
  | .deliver _ false, _ => d
  | _, _ => 0

theorem rest_step {lim : Limits} {sha1 : Bytes → Bytes} {t : Torrent} {w e : Nat} {s s' : TRun} (hw : lim.writer = some w)
    (hc : s.run.cancelled = true)
    (hf : Ended s.run ∨ ∃ u, s.until_ = some u ∧ s.now ≤ u ∧ u + rest w lim.delay s.run.loc s.due ≤ e) (st : TRun.Step lim sha1 t s s') :
    s'.run.cancelled = true ∧ (Ended s'.run ∨ ∃ u, s'.until_ = some u ∧ s'.now ≤ u ∧ u + rest w lim.delay s'.run.loc s'.due ≤ e) := by
  rcases step_acts st with ⟨d, rfl, ht⟩ | ⟨e1, e2, rfl⟩ | ⟨u', rfl, hu⟩ | ⟨r, _, r1, r2, r3, r4, rfl⟩ | ac
  · refine ⟨hc, ?_⟩
    rcases hf with h3 | ⟨u, a, b, c⟩
    · exact .inl h3
    · exact .inr ⟨u, a, ht u a, c⟩
  · refine ⟨hc, .inr ?_⟩
    rcases hf with h3 | ⟨u, a, b, c⟩
    · rcases h3 with h3 | h3 <;> rw [e1] at h3 <;> cases h3
    · refine ⟨_, rfl, by simp only; omega, ?_⟩
      simp only [e1, e2, rest, peerTimeout, second] at c ⊢
      split <;> omega
  · refine ⟨rfl, ?_⟩
    rcases hf with h3 | ⟨u, a, b, c⟩
    · exact .inl h3
    · refine .inr ?_
      rcases hu with ⟨rfl, _⟩ | ⟨_, rfl⟩
      · exact ⟨u, a, b, c⟩
      · exact ⟨_, by simp only [a]; rfl, by simp only; omega, by simp only; omega⟩
  · refine ⟨r2.trans hc, ?_⟩
    rcases hf with h3 | h3
    · exact .inl (by unfold Ended at *; rw [r1]; exact h3)
    · exact .inr (by simp only [r1]; exact h3)
  · obtain ⟨run, anow, adue, leaves, writes, keep⟩ := ac
    refine ⟨(cancelled_same run).trans hc, ?_⟩
    have hfl := step_flows run
    rcases hf with h3 | ⟨u, a, b, c⟩
    · rcases h3 with h3 | h3 <;> simp [Flows, h3] at hfl
    by_cases hr : s'.run.loc = .returned
    · exact .inl (.inl hr)
    by_cases hp : s'.run.loc = .panicked
    · exact .inl (.inr hp)
    obtain ⟨x, x1, x2⟩ := stay_le hw s.run.cancelled s.run.loc s'.run.loc hr hp
    obtain ⟨v, v1, v2, v3⟩ := leaves x x1
    refine .inr ⟨v, v1, by omega, ?_⟩
    rw [adue]
    have hk : lim.delay + most w true s'.run.loc none + rest w lim.delay s'.run.loc none ≤ rest w lim.delay s.run.loc s.due := by
      cases hl : s.run.loc with
      | keepAlive =>
        rcases keep hl with ⟨k1, k2⟩ | ⟨k1, k2 | k2⟩
        · simp only [k1, k2, most, rest]; omega
        · simp only [Flows, hl] at hfl
          rcases hfl with h | h
          · simp only [k1, h, most, rest]; omega
          · exact absurd h hr
        · exact absurd k2 hr
      | deliver m b =>
        simp only [Flows, hl] at hfl
        rcases hfl with h | h
        · cases b
          · rw [h]; simp [most, rest]
          · rw [h]; simp [most, rest]; omega
        · exact absurd h hp
      | returned => simp [Flows, hl] at hfl
      | panicked => simp [Flows, hl] at hfl
      | loopTop => simp only [Flows, hl, hc] at hfl; simp at hfl; exact absurd hfl hr
      | unchokeTop => simp only [Flows, hl, hc] at hfl; simp at hfl; exact absurd hfl hr
      | checkDone =>
        simp only [Flows, hl] at hfl
        rcases hfl with h | h
        · exact absurd h hr
        · simp only [h, most, rest]; omega
      | ifChoked =>
        simp only [Flows, hl] at hfl
        rcases hfl with ⟨_, h⟩ | ⟨_, h⟩ <;> (simp only [h, most, rest]; omega)
      | unchokeSend =>
        simp only [Flows, hl] at hfl
        rcases hfl with h | h
        · simp only [h, most, rest]; omega
        · simp only [h, most, rest, if_true]; omega
      | unchokeRead =>
        simp only [Flows, hl] at hfl
        rcases hfl with h | h | ⟨m, h⟩ | h
        · simp only [h, most, rest, if_true]; omega
        · simp only [h, most, rest]; omega
        · simp only [h, most, rest]; omega
        · exact absurd h hp
      | unchokeWait =>
        simp only [Flows, hl] at hfl
        rcases hfl with h | ⟨_, h⟩
        · simp only [h, most, rest]; omega
        · exact absurd h hr
      | ifRequest =>
        simp only [Flows, hl] at hfl
        rcases hfl with h | h | ⟨m, h⟩
        · simp only [h, most, rest]; omega
        · simp only [h, most, rest, if_true]; omega
        · simp only [h, most, rest]; omega
      | sendRequest m =>
        simp only [Flows, hl] at hfl
        rcases hfl with h | ⟨m', h⟩ <;> (simp only [h, most, rest]; omega)
      | requeue m =>
        simp only [Flows, hl] at hfl
        simp only [hfl, most, rest, if_true]; omega
      | read =>
        simp only [Flows, hl] at hfl
        rcases hfl with ⟨m, h⟩ | h | h | ⟨m, h⟩ | h
        · simp only [h, most, rest]; omega
        · simp only [h, most, rest, if_true]; omega
        · simp only [h, most, rest]; omega
        · simp only [h, most, rest]; omega
        · exact absurd h hp
      | pause =>
        simp only [Flows, hl] at hfl
        rcases hfl with h | ⟨_, h⟩
        · simp only [h, most, rest]; omega
        · exact absurd h hr
    rw [hc] at x2
    omega

/-- C56 with time: if a message waits at most `w` for the writer, `Run` has ended four seconds, twice `w` and ten delays of the scheduler
after the context was cancelled. Missing: without a bound on `w` there is none, see `C56_time_violated`. -/
theorem C56_time_partial (lim : Limits) (w : Nat) (sha1 : Bytes → Bytes) (t : Torrent) (p : Peer) (l h now : Nat) (s s' : TRun)
    (hw : lim.writer = some w) (h1 : l ≤ now) (he : TRun.Exec lim sha1 t (.start lim p l h now) s) (hc : s.run.cancelled = true)
    (he' : TRun.Exec lim sha1 t s s') (hn : ¬ Ended s'.run) : s'.now ≤ s.now + 4000000000 + 2 * w + 10 * lim.delay := by
  have key : s'.run.cancelled = true ∧ (Ended s'.run ∨ ∃ u, s'.until_ = some u ∧ s'.now ≤ u ∧
      u + rest w lim.delay s'.run.loc s'.due ≤ s.now + 4000000000 + 2 * w + 10 * lim.delay) := by
    clear hn
    induction he' with
    | refl =>
      refine ⟨hc, ?_⟩
      rcases (timely_exec hw h1 he).2 with h3 | ⟨u, a, b, c⟩
      · exact .inl h3
      · refine .inr ⟨u, a, b, ?_⟩
        have : most w s.run.cancelled s.run.loc s.due + rest w lim.delay s.run.loc s.due ≤ 4000000000 + 2 * w + 9 * lim.delay := by
          rw [hc]
          cases s.run.loc with
          | keepAlive =>
            cases s.due with
            | none => simp only [most, rest]; omega
            | some b => cases b <;> simp only [most, rest] <;> omega
          | deliver m b => cases b <;> simp only [most, rest] <;> omega
          | _ => simp only [most, rest, if_true]; omega
        omega
    | step _ st ih => exact rest_step hw ih.1 ih.2 st
  rcases key.2 with h3 | ⟨u, a, b, c⟩
  · exact absurd h3 hn
  · omega

/-- C56 is false of the code: while a piece waits for the writer, cancelling the context has no effect, however long. -/
theorem C56_time_violated (delay g : Nat) :
    ∃ s s', TRun.Exec ⟨delay, none⟩ tinySha tiny (.start ⟨delay, none⟩ (newPeer tiny) 0 0 0) s ∧ s.run.cancelled = true ∧
      TRun.Exec ⟨delay, none⟩ tinySha tiny s s' ∧ ¬ Ended s'.run ∧ s.now + g < s'.now := by
  obtain ⟨s, m, h, e1, e2, e3, e4, e5⟩ := to_deliver delay
  refine ⟨_, _, h.step .cancel, rfl, TRun.Exec.refl.step (.tick (g + 1) ?_), ?_, ?_⟩
  · intro u hu; simp [e1, e3] at hu
  · simp [Ended, e1]
  · simp only; omega

/-! ## C109 -/

theorem log_exec {lim : Limits} {sha1 : Bytes → Bytes} {t : Torrent} {s s' : TRun} (he : TRun.Exec lim sha1 t s s') :
    ∃ l, s'.run.log = s.run.log ++ l := by
  induction he with
  | refl => exact ⟨[], by simp⟩
  | step _ st ih =>
    obtain ⟨l, hl⟩ := ih
    obtain ⟨l', hl'⟩ := log_timed st
    exact ⟨l ++ l', by rw [hl', hl, List.append_assoc]⟩

/-- The points inside `unchoke`. -/
def InUnchoke : RunLoc → Prop
  | .unchokeTop | .unchokeSend | .unchokeRead | .unchokeWait | .deliver _ true => True
  | _ => False

/-- Something got through the connection. -/
def Alive (e : RunEv) : Prop := (∃ m, e = .sent m) ∨ ∃ f, e = .received f

theorem dead_step {sha1 : Bytes → Bytes} {t : Torrent} {s s' : Run} (st : Run.Step sha1 t s s') {l : List RunEv} (hl : s'.log = s.log ++ l)
    (hd : ∀ e ∈ l, ¬ Alive e) (hc : s.peer.clientChoked = false) (hu : ¬ InUnchoke s.loc) :
    s'.peer.clientChoked = false ∧ ¬ InUnchoke s'.loc := by
  have hx : ∀ e, s'.log = s.log ++ [e] → ¬ Alive e := by
    intro e he
    rw [he] at hl
    exact hd e (by rw [← List.append_cancel_left hl]; simp)
  cases st with
  | uRead f e => exact absurd (.inr ⟨f, rfl⟩) (hx _ (handle_frame _ _ _ _ _).1)
  | read f e => exact absurd (.inr ⟨f, rfl⟩) (hx _ (handle_frame _ _ _ _ _).1)
  | next failed nxt e a b c d =>
    refine ⟨?_, ?_⟩
    · have : (s.peer.nextRequestMessage failed nxt).2.1.clientChoked = s.peer.clientChoked := by
        unfold Peer.nextRequestMessage
        split
        · split
          · rfl
          · split <;> rfl
        · rfl
      exact this.trans hc
    · simp only
      split <;> simp [InUnchoke]
  | choked e h => rw [h] at hc; cases hc
  | @delivered m b e h =>
    refine ⟨hc, ?_⟩
    cases b
    · simp [Run.emit, InUnchoke]
    · rw [e] at hu; simp [InUnchoke] at hu
  | _ => exact ⟨hc, by simp_all [Run.goto, Run.emit, InUnchoke]⟩

/-- C109, if the peer has unchoked this client: once nothing gets through the connection any more, `Run` has ended within 117 seconds, the
time a message waits for the writer, and ten delays of the scheduler. Missing: a peer that chokes, see `C109_violated`. -/
theorem C109_partial (lim : Limits) (w : Nat) (sha1 : Bytes → Bytes) (t : Torrent) (p : Peer) (l h now : Nat) (s s' : TRun)
    (hw : lim.writer = some w) (hw2 : w ≤ 100000000000) (h1 : l ≤ now) (he : TRun.Exec lim sha1 t (.start lim p l h now) s)
    (hc : s.run.peer.clientChoked = false) (hu : ¬ InUnchoke s.run.loc) (he' : TRun.Exec lim sha1 t s s') (ev : List RunEv)
    (hl : s'.run.log = s.run.log ++ ev) (hd : ∀ e ∈ ev, ¬ Alive e) (hn : ¬ Ended s'.run) :
    s'.now ≤ s.now + 117000000000 + w + 10 * lim.delay := by
  have key : ∀ ev, s'.run.log = s.run.log ++ ev → (∀ e ∈ ev, ¬ Alive e) →
      s'.run.peer.clientChoked = false ∧ ¬ InUnchoke s'.run.loc ∧ Fresh lim w s.now s' := by
    clear hl hd hn ev
    induction he' with
    | refl =>
      intro ev hl hd
      refine ⟨hc, hu, ?_⟩
      obtain ⟨a, b⟩ := timely_exec hw h1 he
      refine ⟨a, Nat.le_refl _, ?_⟩
      rcases b with b | ⟨u, u1, u2, u3⟩
      · exact .inl b
      · by_cases hen : Ended s.run
        · exact .inl hen
        refine .inr ⟨u, u1, u2, ?_⟩
        have : lim.delay + most w s.run.cancelled s.run.loc s.due ≤ lag w lim.delay s.run.loc s.due := by
          cases hh : s.run.loc with
          | keepAlive =>
            cases s.due with
            | none => simp only [most, lag]; omega
            | some b => cases b <;> simp only [most, lag] <;> omega
          | deliver m b =>
            cases b
            · simp only [most, lag]; omega
            · rw [hh] at hu; simp [InUnchoke] at hu
          | unchokeTop => rw [hh] at hu; simp [InUnchoke] at hu
          | unchokeSend => rw [hh] at hu; simp [InUnchoke] at hu
          | unchokeRead => rw [hh] at hu; simp [InUnchoke] at hu
          | unchokeWait => rw [hh] at hu; simp [InUnchoke] at hu
          | returned => exact absurd (.inl hh) hen
          | panicked => exact absurd (.inr hh) hen
          | pause => simp only [most, lag]; split <;> omega
          | _ => simp only [most, lag]; omega
        omega
    | @step s2 s3 he2 st ih =>
      intro ev hl hd
      obtain ⟨l2, hl2⟩ := log_exec he2
      obtain ⟨l3, hl3⟩ := log_timed st
      have hev : ev = l2 ++ l3 := by
        rw [hl3, hl2, List.append_assoc] at hl
        exact (List.append_cancel_left hl).symm
      obtain ⟨a, b, c⟩ := ih l2 hl2 (fun e he => hd e (by rw [hev]; simp [he]))
      have hd3 : ∀ e ∈ l3, ¬ Alive e := fun e he => hd e (by rw [hev]; simp [he])
      have hns : s2.run.loc ≠ .unchokeSend := by intro hh; rw [hh] at b; simp [InUnchoke] at b
      have hnt : s3.times ≠ s2.times ++ [s2.now] := by
        intro ht
        rcases step_acts st with ⟨d, rfl, _⟩ | ⟨_, _, rfl⟩ | ⟨u', rfl, _⟩ | ⟨r, _, r1, _, _, _, rfl⟩ | ac
        · simp at ht
        · simp at ht
        · simp at ht
        · simp at ht
        · rcases ac.writes with ⟨w1, _⟩ | ⟨_, _, m, w3⟩
          · rw [w1] at ht; simp at ht
          · rw [hl3] at w3
            exact hd3 (.sent m) (by rw [List.append_cancel_left w3]; simp) (.inl ⟨m, rfl⟩)
      rcases fresh_step hw hw2 c st (fun hh => absurd hh hns) with ⟨_, f⟩ | ⟨f, _⟩
      · refine ⟨?_, ?_, f⟩
        · rcases step_acts st with ⟨d, rfl, _⟩ | ⟨_, _, rfl⟩ | ⟨u', rfl, _⟩ | ⟨r, _, r1, _, r3, _, rfl⟩ | ac
          · exact a
          · exact a
          · exact a
          · simp only [r3]; exact a
          · exact (dead_step ac.run hl3 hd3 a b).1
        · rcases step_acts st with ⟨d, rfl, _⟩ | ⟨_, _, rfl⟩ | ⟨u', rfl, _⟩ | ⟨r, _, r1, _, r3, _, rfl⟩ | ac
          · exact b
          · exact b
          · exact b
          · simp only [r1]; exact b
          · exact (dead_step ac.run hl3 hd3 a b).2
      · exact absurd f hnt
  obtain ⟨_, _, _, _, c3⟩ := key ev hl hd
  rcases c3 with c3 | ⟨u, u1, u2, u3⟩
  · exact absurd c3 hn
  · have := lag_le w lim.delay s'.run.loc s'.due
    omega

/-- An unchoked peer from which nothing can be read. -/
example : ∃ s, TRun.Exec ⟨0, some 0⟩ tinySha tiny (.start ⟨0, some 0⟩ { newPeer tiny with clientChoked := false } 0 0 0) s ∧
    s.run.log = [.readFailed] ∧ s.run.loc = .pause ∧ s.now = 100000000 := by
  have hk : keepAliveDue 0 = false := by decide +kernel
  have h1 : TRun.Exec ⟨0, some 0⟩ tinySha tiny (.start ⟨0, some 0⟩ { newPeer tiny with clientChoked := false } 0 0 0) _ := TRun.Exec.refl.step
    (.other (by simp [TRun.start, Run.start]) (by simp [TRun.start, Run.start]) (by simp [TRun.start, Run.start]) (by simp [Run.goto])
      (by simp [Run.goto]) (by simp [Run.goto]) (by simp [Run.goto]) (.ctxOk rfl rfl))
  have h2 := h1.step (.other (by simp [TRun.arrive, Run.goto]) (by simp [TRun.arrive, Run.goto]) (by simp [TRun.arrive, Run.goto])
      (by simp [Run.goto]) (by simp [Run.goto]) (by simp [Run.goto]) (by simp [Run.goto]) (.notDone rfl rfl))
  have h3 := h2.step (.clock rfl rfl)
  have h4 := h3.step (.notDue rfl (by simpa [TRun.arrive, TRun.start] using hk))
  have h5 := h4.step (.other (by simp [TRun.arrive, Run.goto]) (by simp [TRun.arrive, Run.goto]) (by simp [TRun.arrive, Run.goto])
      (by simp [Run.goto]) (by simp [Run.goto]) (by simp [Run.goto]) (by simp [Run.goto]) (.unchoked rfl rfl))
  have h6 := h5.step (.other (by simp [TRun.arrive, Run.goto]) (by simp [TRun.arrive, Run.goto]) (by simp [TRun.arrive, Run.goto])
      (by simp [Run.goto]) (by simp [Run.goto]) (by simp [Run.goto]) (by simp [Run.goto]) (.noRequest rfl (.inr (.inl rfl))))
  have h7 := h6.step (.pauses (by simp [TRun.arrive, Run.goto]) (.readFail rfl rfl) rfl)
  have h8 := h7.step (.tick 100000000 (by intro u hu; simp [TRun.waits, TRun.arrive, TRun.start, Run.goto, Run.emit, Run.start] at hu ⊢; omega))
  exact ⟨_, h8, rfl, rfl, rfl⟩

/-- C109 is false of the code: if the peer has not unchoked this client, nothing ends `Run` on a dead connection. -/
theorem C109_violated (lim : Limits) (sha1 : Bytes → Bytes) (t : Torrent) (p : Peer) (hc : p.clientChoked = true) (g : Nat) :
    ∃ s, TRun.Exec lim sha1 t (.start lim p 0 0 0) s ∧ ¬ Ended s.run ∧ (∀ e ∈ s.run.log, ¬ Alive e) ∧ g * 100000000 ≤ s.now := by
  have key : ∃ s, TRun.Exec lim sha1 t (.start lim p 0 0 0) s ∧ s.run.loc = .unchokeTop ∧ s.run.cancelled = false ∧ (∀ e ∈ s.run.log, ¬ Alive e) ∧
      g * 100000000 ≤ s.now := by
    induction g with
    | zero =>
      obtain ⟨s, h, e, en, et, _⟩ := to_unchoke (lim := lim) (sha1 := sha1) (t := t) (p := p) hc
      exact ⟨s, h, by rw [e], by rw [e]; rfl, by rw [e]; simp [Run.start], by omega⟩
    | succ g ih =>
      obtain ⟨s, h, e1, e2, e3, e4⟩ := ih
      have h1 := h.step (.other (by rw [e1]; simp) (by rw [e1]; simp) (by rw [e1]; simp) (by simp [Run.goto]) (by simp [Run.goto]) (by simp [Run.goto])
        (by simp [Run.goto]) (.uCtxOk e1 e2))
      have h2 := h1.step (.backOff (d := 100000000) (.uSendFail rfl) rfl ⟨by omega, Nat.le_mul_of_pos_right _ (Nat.pow_pos (by omega)), by decide⟩)
      have h3 := h2.step (.tick 100000000 (by
        intro u hu
        simp [TRun.waits, TRun.arrive, Run.emit, Run.goto, e2] at hu ⊢
        omega))
      have h4 := h3.step (.wakes (.inl rfl) (by simp [TRun.waits]) (.uWaited rfl) (by simp [Run.goto]))
      refine ⟨_, h4, rfl, e2, ?_, ?_⟩
      · intro e he
        simp only [TRun.arrive, TRun.waits, Run.goto, Run.emit, List.mem_append, List.mem_singleton] at he
        rcases he with he | rfl
        · exact e3 e he
        · simp [Alive]
      · show (g + 1) * 100000000 ≤ s.now + 100000000
        rw [Nat.succ_mul]; exact Nat.add_le_add_right e4 _
  obtain ⟨s, h, e1, _, e3, e4⟩ := key
  exact ⟨s, h, by simp [Ended, e1], e3, e4⟩

/-! ## The timed executions are executions of `Run`, and time can always go on -/

theorem timed_reachable {lim : Limits} {sha1 : Bytes → Bytes} {t : Torrent} {p : Peer} {l h now : Nat} {s : TRun}
    (he : TRun.Exec lim sha1 t (.start lim p l h now) s) : Run.Reachable sha1 t p s.run := by
  induction he with
  | refl => exact .start
  | step _ st ih =>
    rcases step_acts st with ⟨d, rfl, _⟩ | ⟨_, _, rfl⟩ | ⟨u', rfl, _⟩ | ⟨r, r0, _, _, _, _, rfl⟩ | ac
    · exact ih
    · exact ih
    · exact ih.env .cancel
    · exact ih.env r0
    · exact ih.step ac.run

/-- A `wait` that is not cancelled can last until its timer fires. -/
def Waitable (s : TRun) : Prop :=
  (s.run.loc = .unchokeWait ∨ s.run.loc = .pause) → s.run.cancelled = false → ∃ u, s.until_ = some u ∧ s.wake ≤ u

theorem waitable_step {lim : Limits} {sha1 : Bytes → Bytes} {t : Torrent} {s s' : TRun} (st : TRun.Step lim sha1 t s s') (h : Waitable s) :
    Waitable s' := by
  cases st with
  | tick d hd => exact h
  | clock e _ => intro hl; simp only at hl; rw [e] at hl; simp at hl
  | cancel => intro _ hc; cases hc
  | @env r hr hc =>
    intro hl hc'
    have : r.loc = s.run.loc := by cases hr <;> rfl
    simp only at hl hc'
    rw [this] at hl
    exact h hl (hc ▸ hc')
  | notDue e _ => intro hl; simp [TRun.arrive, Run.goto] at hl
  | kept e _ => intro hl; simp [TRun.arrive, Run.emit] at hl
  | keepFail e _ => intro hl; simp [TRun.arrive, Run.emit] at hl
  | choked e _ => intro hl; simp [TRun.arrive, Run.goto] at hl
  | @sent r m hl' st hlog =>
    intro hl
    rcases sent_from st hlog with h | h | h <;> simp [TRun.arrive, TRun.wrote, h.2] at hl
  | @backOff r d st hl' hb =>
    intro _ hc
    refine ⟨_, rfl, ?_⟩
    simp only [TRun.waits] at hc ⊢
    simp [hc]
  | @idle r e st hl' =>
    intro _ hc
    refine ⟨_, rfl, ?_⟩
    simp only [TRun.waits] at hc ⊢
    simp [hc]
  | @pauses r e st hl' =>
    intro _ hc
    refine ⟨_, rfl, ?_⟩
    simp only [TRun.waits] at hc ⊢
    simp [hc]
  | @wakes r e hw st hl' =>
    intro hl
    have hf := step_flows st
    rcases e with e | e <;> (simp only [Flows, e] at hf; rcases hf with h | h <;> simp [TRun.arrive, h] at hl)
  | @wakesCancelled r e st hl' => intro hl; simp [TRun.arrive, hl'] at hl
  | @other r a1 a2 a3 a4 a5 a6 a7 st =>
    intro hl
    rcases hl with hl | hl
    · exact absurd hl a4
    · exact absurd hl a5

/-- The limits never contradict each other: as long as `Run` has not ended, some time can pass after which it goes on. -/
theorem timed_progress {lim : Limits} {sha1 : Bytes → Bytes} {t : Torrent} {p : Peer} {l h now : Nat} {s : TRun}
    (he : TRun.Exec lim sha1 t (.start lim p l h now) s) (hn : ¬ Ended s.run) :
    ∃ d s', (∀ u, s.until_ = some u → s.now + d ≤ u ∨ d = 0) ∧ TRun.Step lim sha1 t { s with now := s.now + d } s' ∧
      (s'.run.loc, s'.due) ≠ (s.run.loc, s.due) := by
  have hw : Waitable s := by
    induction he with
    | refl => intro hl; simp [TRun.start, Run.start] at hl
    | step _ st ih =>
      refine waitable_step st (ih ?_)
      rintro (hx | hx)
      · rcases step_acts st with ⟨d, rfl, _⟩ | ⟨_, _, rfl⟩ | ⟨u', rfl, _⟩ | ⟨r, r0, r1, _, _, _, rfl⟩ | ac
        · exact hn (.inl hx)
        · exact hn (.inl hx)
        · exact hn (.inl hx)
        · exact hn (.inl (r1.trans hx))
        · have := step_flows ac.run; simp [Flows, hx] at this
      · rcases step_acts st with ⟨d, rfl, _⟩ | ⟨_, _, rfl⟩ | ⟨u', rfl, _⟩ | ⟨r, r0, r1, _, _, _, rfl⟩ | ac
        · exact hn (.inr hx)
        · exact hn (.inr hx)
        · exact hn (.inr hx)
        · exact hn (.inr (r1.trans hx))
        · have := step_flows ac.run; simp [Flows, hx] at this
  have other : ∀ r, s.run.loc ≠ .keepAlive → s.run.loc ≠ .unchokeWait → s.run.loc ≠ .pause → r.loc ≠ .unchokeWait → r.loc ≠ .pause →
      r.loc ≠ .unchokeTop → (∀ m, r.log ≠ s.run.log ++ [.sent m]) → Run.Step sha1 t s.run r → r.loc ≠ s.run.loc →
      ∃ d s', (∀ u, s.until_ = some u → s.now + d ≤ u ∨ d = 0) ∧ TRun.Step lim sha1 t { s with now := s.now + d } s' ∧
        (s'.run.loc, s'.due) ≠ (s.run.loc, s.due) := by
    intro r b1 b2 b3 b4 b5 b6 b7 st hne
    exact ⟨0, _, fun _ _ => .inr rfl, .other b1 b2 b3 b4 b5 b6 b7 st, by simp [TRun.arrive, hne]⟩
  have hloc : ∃ l, s.run.loc = l := ⟨_, rfl⟩
  obtain ⟨l, hl⟩ := hloc
  cases l with
  | loopTop =>
    cases hc : s.run.cancelled with
    | false =>
      exact other (s.run.goto .checkDone) (by simp [hl]) (by simp [hl]) (by simp [hl]) (by simp [Run.goto]) (by simp [Run.goto])
        (by simp [Run.goto]) (by simp [Run.goto]) (.ctxOk hl hc) (by simp [Run.goto, hl])
    | true =>
      exact other (s.run.goto .returned) (by simp [hl]) (by simp [hl]) (by simp [hl]) (by simp [Run.goto]) (by simp [Run.goto])
        (by simp [Run.goto]) (by simp [Run.goto]) (.ctxErr hl hc) (by simp [Run.goto, hl])
  | checkDone =>
    cases hc : s.run.done with
    | false =>
      exact other (s.run.goto .keepAlive) (by simp [hl]) (by simp [hl]) (by simp [hl]) (by simp [Run.goto]) (by simp [Run.goto])
        (by simp [Run.goto]) (by simp [Run.goto]) (.notDone hl hc) (by simp [Run.goto, hl])
    | true =>
      exact other (s.run.goto .returned) (by simp [hl]) (by simp [hl]) (by simp [hl]) (by simp [Run.goto]) (by simp [Run.goto])
        (by simp [Run.goto]) (by simp [Run.goto]) (.isDone hl hc) (by simp [Run.goto, hl])
  | keepAlive =>
    cases hd : s.due with
    | none => exact ⟨0, _, fun _ _ => .inr rfl, .clock hl rfl, by simp⟩
    | some b =>
      cases b with
      | false => exact ⟨0, _, fun _ _ => .inr rfl, .notDue hl rfl, by simp [TRun.arrive, Run.goto, hl]⟩
      | true => exact ⟨0, _, fun _ _ => .inr rfl, .keepFail hl rfl, by simp [TRun.arrive, Run.emit, hl]⟩
  | ifChoked =>
    cases hc : s.run.peer.clientChoked with
    | false =>
      exact other (s.run.goto .ifRequest) (by simp [hl]) (by simp [hl]) (by simp [hl]) (by simp [Run.goto]) (by simp [Run.goto])
        (by simp [Run.goto]) (by simp [Run.goto]) (.unchoked hl hc) (by simp [Run.goto, hl])
    | true => exact ⟨0, _, fun _ _ => .inr rfl, .choked hl hc, by simp [TRun.arrive, Run.goto, hl]⟩
  | unchokeTop =>
    cases hc : s.run.cancelled with
    | false =>
      exact other (s.run.goto .unchokeSend) (by simp [hl]) (by simp [hl]) (by simp [hl]) (by simp [Run.goto]) (by simp [Run.goto])
        (by simp [Run.goto]) (by simp [Run.goto]) (.uCtxOk hl hc) (by simp [Run.goto, hl])
    | true =>
      exact other (s.run.goto .returned) (by simp [hl]) (by simp [hl]) (by simp [hl]) (by simp [Run.goto]) (by simp [Run.goto])
        (by simp [Run.goto]) (by simp [Run.goto]) (.uCtxErr hl hc) (by simp [Run.goto, hl])
  | unchokeSend => exact ⟨0, _, fun _ _ => .inr rfl, .sent (.inl hl) (.uSent hl) rfl, by simp [TRun.arrive, Run.emit, hl]⟩
  | unchokeRead =>
    exact ⟨0, _, fun _ _ => .inr rfl, .backOff (d := 100000000) (.uReadFail hl) rfl
      ⟨Nat.le_refl _, Nat.le_mul_of_pos_right _ (Nat.pow_pos (by omega)), by decide⟩, by simp [TRun.waits, Run.emit, hl]⟩
  | unchokeWait =>
    cases hc : s.run.cancelled with
    | true => exact ⟨0, _, fun _ _ => .inr rfl, .wakesCancelled (.inl hl) (.uWaitCancel hl hc) rfl, by simp [TRun.arrive, Run.goto, hl]⟩
    | false =>
      obtain ⟨u, u1, u2⟩ := hw (.inl hl) hc
      refine ⟨s.wake - s.now, _, ?_, .wakes (.inl hl) ?_ (.uWaited hl) (by simp [Run.goto]), by simp [TRun.arrive, Run.goto, hl]⟩
      · intro u' hu; rw [u1] at hu; cases hu; omega
      · simp only; omega
  | ifRequest =>
    by_cases hx : s.run.peer.clientChoked = true ∨ s.run.peer.clientInterested = false ∨ s.run.sentPieceMsg = true
    · exact other (s.run.goto .read) (by simp [hl]) (by simp [hl]) (by simp [hl]) (by simp [Run.goto]) (by simp [Run.goto])
        (by simp [Run.goto]) (by simp [Run.goto]) (.noRequest hl hx) (by simp [Run.goto, hl])
    · have h1 : s.run.peer.clientChoked = false := by cases h : s.run.peer.clientChoked <;> simp_all
      have h2 : s.run.peer.clientInterested = true := by cases h : s.run.peer.clientInterested <;> simp_all
      have h3 : s.run.sentPieceMsg = false := by cases h : s.run.sentPieceMsg <;> simp_all
      have st : Run.Step sha1 t s.run _ := .next none none hl h1 h2 h3 (by simp)
      cases hm : (s.run.peer.nextRequestMessage none none).1 with
      | none => exact ⟨0, _, fun _ _ => .inr rfl, .idle hl st (by simp [hm]), by simp [TRun.waits, hm, hl]⟩
      | some m =>
        refine other _ (by simp [hl]) (by simp [hl]) (by simp [hl]) (by simp [hm]) (by simp [hm]) (by simp [hm]) ?_ st (by simp [hm, hl])
        intro m hlog
        rcases sent_from st hlog with h | h | h
        · rw [hl] at h; cases h.1
        · rw [hl] at h; cases h.1
        · obtain ⟨⟨m, h⟩, _⟩ := h; rw [hl] at h; cases h
  | sendRequest m => exact ⟨0, _, fun _ _ => .inr rfl, .sent (.inr hl) (.requestSent hl) rfl, by simp [TRun.arrive, Run.emit, hl]⟩
  | requeue m => exact ⟨0, _, fun _ _ => .inr rfl, .pauses (by simp [hl]) (.requeued hl) rfl, by simp [TRun.waits, Run.emit, hl]⟩
  | read =>
    cases hs : s.run.sentPieceMsg with
    | false => exact ⟨0, _, fun _ _ => .inr rfl, .pauses (by simp [hl]) (.readFail hl hs) rfl, by simp [TRun.waits, Run.emit, hl]⟩
    | true =>
      exact other { s.run.emit [.readFailed] (.requeue s.run.requestMsg) with sentPieceMsg := false } (by simp [hl]) (by simp [hl])
        (by simp [hl]) (by simp [Run.emit]) (by simp [Run.emit]) (by simp [Run.emit]) (by simp [Run.emit]) (.readFailWaiting hl hs) (by simp [Run.emit, hl])
  | pause =>
    cases hc : s.run.cancelled with
    | true => exact ⟨0, _, fun _ _ => .inr rfl, .wakesCancelled (.inr hl) (.waitCancel hl hc) rfl, by simp [TRun.arrive, Run.goto, hl]⟩
    | false =>
      obtain ⟨u, u1, u2⟩ := hw (.inr hl) hc
      refine ⟨s.wake - s.now, _, ?_, .wakes (.inr hl) ?_ (.waited hl) (by simp [Run.goto]), by simp [TRun.arrive, Run.goto, hl]⟩
      · intro u' hu; rw [u1] at hu; cases hu; omega
      · simp only; omega
  | deliver m b =>
    cases hc : s.run.closed with
    | true =>
      exact other (s.run.goto .panicked) (by simp [hl]) (by simp [hl]) (by simp [hl]) (by simp [Run.goto]) (by simp [Run.goto])
        (by simp [Run.goto]) (by simp [Run.goto]) (.deliverClosed hl hc) (by simp [Run.goto, hl])
    | false =>
      refine other _ (by simp [hl]) (by simp [hl]) (by simp [hl]) ?_ ?_ ?_ ?_ (.delivered hl hc) ?_
      all_goals cases b <;> simp [Run.emit, hl]
  | returned => exact absurd (.inl hl) hn
  | panicked => exact absurd (.inr hl) hn

/-! ## C108: keep-alives are not sent more often than needed -/

/-- A keep-alive is sent 114 seconds after the one before, or later. -/
theorem C108_spacing (lim : Limits) (sha1 : Bytes → Bytes) (t : Torrent) (s0 s1 s2 s3 : TRun) (h0 : s0.run.loc = .keepAlive)
    (st : TRun.Step lim sha1 t s0 s1) (hl : s1.run.log = s0.run.log ++ [.sent keepaliveMessage]) (he : TRun.Exec lim sha1 t s1 s2)
    (h2 : s2.run.loc = .keepAlive) (st' : TRun.Step lim sha1 t s2 s3) (hl' : s3.run.log = s2.run.log ++ [.sent keepaliveMessage]) :
    s1.now + 114000000000 ≤ s3.now := by
  have key : s1.now ≤ s2.now ∧ s1.now ≤ s2.lastMsgSent ∧ s2.lastMsgSent ≤ s2.now ∧ (s2.due = some true → s2.lastMsgSent + 114000000000 ≤ s2.now) := by
    clear h2 st' hl'
    induction he with
    | refl =>
      cases st with
      | kept e h => exact ⟨Nat.le_refl _, Nat.le_refl _, Nat.le_refl _, by intro hd; cases hd⟩
      | tick => simp at hl
      | clock => simp at hl
      | cancel => simp at hl
      | env h => cases h <;> simp at hl
      | sent hx => rw [h0] at hx; simp at hx
      | @backOff r d st hx => have hf := step_flows st; simp [Flows, h0, hx] at hf
      | idle hx => rw [h0] at hx; cases hx
      | pauses hx st hy => have hf := step_flows st; simp [Flows, h0, hy] at hf
      | wakes hx => rw [h0] at hx; simp at hx
      | wakesCancelled hx => rw [h0] at hx; simp at hx
      | other hx => exact absurd h0 hx
      | notDue => simp [TRun.arrive, Run.goto] at hl
      | keepFail => simp [TRun.arrive, Run.emit] at hl
      | choked hx => rw [h0] at hx; cases hx
    | @step s s' _ st2 ih =>
      obtain ⟨a, b, c, d⟩ := ih
      rcases step_acts st2 with ⟨x, rfl, _⟩ | ⟨_, _, rfl⟩ | ⟨u', rfl, _⟩ | ⟨r, r0, r1, _, _, _, rfl⟩ | ac
      · exact ⟨by simp only; omega, b, by simp only; omega, fun h => Nat.le_trans (d h) (by simp)⟩
      · refine ⟨a, b, c, fun h => ?_⟩
        simp only [Option.some.injEq] at h
        have := (keepAliveDue_iff _).1 h
        simp only
        omega
      · exact ⟨a, b, c, d⟩
      · exact ⟨a, b, c, d⟩
      · rw [ac.now, ac.due]
        refine ⟨a, ?_, ?_, by intro h; cases h⟩
        · rcases ac.writes with ⟨_, w, _⟩ | ⟨_, w | w, _⟩ <;> omega
        · rcases ac.writes with ⟨_, w, _⟩ | ⟨_, w | w, _⟩ <;> omega
  obtain ⟨a, b, c, d⟩ := key
  rcases step_acts st' with ⟨x, rfl, _⟩ | ⟨_, _, rfl⟩ | ⟨u', rfl, _⟩ | ⟨r, r0, r1, _, _, r4, rfl⟩ | ac
  · simp at hl'
  · simp at hl'
  · simp at hl'
  · simp [r4] at hl'
  · rw [ac.now]
    rcases ac.keep h2 with ⟨h, h'⟩ | ⟨h, _⟩
    · rcases ac.writes with ⟨_, _, w⟩ | ⟨w, _, _⟩
      · exact absurd hl' (w _)
      · cases st' with
        | notDue => simp [TRun.arrive, Run.goto] at hl'
        | kept _ hx => rw [h] at hx; cases hx
        | keepFail _ hx => rw [h] at hx; cases hx
        | tick => simp at hl'
        | clock => simp at hl'
        | cancel => simp at hl'
        | env h => cases h <;> simp at hl'
        | sent hx => rw [h2] at hx; simp at hx
        | @backOff r d st hx => have hf := step_flows st; simp [Flows, h2, hx] at hf
        | idle hx => rw [h2] at hx; cases hx
        | pauses hx st hy => have hf := step_flows st; simp [Flows, h2, hy] at hf
        | wakes hx => rw [h2] at hx; simp at hx
        | wakesCancelled hx => rw [h2] at hx; simp at hx
        | other hx => exact absurd h2 hx
        | choked hx => rw [h2] at hx; cases hx
    · have := d h; omega

/-! ## C110 -/

/-- Where a failed exchange leads. -/
theorem failed_from {sha1 : Bytes → Bytes} {t : Torrent} {s s' : Run} (st : Run.Step sha1 t s s') {e : RunEv}
    (h : s'.log = s.log ++ [e]) (hf : (∃ m, e = .sendFailed m) ∨ e = .readFailed) :
    s'.loc = .returned ∨ s'.loc = .unchokeWait ∨ (∃ m, s'.loc = .requeue m) ∨ (s.loc = .read ∧ s'.loc = .pause) := by
  cases st with
  | uRead frame e => rw [(handle_frame _ _ _ _ _).1] at h; simp at h; subst h; simp at hf
  | read frame e => rw [(handle_frame _ _ _ _ _).1] at h; simp at h; subst h; simp at hf
  | next failed nxt e' =>
    simp only [List.append_cancel_left_eq] at h
    have : e ∈ (s.peer.nextRequestMessage failed nxt).2.2.map .req := by rw [h]; simp
    simp only [List.mem_map] at this
    obtain ⟨x, _, rfl⟩ := this
    simp at hf
  | _ => simp [Run.goto, Run.emit] at h <;> (try subst h) <;> simp_all [Run.goto, Run.emit]

/-- An attempt to exchange something with the peer. -/
def Exchange (e : RunEv) : Prop := (∃ m, e = .sent m) ∨ (∃ m, e = .sendFailed m) ∨ (∃ f, e = .received f) ∨ e = .readFailed

/-- Nothing was exchanged since, and nothing will be before the time `b`. -/
def Resting (b : Nat) (n : Nat) (s : TRun) : Prop :=
  (∀ e ∈ s.run.log.drop n, ¬ Exchange e) ∧ n ≤ s.run.log.length ∧
    (Ended s.run ∨ (∃ m, s.run.loc = .requeue m) ∨ (s.run.loc = .unchokeWait ∨ s.run.loc = .pause) ∧ b ≤ s.wake)

theorem resting_step {lim : Limits} {sha1 : Bytes → Bytes} {t : Torrent} {a n : Nat} {s s' : TRun} (st : TRun.Step lim sha1 t s s')
    (ha : a ≤ s.now) (h : Resting (a + 100000000) n s) : a ≤ s'.now ∧ (Resting (a + 100000000) n s' ∨ a + 100000000 ≤ s'.now) := by
  obtain ⟨h1, hn, h2⟩ := h
  cases st with
  | tick d _ => exact ⟨by simp only; omega, .inl ⟨h1, hn, h2⟩⟩
  | clock e _ =>
    rcases h2 with (h2 | h2) | ⟨m, h2⟩ | ⟨h2 | h2, _⟩ <;> rw [e] at h2 <;> cases h2
  | cancel => exact ⟨ha, .inl ⟨h1, hn, h2⟩⟩
  | @env r hr _ =>
    have hh : r.loc = s.run.loc ∧ r.log = s.run.log := by cases hr <;> exact ⟨rfl, rfl⟩
    refine ⟨ha, .inl ⟨by simp only [hh.2]; exact h1, by simp only [hh.2]; exact hn, ?_⟩⟩
    simp only [Ended, hh.1]; exact h2
  | notDue e _ => rcases h2 with (h2 | h2) | ⟨m, h2⟩ | ⟨h2 | h2, _⟩ <;> rw [e] at h2 <;> cases h2
  | kept e _ => rcases h2 with (h2 | h2) | ⟨m, h2⟩ | ⟨h2 | h2, _⟩ <;> rw [e] at h2 <;> cases h2
  | keepFail e _ => rcases h2 with (h2 | h2) | ⟨m, h2⟩ | ⟨h2 | h2, _⟩ <;> rw [e] at h2 <;> cases h2
  | choked e _ => rcases h2 with (h2 | h2) | ⟨m, h2⟩ | ⟨h2 | h2, _⟩ <;> rw [e] at h2 <;> cases h2
  | @sent r m e st _ => rcases e with e | e <;> rcases h2 with (h2 | h2) | ⟨m, h2⟩ | ⟨h2 | h2, _⟩ <;> rw [e] at h2 <;> cases h2
  | @backOff r d st hl hb =>
    have hf := step_flows st
    rcases h2 with (h2 | h2) | ⟨m, h2⟩ | ⟨h2 | h2, _⟩ <;> simp [Flows, h2, hl] at hf
  | @idle r e st hl => rcases h2 with (h2 | h2) | ⟨m, h2⟩ | ⟨h2 | h2, _⟩ <;> rw [e] at h2 <;> cases h2
  | @pauses r e st hl =>
    have hf := step_flows st
    rcases h2 with (h2 | h2) | ⟨m, h2⟩ | ⟨h2 | h2, _⟩
    · simp [Flows, h2] at hf
    · simp [Flows, h2] at hf
    · have hlog : r.log = s.run.log ++ [.requeued m] := by
        cases st with
        | requeued e2 => rw [h2] at e2; cases e2; rfl
        | uRead f e2 => rw [h2] at e2; cases e2
        | read f e2 => rw [h2] at e2; cases e2
        | next f n e2 => rw [h2] at e2; cases e2
        | delivered e2 => rw [h2] at e2; cases e2
        | _ => simp_all
      refine ⟨ha, .inl ⟨?_, ?_, .inr (.inr ⟨.inr hl, ?_⟩)⟩⟩
      · simp only [TRun.waits, hlog, List.drop_append, List.mem_append]
        intro e he
        rcases he with he | he
        · exact h1 e he
        · have := List.mem_of_mem_drop he
          simp only [List.mem_singleton] at this
          subst this
          simp [Exchange]
      · simp only [TRun.waits, hlog, List.length_append]; omega
      · simp only [TRun.waits]; omega
    · simp [Flows, h2, hl] at hf
    · simp [Flows, h2, hl] at hf
  | @wakes r e hw st hl =>
    refine ⟨ha, .inr ?_⟩
    simp only [TRun.arrive]
    rcases h2 with (h2 | h2) | ⟨m, h2⟩ | ⟨_, h2⟩
    · rw [h2] at e; simp at e
    · rw [h2] at e; simp at e
    · rw [h2] at e; simp at e
    · omega
  | @wakesCancelled r e st hl =>
    have hlog : r.log = s.run.log := by
      cases st with
      | uRead f e2 => rw [e2] at e; simp at e
      | read f e2 => rw [e2] at e; simp at e
      | next f n e2 => rw [e2] at e; simp at e
      | _ => simp_all [Run.goto]
    exact ⟨ha, .inl ⟨by simp only [TRun.arrive, hlog]; exact h1, by simp only [TRun.arrive, hlog]; exact hn, .inl (.inl hl)⟩⟩
  | @other r a1 a2 a3 a4 a5 a6 a7 st =>
    have hf := step_flows st
    rcases h2 with (h2 | h2) | ⟨m, h2⟩ | ⟨h2 | h2, _⟩
    · simp [Flows, h2] at hf
    · simp [Flows, h2] at hf
    · simp [Flows, h2] at hf; exact absurd hf a5
    · exact absurd h2 a2
    · exact absurd h2 a3

/-- C110: after an exchange with the peer has failed, nothing is sent to the peer or read from it for a tenth of a second. -/
theorem C110_rest (lim : Limits) (sha1 : Bytes → Bytes) (t : Torrent) (s0 s1 s2 : TRun) (e : RunEv) (l : List RunEv)
    (st : TRun.Step lim sha1 t s0 s1) (hl : s1.run.log = s0.run.log ++ [e]) (hf : (∃ m, e = .sendFailed m) ∨ e = .readFailed)
    (he : TRun.Exec lim sha1 t s1 s2) (hl2 : s2.run.log = s1.run.log ++ l) (x : RunEv) (hx : x ∈ l) (hex : Exchange x) :
    s1.now + 100000000 ≤ s2.now := by
  have base : Resting (s1.now + 100000000) s1.run.log.length s1 := by
    refine ⟨by simp, Nat.le_refl _, ?_⟩
    cases st with
    | tick d _ => simp at hl
    | clock e _ => simp at hl
    | cancel => simp at hl
    | @env r hr _ => cases hr <;> simp at hl
    | notDue e _ => simp [TRun.arrive, Run.goto] at hl
    | kept e _ => simp [TRun.arrive, Run.emit] at hl; subst hl; simp at hf
    | keepFail e _ => exact .inl (.inl rfl)
    | choked e _ => simp [TRun.arrive, Run.goto] at hl
    | @sent r m _ st h =>
      simp only [TRun.arrive] at hl
      rw [h] at hl
      simp at hl; subst hl; simp at hf
    | @backOff r d st hl' hb => exact .inr (.inr ⟨.inl hl', by simp only [TRun.waits]; have := hb.1; omega⟩)
    | @idle r h st hl' =>
      rcases failed_from st hl hf with h2 | h2 | ⟨m, h2⟩ | ⟨h2, _⟩
      · rw [hl'] at h2; cases h2
      · rw [hl'] at h2; cases h2
      · rw [hl'] at h2; cases h2
      · rw [h] at h2; cases h2
    | @pauses r h st hl' => exact .inr (.inr ⟨.inr hl', by simp only [TRun.waits]; omega⟩)
    | @wakes r h hw st hl' =>
      have hf' := step_flows st
      rcases failed_from st hl hf with h2 | h2 | ⟨m, h2⟩ | ⟨h2, _⟩
      · exact absurd h2 hl'
      · rcases h with h | h <;> simp [Flows, h, h2] at hf'
      · rcases h with h | h <;> simp [Flows, h, h2] at hf'
      · rw [h2] at h; simp at h
    | @wakesCancelled r h st hl' => exact .inl (.inl hl')
    | @other r a1 a2 a3 a4 a5 a6 a7 st =>
      rcases failed_from st hl hf with h2 | h2 | ⟨m, h2⟩ | ⟨_, h2⟩
      · exact .inl (.inl h2)
      · exact absurd h2 a4
      · exact .inr (.inl ⟨m, h2⟩)
      · exact absurd h2 a5
  have key : s1.now ≤ s2.now ∧ (Resting (s1.now + 100000000) s1.run.log.length s2 ∨ s1.now + 100000000 ≤ s2.now) := by
    clear hl2
    induction he with
    | refl => exact ⟨Nat.le_refl _, .inl base⟩
    | @step s s' _ st' ih =>
      obtain ⟨a, b | b⟩ := ih
      · exact resting_step st' a b
      · have : s.now ≤ s'.now := by
          rcases step_acts st' with ⟨d, rfl, _⟩ | ⟨_, _, rfl⟩ | ⟨u', rfl, _⟩ | ⟨r, _, _, _, _, _, rfl⟩ | ac
          · simp
          · exact Nat.le_refl _
          · exact Nat.le_refl _
          · exact Nat.le_refl _
          · exact Nat.le_of_eq ac.now.symm
        exact ⟨by omega, .inr (by omega)⟩
  rcases key.2 with ⟨k, _, _⟩ | k
  · rw [hl2, List.drop_left] at k
    exact absurd hex (k x hx)
  · exact k

theorem failures_snoc (l : List RunEv) (e : RunEv) : failures (l ++ [e]) = failures l + failures [e] := by
  simp [failures]

/-- What holds in a call of `unchoke` in which nothing has been received yet. -/
def Asking (n : Nat) (s : TRun) : Prop :=
  n ≤ s.run.log.length ∧ (Ended s.run ∨ (s.run.loc = .unchokeTop ∨ s.run.loc = .unchokeSend ∨ s.run.loc = .unchokeRead ∨
      (s.run.loc = .unchokeWait ∧ ∃ k, s.attempt = k + 1 ∧ s.wake ≤ s.now + 100000000 * 2 ^ k ∧ s.wake ≤ s.now + 30000000000)) ∧
    s.attempt = failures (s.run.log.drop n))

theorem asking_step {lim : Limits} {sha1 : Bytes → Bytes} {t : Torrent} {n : Nat} {s s' : TRun} (st : TRun.Step lim sha1 t s s')
    (h : Asking n s) (hr : ∀ e ∈ s'.run.log.drop n, ∀ f, e ≠ .received f) : Asking n s' := by
  obtain ⟨hn, h2⟩ := h
  have no : ∀ {l : RunLoc}, s.run.loc = l → l ≠ .returned → l ≠ .panicked → l ≠ .unchokeTop → l ≠ .unchokeSend → l ≠ .unchokeRead →
      l ≠ .unchokeWait → False := by
    intro l e a1 a2 a3 a4 a5 a6
    subst e
    rcases h2 with (h2 | h2) | ⟨h2 | h2 | h2 | h2, _⟩
    · exact a1 h2
    · exact a2 h2
    · exact a3 h2
    · exact a4 h2
    · exact a5 h2
    · exact a6 h2.1
  cases st with
  | tick d _ =>
    refine ⟨hn, ?_⟩
    rcases h2 with h2 | ⟨h2, h3⟩
    · exact .inl h2
    · refine .inr ⟨?_, h3⟩
      rcases h2 with h2 | h2 | h2 | ⟨h2, k, k1, k2, k3⟩
      · exact .inl h2
      · exact .inr (.inl h2)
      · exact .inr (.inr (.inl h2))
      · exact .inr (.inr (.inr ⟨h2, k, k1, by simp only; omega, by simp only; omega⟩))
  | clock e _ => exact (no e (by simp) (by simp) (by simp) (by simp) (by simp) (by simp)).elim
  | cancel => exact ⟨hn, h2⟩
  | @env r he _ =>
    have hh : r.loc = s.run.loc ∧ r.log = s.run.log := by cases he <;> exact ⟨rfl, rfl⟩
    refine ⟨by simp only [hh.2]; exact hn, ?_⟩
    simp only [Ended, hh.1, hh.2]; exact h2
  | notDue e _ => exact (no e (by simp) (by simp) (by simp) (by simp) (by simp) (by simp)).elim
  | kept e _ => exact (no e (by simp) (by simp) (by simp) (by simp) (by simp) (by simp)).elim
  | keepFail e _ => exact (no e (by simp) (by simp) (by simp) (by simp) (by simp) (by simp)).elim
  | choked e _ => exact (no e (by simp) (by simp) (by simp) (by simp) (by simp) (by simp)).elim
  | @sent r m e st hlog =>
    rcases e with e | e
    · rcases sent_from st hlog with ⟨h, _⟩ | ⟨_, hl⟩ | ⟨⟨_, h⟩, _⟩
      · rw [e] at h; cases h
      · refine ⟨by simp only [TRun.arrive, hlog, List.length_append]; omega, ?_⟩
        rcases h2 with (h2 | h2) | ⟨_, h3⟩
        · rw [e] at h2; cases h2
        · rw [e] at h2; cases h2
        · refine .inr ⟨.inr (.inr (.inl hl)), ?_⟩
          simp only [TRun.arrive, TRun.wrote, hlog]
          rw [List.drop_append_of_le_length hn, failures_snoc]
          simpa [failures] using h3
      · rw [e] at h; cases h
    · exact (no e (by simp) (by simp) (by simp) (by simp) (by simp) (by simp)).elim
  | @backOff r d st hl hb =>
    have hlog : ∃ e, r.log = s.run.log ++ [e] ∧ failures [e] = 1 := by
      cases st with
      | uSendFail => exact ⟨_, rfl, rfl⟩
      | uReadFail => exact ⟨_, rfl, rfl⟩
      | uRead f e => rcases (handle_frame sha1 t s.run f true).2.2.2 with h | ⟨m, h⟩ | h <;> (rw [h] at hl; simp at hl)
      | read f e => rcases (handle_frame sha1 t s.run f false).2.2.2 with h | ⟨m, h⟩ | h <;> (rw [h] at hl; simp at hl)
      | next f n e => simp only at hl; split at hl <;> simp at hl
      | delivered e => simp [Run.emit] at hl; split at hl <;> simp at hl
      | _ => simp [Run.goto, Run.emit] at hl
    obtain ⟨e, hlog, hfe⟩ := hlog
    have hf := step_flows st
    refine ⟨by simp only [TRun.waits, hlog, List.length_append]; omega, ?_⟩
    rcases h2 with (h2 | h2) | ⟨_, h3⟩
    · simp [Flows, h2] at hf
    · simp [Flows, h2] at hf
    · refine .inr ⟨.inr (.inr (.inr ⟨hl, s.attempt, rfl, ?_, ?_⟩)), ?_⟩
      · have := hb.2.1; simp only [TRun.waits]; omega
      · have := hb.2.2; simp only [TRun.waits]; simp only [second] at this; omega
      · simp only [TRun.waits, hlog]
        rw [List.drop_append_of_le_length hn, failures_snoc, hfe, h3]
  | @idle r e st hl => exact (no e (by simp) (by simp) (by simp) (by simp) (by simp) (by simp)).elim
  | @pauses r e st hl =>
    have hf := step_flows st
    rcases h2 with (h2 | h2) | ⟨h2 | h2 | h2 | h2, _⟩
    · simp [Flows, h2] at hf
    · simp [Flows, h2] at hf
    · simp [Flows, h2, hl] at hf
    · simp [Flows, h2, hl] at hf
    · simp [Flows, h2, hl] at hf
    · simp [Flows, h2.1, hl] at hf
  | @wakes r e hw st hl =>
    rcases e with e | e
    · have hlog : r.log = s.run.log ∧ r.loc = .unchokeTop := by
        cases st with
        | uRead f e2 => rw [e2] at e; simp at e
        | read f e2 => rw [e2] at e; simp at e
        | next f n e2 => rw [e2] at e; simp at e
        | _ => simp_all [Run.goto]
      refine ⟨by simp only [TRun.arrive, hlog.1]; exact hn, ?_⟩
      rcases h2 with (h2 | h2) | ⟨_, h3⟩
      · rw [e] at h2; cases h2
      · rw [e] at h2; cases h2
      · exact .inr ⟨.inl hlog.2, by simp only [TRun.arrive, hlog.1]; exact h3⟩
    · exact (no e (by simp) (by simp) (by simp) (by simp) (by simp) (by simp)).elim
  | @wakesCancelled r e st hl =>
    obtain ⟨l, hlog⟩ := log_step st
    exact ⟨by simp only [TRun.arrive, hlog, List.length_append]; omega, .inl (.inl hl)⟩
  | @other r a1 a2 a3 a4 a5 a6 a7 st =>
    obtain ⟨l, hlog⟩ := log_step st
    refine ⟨by simp only [TRun.arrive, hlog, List.length_append]; omega, ?_⟩
    have hf := step_flows st
    rcases h2 with (h2 | h2) | ⟨h2 | h2 | h2 | h2, h3⟩
    · simp [Flows, h2] at hf
    · simp [Flows, h2] at hf
    · simp only [Flows, h2] at hf
      rcases hf with ⟨_, hf⟩ | ⟨_, hf⟩
      · exact .inl (.inl hf)
      · have hlog' : r.log = s.run.log := by
          cases st with
          | uRead f e2 => rw [h2] at e2; cases e2
          | read f e2 => rw [h2] at e2; cases e2
          | next f n e2 => rw [h2] at e2; cases e2
          | _ => simp_all [Run.goto]
        exact .inr ⟨.inr (.inl hf), by simp only [TRun.arrive, hlog']; exact h3⟩
    · simp only [Flows, h2] at hf
      rcases hf with hf | hf
      · obtain ⟨m, hm⟩ := sent_when st (.inl ⟨h2, hf⟩)
        exact absurd hm (a7 m)
      · exact absurd hf a4
    · exfalso
      cases st with
      | uRead f e2 =>
        have hlog' := (handle_frame sha1 t s.run f true).1
        refine hr (.received f) ?_ f rfl
        simp only [TRun.arrive, hlog']
        rw [List.drop_append_of_le_length hn]
        simp
      | read f e2 => rw [h2] at e2; cases e2
      | next f n e2 => rw [h2] at e2; cases e2
      | _ => simp_all [Run.goto, Run.emit]
    · exact absurd h2.1 a2

/-- C110, the other side: in one call of `unchoke` the wait after the `k`-th failure lasts at most 100 ms doubled `k - 1` times, and at most
30 seconds. -/
theorem C110_growth (lim : Limits) (sha1 : Bytes → Bytes) (t : Torrent) (s0 s1 s2 : TRun) (l : List RunEv)
    (h0 : s0.run.loc = .ifChoked) (st : TRun.Step lim sha1 t s0 s1) (h1 : s1.run.loc = .unchokeTop) (he : TRun.Exec lim sha1 t s1 s2)
    (hl : s2.run.log = s1.run.log ++ l) (hr : ∀ f, .received f ∉ l) (h2 : s2.run.loc = .unchokeWait) :
    ∃ k, failures l = k + 1 ∧ s2.wake ≤ s2.now + 100000000 * 2 ^ k ∧ s2.wake ≤ s2.now + 30000000000 := by
  have base : Asking s1.run.log.length s1 := by
    refine ⟨Nat.le_refl _, .inr ⟨.inl h1, ?_⟩⟩
    cases st with
    | tick => simp only at h1; rw [h0] at h1; cases h1
    | clock e => rw [h0] at e; cases e
    | cancel => simp only at h1; rw [h0] at h1; cases h1
    | @env r hr _ =>
      have hh : r.loc = s0.run.loc := by cases hr <;> rfl
      simp only at h1; rw [hh, h0] at h1; cases h1
    | notDue e => rw [h0] at e; cases e
    | kept e => rw [h0] at e; cases e
    | keepFail e => rw [h0] at e; cases e
    | choked e => simp [failures, TRun.arrive]
    | sent e => rw [h0] at e; simp at e
    | backOff st hl' => simp only [TRun.waits] at h1; rw [hl'] at h1; cases h1
    | idle e => rw [h0] at e; cases e
    | pauses e st hl' => simp only [TRun.waits] at h1; rw [hl'] at h1; cases h1
    | wakes e => rw [h0] at e; simp at e
    | wakesCancelled e => rw [h0] at e; simp at e
    | other a1 a2 a3 a4 a5 a6 => exact absurd h1 a6
  have key : ∀ l, s2.run.log = s1.run.log ++ l → (∀ f, .received f ∉ l) → Asking s1.run.log.length s2 := by
    clear hl hr h2 l
    induction he with
    | refl => intro _ _ _; exact base
    | @step s s' he st' ih =>
      intro l hl hr
      obtain ⟨l1, hl1⟩ := log_exec he
      obtain ⟨l2, hl2⟩ := log_timed st'
      have : l = l1 ++ l2 := by
        rw [hl2, hl1, List.append_assoc] at hl
        exact (List.append_cancel_left hl).symm
      refine asking_step st' (ih l1 hl1 (fun f hf => hr f (by rw [this]; simp [hf]))) ?_
      rw [hl, List.drop_left]
      intro e he f hef
      exact hr f (hef ▸ he)
  obtain ⟨_, k | ⟨k, k'⟩⟩ := key l hl hr
  · rcases k with k | k <;> (rw [h2] at k; cases k)
  · rw [hl, List.drop_left] at k'
    rcases k with k | k | k | ⟨_, k, k1, k2, k3⟩
    · rw [h2] at k; cases k
    · rw [h2] at k; cases k
    · rw [h2] at k; cases k
    · exact ⟨k, by omega, k2, k3⟩

/-- Every wait within these bounds can happen. -/
theorem C110_growth_sharp (lim : Limits) (sha1 : Bytes → Bytes) (t : Torrent) (p : Peer) (hc : p.clientChoked = true) (k d : Nat)
    (h1 : 100000000 ≤ d) (h2 : d ≤ 100000000 * 2 ^ k) (h3 : d ≤ 30000000000) :
    ∃ s, TRun.Exec lim sha1 t (.start lim p 0 0 0) s ∧ s.run.loc = .unchokeWait ∧ failures s.run.log = k + 1 ∧ s.wake = s.now + d := by
  have key : ∀ k, ∃ s, TRun.Exec lim sha1 t (.start lim p 0 0 0) s ∧ s.run.loc = .unchokeSend ∧ s.run.cancelled = false ∧
      failures s.run.log = k ∧ s.attempt = k := by
    intro k
    induction k with
    | zero =>
      obtain ⟨s, h, e, en, et, _, _, ea⟩ := to_unchoke (lim := lim) (sha1 := sha1) (t := t) (p := p) hc
      have h1 := h.step (.other (by rw [e]; simp) (by rw [e]; simp) (by rw [e]; simp) (by simp [Run.goto]) (by simp [Run.goto])
        (by simp [Run.goto]) (by simp [Run.goto]) (.uCtxOk (by rw [e]) (by rw [e]; rfl)))
      exact ⟨_, h1, rfl, by simp only [TRun.arrive, Run.goto]; rw [e]; rfl, by simp only [TRun.arrive, Run.goto]; rw [e]; rfl, ea⟩
    | succ k ih =>
      obtain ⟨s, h, e1, e2, e3, e4⟩ := ih
      have h2 := h.step (.backOff (d := 100000000) (.uSendFail e1) rfl ⟨by omega, Nat.le_mul_of_pos_right _ (Nat.pow_pos (by omega)), by decide⟩)
      have h3 := h2.step (.tick 100000000 (by
        intro u hu
        simp [TRun.waits, Run.emit, e2] at hu ⊢
        omega))
      have h4 := h3.step (.wakes (.inl rfl) (by simp [TRun.waits]) (.uWaited rfl) (by simp [Run.goto]))
      have h5 := h4.step (.other (by simp [TRun.arrive, Run.goto]) (by simp [TRun.arrive, Run.goto]) (by simp [TRun.arrive, Run.goto])
        (by simp [Run.goto]) (by simp [Run.goto]) (by simp [Run.goto]) (by simp [Run.goto]) (.uCtxOk rfl e2))
      refine ⟨_, h5, rfl, e2, ?_, ?_⟩
      · show failures (s.run.log ++ [.sendFailed interestedMessage]) = k + 1
        rw [failures_snoc, e3]; rfl
      · show s.attempt + 1 = k + 1
        rw [e4]
  obtain ⟨s, h, e1, e2, e3, e4⟩ := key k
  have h' := h.step (.backOff (d := d) (.uSendFail e1) rfl ⟨h1, by rw [e4]; exact h2, h3⟩)
  refine ⟨_, h', rfl, ?_, rfl⟩
  show failures (s.run.log ++ [.sendFailed interestedMessage]) = k + 1
  rw [failures_snoc, e3]; rfl

/-- An interested message that cannot be sent, and the next one a tenth of a second later. -/
example : ∃ s0 s1 s2, TRun.Step ⟨0, none⟩ tinySha tiny s0 s1 ∧ s1.run.log = s0.run.log ++ [.sendFailed interestedMessage] ∧
    TRun.Exec ⟨0, none⟩ tinySha tiny s1 s2 ∧ s2.run.log = s1.run.log ++ [.sendFailed interestedMessage] ∧ s2.now = s1.now + 100000000 := by
  refine ⟨⟨{ Run.start (newPeer tiny) with loc := .unchokeSend }, 0, some 0, 0, 0, none, 0, [0]⟩, _, _,
    .backOff (d := 100000000) (.uSendFail rfl) rfl (by unfold backoffRange; decide), rfl,
    (((TRun.Exec.refl.step (.tick 100000000 ?_)).step (.wakes (.inl rfl) ?_ (.uWaited rfl) ?_)).step
      (.other ?_ ?_ ?_ ?_ ?_ ?_ ?_ (.uCtxOk rfl rfl))).step (.backOff (d := 100000000) (.uSendFail rfl) rfl (by unfold backoffRange; decide)), rfl, rfl⟩
  · intro u hu; simp [TRun.waits, Run.emit, Run.start] at hu ⊢; omega
  · simp [TRun.waits]
  all_goals simp [TRun.arrive, Run.goto]

end Gotit.Props
