import Verif.Model.TimedNet
import Verif.Spec.TimedNet
import Verif.Lemmas.BE
/-
  C116, C117: reads and their deadlines.
-/
namespace Gotit.Props
open Gotit Spec

/-! ## C116 -/

theorem timedReadFull_time (k : Kind) (D : Nat) : ∀ (evs : List (Nat × Ev)) (n now : Nat),
    now ≤ (timedReadFull k D n evs now).2.2 ∧ (timedReadFull k D n evs now).2.2 ≤ max now D
  | [], 0, now => by simp only [timedReadFull]; omega
  | [], n + 1, now => by simp only [timedReadFull]; omega
  | _ :: _, 0, now => by simp only [timedReadFull]; omega
  | (t, e) :: evs, n + 1, now => by
    rw [timedReadFull.eq_def]
    simp only
    split
    · cases e with
      | data d =>
        simp only
        split
        · simp only; omega
        · have := timedReadFull_time k D evs (n + 1 - d.length) (max t now)
          split
          · rename_i h; rw [h] at this; simp only at this ⊢; omega
          · omega
      | _ => simp only; omega
    · simp only; omega

theorem timedReadAllFrom_time (D : Nat) : ∀ (evs : List (Nat × Ev)) (acc : Bytes) (now : Nat),
    now ≤ (timedReadAllFrom D acc evs now).2.2 ∧ (timedReadAllFrom D acc evs now).2.2 ≤ max now D
  | [], acc, now => by simp only [timedReadAllFrom]; omega
  | (t, e) :: evs, acc, now => by
    rw [timedReadAllFrom.eq_def]
    simp only
    split
    · cases e with
      | data d =>
        have := timedReadAllFrom_time D evs (acc ++ d) (max t now)
        simp only at this ⊢; omega
      | _ => simp only; omega
    · simp only; omega

/-- C116: however the bytes arrive, singly and with whatever pauses, reading a message of a peer takes at most one second. -/
theorem C116_message (evs : List (Nat × Ev)) (now : Nat) : (timedReadPeerMessage evs now).2.2 ≤ now + 1000000000 := by
  unfold timedReadPeerMessage
  have h1 := timedReadFull_time .stream (now + peerLimit) evs 4 now
  split
  · rename_i hdr evs' now' h
    rw [h] at h1
    have h2 := timedReadFull_time .stream (now + peerLimit) evs' (getBE hdr) now'
    simp only [peerLimit] at h1 h2 ⊢; omega
  · simp only [peerLimit] at h1 ⊢; omega

/-- C116: so does the handshake of a peer, and reading from a tracker takes at most half a second. -/
theorem C116_others (evs : List (Nat × Ev)) (now : Nat) :
    (timedReadPeerHandshake evs now).2.2 ≤ now + 1000000000 ∧ (timedReadUdpHandshake evs now).2.2 ≤ now + 500000000 ∧
      (timedReadAll evs now).2.2 ≤ now + 500000000 := by
  have h1 := timedReadFull_time .stream (now + peerLimit) evs 68 now
  have h2 := timedReadFull_time .dgram (now + trackerLimit) evs 16 now
  have h3 := timedReadAllFrom_time (now + trackerLimit) evs [] now
  simp only [timedReadPeerHandshake, timedReadUdpHandshake, timedReadAll, peerLimit, trackerLimit] at *
  omega

/-! ## The model without clock times -/

/-- What the socket does, without times: the deadline passes before the first thing that comes too late. -/
def withoutTimes (D : Nat) : List (Nat × Ev) → List Ev
  | [] => []
  | (t, e) :: evs => if t < D then e :: withoutTimes D evs else [.timeout]

/-- The functions with clock times give what those of Model/Net.lean give for a deadline that passes at the right moment. -/
theorem timed_untimed (k : Kind) (D : Nat) : ∀ (evs : List (Nat × Ev)) (n now : Nat), now < D →
    (timedReadFull k D n evs now).1 = (readFull k n (withoutTimes D evs)).1
  | [], 0, now, _ => by simp [timedReadFull, readFull]
  | [], n + 1, now, _ => by simp [timedReadFull, readFull, withoutTimes]
  | _ :: _, 0, now, _ => by simp [timedReadFull, readFull]
  | (t, e) :: evs, n + 1, now, h => by
    rw [timedReadFull.eq_def, withoutTimes]
    simp only
    by_cases ht : t < D
    · rw [if_pos (by omega), if_pos ht]
      cases e with
      | data d =>
        simp only [readFull]
        split
        · rfl
        · have ih := timed_untimed k D evs (n + 1 - d.length) (max t now) (by omega)
          cases h1 : timedReadFull k D (n + 1 - d.length) evs (max t now) with
          | mk r x =>
            cases h2 : readFull k (n + 1 - d.length) (withoutTimes D evs) with
            | mk r' x' =>
              rw [h1, h2] at ih
              simp only at ih
              subst ih
              cases r <;> rfl
      | _ => rfl
    · rw [if_neg (by omega), if_neg ht]
      rfl

/-! ## C117 -/

/-- The same for `ReadAll`. -/
theorem timed_untimed_all (D : Nat) : ∀ (evs : List (Nat × Ev)) (acc : Bytes) (now : Nat), now < D →
    (timedReadAllFrom D acc evs now).1 = (readAll acc (withoutTimes D evs)).1
  | [], acc, now, _ => by simp [timedReadAllFrom, readAll, withoutTimes]
  | (t, e) :: evs, acc, now, h => by
    rw [timedReadAllFrom.eq_def, withoutTimes]
    simp only
    by_cases ht : t < D
    · rw [if_pos (by omega), if_pos ht]
      cases e with
      | data d =>
        simp only [readAll]
        exact timed_untimed_all D evs (acc ++ d) (max t now) (by omega)
      | timeout => simp only [readAll]
      | fail e => simp only [readAll]
      | eof => simp only [readAll]
    · rw [if_neg (by omega), if_neg ht]
      simp only [readAll]

theorem arrivedBefore_cons_ge (D t : Nat) (e : Ev) (evs : List (Nat × Ev)) (h : ¬ t < D) : arrivedBefore D ((t, e) :: evs) = [] := by
  cases e <;> simp [arrivedBefore, h]

/-- Reading `n` bytes of a stream: they are the first `n` that arrive before the deadline, if so many do; the rest stays. -/
theorem timedReadFull_stream (D : Nat) : ∀ (evs : List (Nat × Ev)) (n now : Nat), now < D →
    (n ≤ (arrivedBefore D evs).length →
      ∃ evs' now', timedReadFull .stream D n evs now = (.ok ((arrivedBefore D evs).take n), evs', now') ∧
        arrivedBefore D evs' = (arrivedBefore D evs).drop n ∧ now' < D) ∧
    ((arrivedBefore D evs).length < n → ∃ e evs' now', timedReadFull .stream D n evs now = (.err e, evs', now'))
  | evs, 0, now, h => by
    refine ⟨fun _ => ⟨evs, now, ?_, by simp, h⟩, fun h => by omega⟩
    cases evs <;> simp [timedReadFull]
  | [], n + 1, now, h => by
    refine ⟨fun h => by simp [arrivedBefore] at h, fun _ => ⟨_, _, _, by rw [timedReadFull]⟩⟩
  | (t, e) :: evs, n + 1, now, h => by
    rw [timedReadFull.eq_def]
    simp only
    by_cases ht : t < D
    · rw [if_pos (by omega)]
      cases e with
      | data d =>
        simp only [arrivedBefore, if_pos ht]
        by_cases hd : n + 1 ≤ d.length
        · rw [if_pos hd]
          refine ⟨fun _ => ⟨_, _, by rw [List.take_append_of_le_length hd], ?_, by omega⟩, fun hl => by simp at hl; omega⟩
          rw [List.drop_append_of_le_length hd, putBack]
          by_cases hlt : n + 1 < d.length
          · rw [if_pos hlt]; simp [arrivedBefore, ht]
          · rw [if_neg hlt, List.drop_of_length_le (by omega)]; simp
        · rw [if_neg hd]
          obtain ⟨i1, i2⟩ := timedReadFull_stream D evs (n + 1 - d.length) (max t now) (by omega)
          constructor
          · intro hl
            rw [List.length_append] at hl
            obtain ⟨evs', now', g1, g2, g3⟩ := i1 (by omega)
            refine ⟨evs', now', ?_, ?_, g3⟩
            · rw [g1, List.take_append, List.take_of_length_le (l := d) (by omega)]
            · rw [g2, List.drop_append, List.drop_of_length_le (l := d) (by omega), List.nil_append]
          · intro hl
            rw [List.length_append] at hl
            obtain ⟨e, evs', now', g1⟩ := i2 (by omega)
            exact ⟨e, evs', now', by rw [g1]⟩
      | timeout => exact ⟨fun h => by simp [arrivedBefore] at h, fun _ => ⟨_, _, _, rfl⟩⟩
      | fail x => exact ⟨fun h => by simp [arrivedBefore] at h, fun _ => ⟨_, _, _, rfl⟩⟩
      | eof => exact ⟨fun h => by simp [arrivedBefore] at h, fun _ => ⟨_, _, _, rfl⟩⟩
    · rw [if_neg (by omega), arrivedBefore_cons_ge _ _ _ _ ht]
      exact ⟨fun h => by simp at h, fun _ => ⟨_, _, _, rfl⟩⟩

/-- C117, exact: a message is received if and only if all its bytes, with its length before it, arrive within one second from the moment the read
begins. Missing: messages that take longer. -/
theorem C117_iff_partial (evs : List (Nat × Ev)) (now : Nat) (m : Bytes) (hm : m.length < 2 ^ 32) :
    (timedReadPeerMessage evs now).1 = .ok m ↔ framed m <+: arrivedBefore (now + 1000000000) evs := by
  obtain ⟨h1, h2⟩ := timedReadFull_stream (now + peerLimit) evs 4 now (by simp [peerLimit])
  have hD : now + peerLimit = now + 1000000000 := rfl
  rw [hD] at h1 h2
  unfold timedReadPeerMessage
  rw [hD]
  generalize hA : arrivedBefore (now + 1000000000) evs = A at h1 h2 ⊢
  have hframe : ∀ B : Bytes, (4 ≤ A.length ∧ getBE (A.take 4) ≤ (A.drop 4).length ∧ (A.drop 4).take (getBE (A.take 4)) = m) ↔ framed m <+: A := by
    intro _
    constructor
    · rintro ⟨g1, g2, g3⟩
      refine ⟨(A.drop 4).drop (getBE (A.take 4)), ?_⟩
      have hl : getBE (A.take 4) = m.length := by rw [← g3, List.length_take]; omega
      have hp : putBE 4 m.length = A.take 4 := by
        have hk : (A.take 4).length = 4 := by rw [List.length_take]; omega
        rw [← hl, ← hk]
        have := putBE_getBE (A.take 4)
        rw [hk] at this ⊢
        exact this
      rw [framed, hp, ← g3, List.append_assoc, List.take_append_drop, List.take_append_drop]
    · rintro ⟨r, rfl⟩
      have h4 : (framed m ++ r).take 4 = putBE 4 m.length := by
        rw [framed, List.append_assoc, take_prefix (by simp)]
      have h5 : (framed m ++ r).drop 4 = m ++ r := by
        rw [framed, List.append_assoc, drop_prefix (by simp)]
      rw [h4, h5, getBE_putBE _ _ (by omega)]
      simp [framed]
  rw [← hframe []]
  by_cases h4 : 4 ≤ A.length
  · obtain ⟨evs', now', g1, g2, g3⟩ := h1 h4
    rw [g1]
    simp only
    obtain ⟨i1, i2⟩ := timedReadFull_stream (now + 1000000000) evs' (getBE (A.take 4)) now' g3
    rw [g2] at i1 i2
    by_cases h5 : getBE (A.take 4) ≤ (A.drop 4).length
    · obtain ⟨_, _, k1, _⟩ := i1 h5
      rw [k1]
      constructor
      · intro h
        exact ⟨h4, h5, Res.ok.inj h⟩
      · rintro ⟨_, _, h⟩
        rw [h]
    · obtain ⟨_, _, _, k1⟩ := i2 (by omega)
      rw [k1]
      simp only [reduceCtorEq, false_iff]
      rintro ⟨_, h, _⟩
      exact h5 h
  · obtain ⟨_, _, _, g1⟩ := h2 (by omega)
    rw [g1]
    simp only [reduceCtorEq, false_iff]
    rintro ⟨h, _⟩
    exact h4 h

/-- Bytes that come one by one, the first at `start`, one every `gap` nanoseconds. -/
def trickle (gap : Nat) : Nat → Bytes → List (Nat × Ev)
  | _, [] => []
  | start, b :: bs => (start, .data [b]) :: trickle gap (start + gap) bs

theorem trickle_length (gap limit : Nat) : ∀ (bs : Bytes) (start : Nat),
    (arrivedBefore limit (trickle gap start bs)).length = 0 ∨
      start + ((arrivedBefore limit (trickle gap start bs)).length - 1) * gap < limit
  | [], start => .inl rfl
  | b :: bs, start => by
    simp only [trickle, arrivedBefore]
    split
    · right
      rcases trickle_length gap limit bs (start + gap) with h | h
      · rw [List.length_append, h]; simp; omega
      · rw [List.length_append]
        generalize (arrivedBefore limit (trickle gap (start + gap) bs)).length = L at h
        simp only [List.length_cons, List.length_nil, Nat.zero_add]
        cases L with
        | zero => simp; omega
        | succ L =>
          have : (1 + (L + 1) - 1) * gap = L * gap + gap := by rw [← Nat.succ_mul]; congr 1; omega
          simp only [Nat.add_sub_cancel] at h
          omega
    · exact .inl rfl

/-- C117 is violated: a peer sends a message steadily, one byte every `gap` nanoseconds, beginning when the client begins to read. If the
whole takes longer than a second, the client does not receive it. -/
theorem C117_violated (m : Bytes) (hm : m.length < 2 ^ 32) (gap now : Nat) (hg : 1000000000 ≤ (m.length + 3) * gap) :
    (timedReadPeerMessage (trickle gap now (framed m)) now).1 ≠ .ok m := by
  intro h
  rw [C117_iff_partial _ _ _ hm] at h
  have hl := h.length_le
  have hf : (framed m).length = 4 + m.length := by rw [framed, List.length_append, putBE_length]
  rcases trickle_length gap (now + 1000000000) (framed m) now with h1 | h1
  · omega
  · have h2 : (m.length + 3) * gap ≤ ((arrivedBefore (now + 1000000000) (trickle gap now (framed m))).length - 1) * gap :=
      Nat.mul_le_mul_right _ (by omega)
    omega

/-! ## Cases -/

/-- A block of 128 KiB at a hundred thousand bytes per second is never received. -/
example (d : Bytes) (hd : d.length = 131072 + 9) : (timedReadPeerMessage (trickle 10000 0 (framed d)) 0).1 ≠ .ok d :=
  C117_violated d (by omega) 10000 0 (by omega)

/-- An unchoke message in three parts within a second. -/
example : (timedReadPeerMessage [(100, .data [0, 0]), (500000000, .data [0, 1]), (999999999, .data [1])] 50).1 = .ok [1] := by decide

/-- The same, its last byte a little too late. -/
example : (timedReadPeerMessage [(100, .data [0, 0]), (500000000, .data [0, 1]), (1000000050, .data [1])] 50) =
    (.err "i/o timeout", [(1000000050, .data [1])], 1000000050) := by decide

end Gotit.Props
