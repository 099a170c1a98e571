import Verif.Model.AnnounceTime
import Verif.Props.TimedNet
import Verif.Props.Retry
/-
  C134: an announce ends within a bounded time.
-/
namespace Gotit.Props
open Gotit Spec

theorem timedUdpHandshake_time (s : UdpClock) (x : TimedTry) :
    s.now ≤ (timedUdpHandshake s x).1.now ∧ (timedUdpHandshake s x).1.now ≤ s.now + 2 * trackerLimit := by
  have h1 := timedReadFull_time .dgram (timedWrite x.write1 s.now + trackerLimit) s.evs 16 (timedWrite x.write1 s.now)
  have h2 : timedWrite x.write1 s.now ≤ s.now + trackerLimit := by unfold timedWrite; omega
  have h3 : s.now ≤ timedWrite x.write1 s.now := by unfold timedWrite; omega
  unfold timedUdpHandshake
  simp only
  cases x.writeErr with
  | some e => simp only; omega
  | none =>
    simp only
    rcases hr : timedReadUdpHandshake s.evs (timedWrite x.write1 s.now) with ⟨o, evs, now⟩
    rw [timedReadUdpHandshake] at hr
    rw [hr] at h1
    simp only at h1
    cases o with
    | err e => simp only; omega
    | panic e => simp only; omega
    | ok r =>
      simp only
      rcases hp : parseTrackerResponse s.t r [] x.random.tid1 with ⟨t, u⟩
      cases u <;> simp only <;> omega

/-- C134 for UDP trackers: an announce takes at most two seconds, whatever arrives and when. -/
theorem C134_udp_partial (s : UdpClock) (x : TimedTry) :
    s.now ≤ (timedUdpAnnounce s x).1.now ∧ (timedUdpAnnounce s x).1.now ≤ s.now + 2000000000 := by
  have h0 := timedUdpHandshake_time s x
  have hl : trackerLimit = 500000000 := rfl
  unfold timedUdpAnnounce
  rcases hh : timedUdpHandshake s x with ⟨s', o⟩
  rw [hh] at h0
  simp only at h0
  cases o with
  | err e => simp only; omega
  | panic => simp only; omega
  | ok c =>
    simp only
    have h1 := timedReadAllFrom_time (timedWrite x.write2 s'.now + trackerLimit) s'.evs [] (timedWrite x.write2 s'.now)
    have h2 : timedWrite x.write2 s'.now ≤ s'.now + trackerLimit := by unfold timedWrite; omega
    have h3 : s'.now ≤ timedWrite x.write2 s'.now := by unfold timedWrite; omega
    rcases hr : timedReadAll s'.evs (timedWrite x.write2 s'.now) with ⟨o, evs, now⟩
    rw [timedReadAll] at hr
    rw [hr] at h1
    simp only at h1
    cases o with
    | err e => simp only; omega
    | panic e => simp only; omega
    | ok r =>
      simp only
      rcases hp : parseTrackerResponse s'.t r x.spare x.random.tid2 with ⟨t, u⟩
      cases u <;> simp only <;> omega

theorem udpAttempt_time (tries : Nat → TimedTry) (slack : Nat → Nat) (n : Nat) (s : UdpClock) :
    (timedUdpAttempt tries slack n s).1.now ≤ s.now + 2000000000 + (match n with | 0 => 0 | k + 1 => 2 ^ k * 1000000000 + slack k) := by
  unfold timedUdpAttempt
  simp only
  have h := C134_udp_partial { s with now := s.now + (match n with | 0 => 0 | k + 1 => backOffDelay trackerRetryDelay k + slack k) } (tries n)
  have h2 := h.2
  simp only at h2
  refine Nat.le_trans h2 ?_
  cases n with
  | zero => simp only; omega
  | succ k =>
    simp only [backOffDelay, trackerRetryDelay, Nat.shiftLeft_eq]
    rw [Nat.mul_comm 1000000000]
    omega

theorem retryLoop_now {α : Type} (f : Nat → UdpClock → UdpClock × Res α) (stop : Nat → Bool) (dflt : α) (cost : Nat → Nat)
    (hf : ∀ n s, (f n s).1.now ≤ s.now + cost n) : ∀ (left n : Nat) (s : UdpClock),
    (retryLoop f stop dflt left n s).1.now ≤ s.now + ((List.range' n left).map cost).sum
  | 0, n, s => by simp [retryLoop]
  | left + 1, n, s => by
    have h := hf n s
    rw [retryLoop.eq_def]
    simp only [List.range'_succ, List.map_cons, List.sum_cons]
    rcases hx : f n s with ⟨s', o⟩
    rw [hx] at h
    simp only at h
    cases o with
    | ok v => simp only; omega
    | panic e => simp only; omega
    | err e =>
      simp only
      split
      · simp only; omega
      · split
        · simp only; omega
        · have ih := retryLoop_now f stop dflt cost hf left (n + 1) s'
          simp only
          omega

/-- C134 for UDP trackers: with all five attempts and the pauses between them, it is over after 25 seconds at most (plus what timers are
late). -/
theorem C134_tries_partial (tries : Nat → TimedTry) (slack : Nat → Nat) (before : Bool) (stop : Nat → Bool) (s : UdpClock) :
    (announceToTracker (timedUdpAttempt tries slack) before stop s).1.now ≤
      s.now + 25000000000 + (slack 0 + slack 1 + slack 2 + slack 3) := by
  unfold announceToTracker retryDo
  cases before with
  | true => simp only [if_true]; omega
  | false =>
    have := retryLoop_now (timedUdpAttempt tries slack) stop []
      (fun n => 2000000000 + (match n with | 0 => 0 | k + 1 => 2 ^ k * 1000000000 + slack k))
      (fun n s => by have := udpAttempt_time tries slack n s; omega) 5 0 s
    simp only [if_neg (show ¬ (false = true) by decide)]
    refine Nat.le_trans this ?_
    simp [List.range'_succ]
    omega

/-! ### HTTP trackers -/

/-- The body ends, or the connection breaks. -/
def Ends (body : List (Nat × Ev)) : Prop := ∃ x ∈ body, x.2 = .eof ∨ ∃ e, x.2 = .fail e

theorem timedBody_none : ∀ (body : List (Nat × Ev)) (acc : Bytes) (now : Nat), timedBody acc body now = none ↔ ¬ Ends body
  | [], acc, now => by simp [timedBody, Ends]
  | (t, e) :: evs, acc, now => by
    have hc : Ends ((t, e) :: evs) ↔ (e = .eof ∨ ∃ m, e = .fail m) ∨ Ends evs := by
      unfold Ends; simp
    rw [hc]
    cases e with
    | data d => rw [timedBody, timedBody_none evs]; simp
    | timeout => rw [timedBody, timedBody_none evs]; simp
    | fail m => simp [timedBody]
    | eof => simp [timedBody]

/-- C134 for HTTP trackers, exactly: an announce returns if and only if the tracker answers and its answer ends (or the connection breaks);
there is no other limit. -/
theorem C134_http_partial (parseAddr : Bytes → Option Addr) (t : HttpTracker) (head : Option (Nat × Int)) (body : List (Nat × Ev)) (now : Nat) :
    (timedHttpAnnounce parseAddr t head body now).isSome ↔ head.isSome ∧ Ends body := by
  unfold timedHttpAnnounce
  cases head with
  | none => simp
  | some h =>
    obtain ⟨h, status⟩ := h
    simp only [Option.isSome_some, true_and]
    have hb := timedBody_none body [] (max h now)
    rcases hx : timedBody [] body (max h now) with _ | ⟨o, n⟩
    · rw [hx] at hb
      simp [hb.1 rfl]
    · have he : Ends body := by
        apply Classical.byContradiction
        intro hne
        rw [hb.2 hne] at hx
        cases hx
      cases o <;> simp [he]

/-- C134 is false of the code: whatever the bound, a correct answer of an HTTP tracker can come later, and is used; and there is a tracker
that answers at once, sends a byte whenever one likes, and keeps the announce from ever returning. -/
theorem C134_violated (parseAddr : Bytes → Option Addr) (t : HttpTracker) (now bound : Nat) (b : Bytes) :
    (∃ head body T, timedHttpAnnounce parseAddr t head body now =
      some ((httpAnnounce parseAddr t (.reply 200 b)).1, (httpAnnounce parseAddr t (.reply 200 b)).2, T) ∧ now + bound < T) ∧
    ∀ times : List Nat, timedHttpAnnounce parseAddr t (some (now, 200)) (times.map fun n => (n, .data [0])) now = none := by
  refine ⟨⟨some (now, 200), [(now, .data b), (now + bound + 1, .eof)], now + bound + 1, ?_, by omega⟩, ?_⟩
  · simp only [timedHttpAnnounce, timedBody, List.nil_append]
    rw [show max (now + bound + 1) (max now (max now now)) = now + bound + 1 from by omega]
  · intro times
    have h := (C134_http_partial parseAddr t (some (now, 200)) (times.map fun n => (n, Ev.data [0])) now)
    have hne : ¬ Ends (times.map fun n => (n, Ev.data [0])) := by
      rintro ⟨x, hx, h | ⟨e, h⟩⟩ <;> (obtain ⟨n, _, rfl⟩ := List.mem_map.1 hx; cases h)
    rcases hx : timedHttpAnnounce parseAddr t (some (now, 200)) (times.map fun n => (n, Ev.data [0])) now with _ | y
    · rfl
    · rw [hx] at h
      exact absurd (h.1 rfl).2 hne

/-! ### The model without clock times -/

/-- The socket of an announce as in Model/UdpTracker.lean: what arrives before the first deadline, then the deadline unless the connect answer came
in time. -/
theorem timedUdpHandshake_untimed (s : UdpClock) (x : TimedTry) :
    (timedUdpHandshake s x).2 =
      (udpHandshake s.t x.random.tid1 x.writeErr (withoutTimes (timedWrite x.write1 s.now + trackerLimit) s.evs)).2.2 ∧
    (timedUdpHandshake s x).1.t =
      (udpHandshake s.t x.random.tid1 x.writeErr (withoutTimes (timedWrite x.write1 s.now + trackerLimit) s.evs)).1 := by
  unfold timedUdpHandshake udpHandshake
  simp only
  cases x.writeErr with
  | some e => exact ⟨rfl, rfl⟩
  | none =>
    simp only
    have h := timed_untimed .dgram (timedWrite x.write1 s.now + trackerLimit) s.evs 16 (timedWrite x.write1 s.now) (by simp [trackerLimit])
    rw [timedReadUdpHandshake]
    change (timedReadFull .dgram (timedWrite x.write1 s.now + trackerLimit) 16 s.evs (timedWrite x.write1 s.now)).1 =
      (readUdpHandshake (withoutTimes (timedWrite x.write1 s.now + trackerLimit) s.evs)).1 at h
    rcases h1 : timedReadFull .dgram (timedWrite x.write1 s.now + trackerLimit) 16 s.evs (timedWrite x.write1 s.now) with ⟨o, evs, n⟩
    rcases h2 : readUdpHandshake (withoutTimes (timedWrite x.write1 s.now + trackerLimit) s.evs) with ⟨o', evs'⟩
    rw [h1, h2] at h
    simp only at h
    subst h
    cases o with
    | err e => exact ⟨rfl, rfl⟩
    | panic e => exact ⟨rfl, rfl⟩
    | ok r =>
      simp only
      rcases parseTrackerResponse s.t r [] x.random.tid1 with ⟨t, u⟩
      cases u <;> exact ⟨rfl, rfl⟩

/-- A tracker that answers the connect request after 100 ms and nothing else: the announce fails after 600 ms. -/
example : (timedUdpAnnounce ⟨newUdpTracker, [(100000000, .data [0, 0, 0, 0, 0, 0, 0, 7, 0, 0, 0, 0, 0, 0, 0, 9])], 0⟩
    ⟨none, 0, 0, ⟨0, 0, 1, 6881⟩, ⟨7, 8, 9⟩, []⟩).1.now = 600000000 := by decide

/-- An HTTP tracker that answers in time. -/
example : Ends [(5, .data [100, 101]), (6, .eof)] := ⟨(6, .eof), by simp, .inl rfl⟩

end Gotit.Props
