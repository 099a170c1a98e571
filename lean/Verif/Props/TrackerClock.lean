import Verif.Model.TrackerClock
import Verif.Spec.TrackerClock
import Verif.Props.HttpTracker
/-
  C119: how often a tracker is asked.
-/
namespace Gotit.Props
open Gotit Spec

/-- A reply in the compact form, which the client asks for: the peers are a byte string. -/
def Compact (r : HttpReply) : Prop :=
  ∃ body kvs s, r = .reply 200 body ∧ TopDict body kvs ∧ lookupKey (ascii "peers") kvs = .str s

/-- The time between the arrival of a reply and the next request if nothing is late, for request number `k` of a series of failures. -/
def failurePause (k : Nat) : Nat :=
  if k % 5 = 0 then 1000000000 else if k % 5 = 1 then 2000000000 else if k % 5 = 2 then 4000000000
  else if k % 5 = 3 then 8000000000 else 60000000000

theorem failing_series (parseAddr : Bytes → Option Addr) (addr trackerId : Bytes) (now : Nat) (replies : Nat → TimedReply)
    (h : ∀ k (t : HttpTracker), ∃ e, httpAnnounce parseAddr t (replies k).reply = (t, .err e)) : ∀ k, ∃ a,
    TrackerClock.at parseAddr (.start addr trackerId now) replies k = some a ∧ a.t = newHttpTracker addr trackerId ∧ a.failed = k % 5 ∧
      (a.next parseAddr (replies k)).map (·.now) = some (a.now + (replies k).took + failurePause k + (replies k).slack) := by
  have step : ∀ (a : TrackerClock) (k : Nat), a.t = newHttpTracker addr trackerId → a.failed = k % 5 →
      ∃ b, a.next parseAddr (replies k) = some b ∧ b.t = newHttpTracker addr trackerId ∧ b.failed = (k + 1) % 5 ∧
        b.now = a.now + (replies k).took + failurePause k + (replies k).slack := by
    intro a k ht hf
    obtain ⟨e, he⟩ := h k a.t
    have hb : backOffDelay trackerRetryDelay a.failed = 1000000000 * 2 ^ a.failed := by rw [backOffDelay, Nat.shiftLeft_eq]; rfl
    rw [TrackerClock.next, he]
    simp only
    by_cases h5 : a.failed + 1 < 5
    · rw [if_pos h5]
      refine ⟨_, rfl, ht, ?_, ?_⟩
      · simp only; omega
      · simp only [hb, failurePause]
        have : a.failed = 0 ∨ a.failed = 1 ∨ a.failed = 2 ∨ a.failed = 3 := by omega
        rcases this with h | h | h | h <;> rw [← hf, h] <;> simp
    · rw [if_neg h5]
      refine ⟨_, rfl, ht, ?_, ?_⟩
      · simp only; omega
      · simp only [ht, newHttpTracker, waitInterval, failurePause]
        have h4 : k % 5 = 4 := by omega
        rw [h4]
        simp
  intro k
  induction k with
  | zero =>
    obtain ⟨b, h1, _, _, h4⟩ := step (.start addr trackerId now) 0 rfl rfl
    exact ⟨_, rfl, rfl, rfl, by rw [h1, Option.map_some, h4]⟩
  | succ k ih =>
    obtain ⟨a, h1, h2, h3, _⟩ := ih
    obtain ⟨b, g1, g2, g3, _⟩ := step a k h2 h3
    obtain ⟨c, k1, _, _, k4⟩ := step b (k + 1) g2 g3
    exact ⟨b, by rw [TrackerClock.at, h1]; exact g1, g2, g3, by rw [k1, Option.map_some, k4]⟩

/-- C119, how it really is for a tracker that answers as it is asked to, in the compact form: whatever intervals it asks for, there are series of five
requests with pauses of 1, 2, 4 and 8 seconds, one series a minute. -/
theorem C119_compact_partial (parseAddr : Bytes → Option Addr) (addr trackerId : Bytes) (now : Nat) (replies : Nat → TimedReply)
    (h : ∀ k, Compact (replies k).reply) (k : Nat) : ∃ a b,
    TrackerClock.at parseAddr (.start addr trackerId now) replies k = some a ∧
    TrackerClock.at parseAddr (.start addr trackerId now) replies (k + 1) = some b ∧
      b.now = a.now + (replies k).took + failurePause k + (replies k).slack := by
  have hc : ∀ k (t : HttpTracker), ∃ e, httpAnnounce parseAddr t (replies k).reply = (t, .err e) := by
    intro k t
    obtain ⟨body, kvs, s, h1, h2, h3⟩ := h k
    rw [h1]
    exact C17_compact_violated parseAddr t body kvs h2 s h3
  obtain ⟨a, h1, _, _, h4⟩ := failing_series parseAddr addr trackerId now replies hc k
  obtain ⟨b, h5, h6⟩ := Option.map_eq_some_iff.1 h4
  exact ⟨a, b, h1, by rw [TrackerClock.at, h1]; exact h5, h6⟩

/-- C119 is violated by every compact reply: if the first reply is compact and asks for an interval of at least two seconds, and timers are not a second late, the
next request comes too early. -/
theorem C119_violated (parseAddr : Bytes → Option Addr) (addr trackerId : Bytes) (now : Nat) (replies : Nat → TimedReply)
    (h : ∀ k, Compact (replies k).reply) (n : Nat) (hn : 2 ≤ n) (ha : AsksFor (replies 0).reply n) (hs : (replies 0).slack < 1000000000) :
    ¬ Respected parseAddr (.start addr trackerId now) replies := by
  intro hr
  obtain ⟨a, b, h1, h2, h3⟩ := C119_compact_partial parseAddr addr trackerId now replies h 0
  have := hr 0 a b n h1 h2 ha
  rw [show failurePause 0 = 1000000000 from rfl] at h3
  omega

/-- C119, what holds: after a reply with which the announce succeeds, the interval asked for is respected (up to 292 years). Missing: replies the announce fails with, which are all compact ones. -/
theorem C119_success_partial (parseAddr : Bytes → Option Addr) (s b : TrackerClock) (r : TimedReply) (n : Nat) (ha : AsksFor r.reply n)
    (hn : n ≤ 9223372036) (t : HttpTracker) (ips : List AddrPort) (hok : httpAnnounce parseAddr s.t r.reply = (t, .ok ips))
    (hb : s.next parseAddr r = some b) : s.now + r.took + n * 1000000000 ≤ b.now := by
  rw [TrackerClock.next, hok] at hb
  simp only [Option.some.injEq] at hb
  subst hb
  obtain ⟨body, kvs, hr, hd, hi⟩ := ha
  rw [hr, httpAnnounce_200] at hok
  obtain ⟨m, vs, ps, hg, _, ht⟩ := (C17_success_iff_partial parseAddr s.t t body ips).1 hok
  obtain ⟨kvs', hd', _, hm, _⟩ := hg.dict
  obtain ⟨p1, r1, e1⟩ := hd
  obtain ⟨p2, r2, e2⟩ := hd'
  rw [e1] at e2
  simp only [PRes.ok.injEq, Bencode.dict.injEq] at e2
  rw [← e2.2.1, hi] at hm
  simp only [optInt, Bencode.isNil, Bencode.toText, prettyPrint, parseInt0_itoa _ 64 (by decide) (by decide)] at hm
  rw [if_neg (by simp), if_pos (by constructor <;> omega)] at hm
  simp only [Except.ok.injEq] at hm
  subst hm
  simp only [waitInterval]
  rw [ht, wrap64_small (by omega) (by omega)]
  simp only
  omega

/-- C119, after a failure that is not the fifth in a row: the next request comes after a second at the earliest. -/
theorem C119_failure_partial (parseAddr : Bytes → Option Addr) (s b : TrackerClock) (r : TimedReply) (t : HttpTracker) (e : String)
    (hf : httpAnnounce parseAddr s.t r.reply = (t, .err e)) (h5 : s.failed < 4) (hb : s.next parseAddr r = some b) :
    s.now + r.took + 1000000000 ≤ b.now := by
  rw [TrackerClock.next, hf] at hb
  simp only at hb
  rw [if_pos (by omega), Option.some.injEq] at hb
  subst hb
  have hd : backOffDelay trackerRetryDelay s.failed = 1000000000 * 2 ^ s.failed := by rw [backOffDelay, Nat.shiftLeft_eq]; rfl
  have : 0 < 2 ^ s.failed := Nat.pow_pos (by omega)
  simp only [hd]
  omega

/-- C119: after a success the count of failures starts again, so that the next failure is followed by a pause of one second. -/
theorem C119_again_partial (parseAddr : Bytes → Option Addr) (s b c : TrackerClock) (r r' : TimedReply) (t t' : HttpTracker) (ips : List AddrPort)
    (e : String) (hok : httpAnnounce parseAddr s.t r.reply = (t, .ok ips)) (hb : s.next parseAddr r = some b)
    (hf : httpAnnounce parseAddr b.t r'.reply = (t', .err e)) (hc : b.next parseAddr r' = some c) :
    c.now = b.now + r'.took + 1000000000 + r'.slack := by
  rw [TrackerClock.next, hok] at hb
  simp only [Option.some.injEq] at hb
  subst hb
  rw [TrackerClock.next, hf] at hc
  simp only at hc
  rw [if_pos (by omega), Option.some.injEq] at hc
  subst hc
  rfl

/-! ## Cases -/

/-- A compact reply that asks for half an hour. -/
theorem halfHour : TopDict (ascii "d8:intervali1800e5:peers6:\x01\x02\x03\x04\x00\x05e")
    [(ascii "interval", .int 1800), (ascii "peers", .str [1, 2, 3, 4, 0, 5])] := by
  have h7 : Denotes (ascii "i1800e") (.int 1800) := denotes_int (ds := ascii "1800") (isDigits_of_all (by decide)) (by decide)
  have h := DenotesEntries.cons _ _ _ _ _ _ (denotes_a (ascii "interval") (by decide)) h7
    (.cons _ _ _ _ _ _ (denotes_a (ascii "peers") (by decide)) (denotes_a [1, 2, 3, 4, 0, 5] (by decide)) .nil)
  exact ⟨true, _, parse_complete (.dict _ _ h) []⟩

/-- The next request comes a second later. -/
example (parseAddr : Bytes → Option Addr) :
    ¬ Respected parseAddr (.start [] [] 0) (fun _ => ⟨.reply 200 (ascii "d8:intervali1800e5:peers6:\x01\x02\x03\x04\x00\x05e"), 30, 5⟩) :=
  C119_violated parseAddr [] [] 0 _ (fun _ => ⟨_, _, _, rfl, halfHour, rfl⟩) 1800 (by omega) ⟨_, _, rfl, halfHour, rfl⟩ (by simp)

/-- A reply in the dictionary form that asks for seven seconds. -/
example (parseAddr : Bytes → Option Addr) (t : HttpTracker) : ∃ b,
    TrackerClock.next parseAddr ⟨t, 0, 0⟩ ⟨.reply 200 (ascii "d8:intervali7e5:peerslee"), 30, 5⟩ = some b ∧ b.now = 7000000035 := by
  have h : readPeers parseAddr t (ascii "d8:intervali7e5:peerslee") = ({ t with interval := wrap64 (7 * 10 ^ 9) }, .ok []) :=
    (C17_success_iff_partial parseAddr t _ _ _).2 ⟨7, _, _, peersBody_good, rfl, rfl⟩
  refine ⟨⟨{ t with interval := wrap64 (7 * 10 ^ 9) }, 7000000035, 0⟩, ?_, rfl⟩
  simp [TrackerClock.next, httpAnnounce, h, waitInterval, wrap64_small]

end Gotit.Props
