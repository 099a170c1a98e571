import Verif.Model.Contact
import Verif.Spec.Contact
/-
  C118: how long the peers of a response wait to be contacted.
-/
namespace Gotit.Props
open Gotit Spec

theorem took_le (a : TimedAttempt) (h : TimedAttempt.InTime a) : a.took ≤ 4000000000 := by
  obtain ⟨h1, h2, h3⟩ := h
  unfold TimedAttempt.took
  split
  · split <;> omega
  · omega

theorem contactLoop_le (tries : Nat → TimedAttempt) (slack : Nat → Nat) (s : Nat) (h : ∀ n, TimedAttempt.InTime (tries n)) (hs : ∀ n, slack n ≤ s) :
    ∀ (left n now : Nat), left + n = 5 → (contactLoop tries slack left n now).1 ≤ now + left * (4000000000 + s) + 500 * (16 - 2 ^ n) + 500
  | 0, n, now, _ => by simp only [contactLoop]; omega
  | left + 1, n, now, hn => by
    have h1 := took_le _ (h n)
    have h2 := hs n
    have hm : (left + 1) * (4000000000 + s) = left * (4000000000 + s) + (4000000000 + s) := Nat.succ_mul _ _
    rw [contactLoop]
    split
    · simp only; omega
    · split
      · simp only; omega
      · have ih := contactLoop_le tries slack s h hs left (n + 1) (now + (tries n).took + backOffDelay peerRetryDelay n + slack n) (by omega)
        have hb : backOffDelay peerRetryDelay n = 500 * 2 ^ n := by rw [backOffDelay, Nat.shiftLeft_eq]; rfl
        have hp : 2 ^ (n + 1) = 2 * 2 ^ n := by rw [Nat.pow_succ]; omega
        have h16 : 2 ^ (n + 1) ≤ 16 := Nat.le_trans (Nat.pow_le_pow_right (by omega) (show n + 1 ≤ 4 by omega)) (by decide)
        omega

/-- C118, the bound for one peer: five attempts of at most four seconds, the pauses between them being microseconds. -/
theorem C118_one_partial (s : Nat) (c : Candidate) (h : Candidate.InTime s c) (now : Nat) :
    (contact c now).1 ≤ now + (20000008000 + 5 * s) := by
  have := contactLoop_le c.tries c.slack s h.1 h.2 5 0 now rfl
  rw [contact]
  omega

/-- C118, what is guaranteed: a peer is contacted at the latest 20 seconds (and a bit) after the response for each accepted peer before it in the list. Missing: a
bound that does not depend on the other peers. -/
theorem C118_after_partial (s : Nat) (cs : List Candidate) (h : ∀ c ∈ cs, Candidate.InTime s c) (now : Nat) :
    (∀ (i : Nat) (t : Nat), (initPeersTimes cs now).1[i]? = some (some t) →
      t ≤ now + ((cs.take i).filter (·.accepted)).length * (20000008000 + 5 * s)) ∧
    (initPeersTimes cs now).2 ≤ now + (cs.filter (·.accepted)).length * (20000008000 + 5 * s) := by
  induction cs generalizing now with
  | nil => exact ⟨by intro i t h; simp [initPeersTimes] at h, by simp [initPeersTimes]⟩
  | cons c cs ih =>
    have hc := C118_one_partial s c (h c (by simp)) now
    rw [initPeersTimes]
    by_cases ha : c.accepted
    · rw [if_pos ha]
      obtain ⟨h1, h2⟩ := ih (fun c hc => h c (by simp [hc])) (contact c now).1
      constructor
      · intro i t hi
        cases i with
        | zero => simp at hi; omega
        | succ i =>
          have := h1 i t (by simpa using hi)
          rw [List.take_succ_cons, List.filter_cons, if_pos ha, List.length_cons, Nat.succ_mul]
          omega
      · rw [List.filter_cons, if_pos ha, List.length_cons, Nat.succ_mul]
        simp only
        omega
    · rw [if_neg ha]
      obtain ⟨h1, h2⟩ := ih (fun c hc => h c (by simp [hc])) now
      constructor
      · intro i t hi
        cases i with
        | zero => simp at hi
        | succ i =>
          have := h1 i t (by simpa using hi)
          rw [List.take_succ_cons, List.filter_cons, if_neg ha]
          exact this
      · rw [List.filter_cons, if_neg ha]
        exact h2

/-- A peer that does not answer to any attempt to connect: dialling times out. -/
def deadPeer : Candidate where
  accepted := true
  tries := fun _ => { dialTook := 2000000000, dialOk := false, writeTook := 0, writeOk := true, readTook := 0, readOk := true }
  slack := fun _ => 0

theorem deadPeer_contact (now : Nat) : contact deadPeer now = (now + 10000007500, false) := by
  have hok : ∀ n, (deadPeer.tries n).ok = false := fun _ => rfl
  obtain ⟨T, hT⟩ : ∃ T, T = 2000000000 := ⟨_, rfl⟩
  have ht : ∀ n, (deadPeer.tries n).took = T := fun _ => hT.symm
  have hs : ∀ n, deadPeer.slack n = 0 := fun _ => rfl
  have hb : ∀ n, backOffDelay peerRetryDelay n = 500 * 2 ^ n := fun n => by rw [backOffDelay, Nat.shiftLeft_eq]; rfl
  rw [contact]
  simp only [contactLoop, hok, ht, hs, hb, Bool.false_eq_true, if_false, show ¬ (4 : Nat) = 0 by decide, show ¬ (3 : Nat) = 0 by decide,
    show ¬ (2 : Nat) = 0 by decide, show ¬ (1 : Nat) = 0 by decide, if_true, Prod.mk.injEq, and_true]
  omega

theorem slow_first (c : Candidate) (ha : c.accepted = true) (d : Nat) (hd : ∀ now, (contact c now).1 = now + d) (cs : List Candidate) : ∀ (k now : Nat),
    initPeersTimes (List.replicate k c ++ cs) now =
      ((List.range k).map (fun i => some (now + i * d)) ++ (initPeersTimes cs (now + k * d)).1, (initPeersTimes cs (now + k * d)).2)
  | 0, now => by simp
  | k + 1, now => by
    rw [List.replicate_succ, List.cons_append, initPeersTimes, if_pos ha, hd, slow_first c ha d hd cs k]
    simp only [List.range_succ_eq_map, List.map_cons, List.map_map, Prod.mk.injEq, List.cons_append, List.cons.injEq]
    have h1 : ∀ i, now + d + i * d = now + (i + 1) * d := by intro i; rw [Nat.succ_mul]; omega
    rw [h1]
    refine ⟨⟨by simp, ?_⟩, rfl⟩
    congr 1
    apply List.map_congr_left
    intro i _
    exact congrArg some (h1 i)

theorem dead_first (cs : List Candidate) (k now : Nat) :
    initPeersTimes (List.replicate k deadPeer ++ cs) now =
      ((List.range k).map (fun i => some (now + i * 10000007500)) ++ (initPeersTimes cs (now + k * 10000007500)).1,
        (initPeersTimes cs (now + k * 10000007500)).2) :=
  slow_first deadPeer rfl _ (fun now => by rw [deadPeer_contact]) cs k now

/-- C118 is violated: `k` dead peers before a good one delay it by ten seconds each; no bound holds for all responses, although all peers keep
to the timeouts. -/
theorem C118_violated (limit : Nat) (good : Candidate) (hg : good.accepted = true) :
    ∃ k, (∀ c ∈ List.replicate k deadPeer, Candidate.InTime 0 c) ∧ ¬ Prompt limit (List.replicate k deadPeer ++ [good]) := by
  refine ⟨limit + 1, ?_, ?_⟩
  · intro c hc
    rw [List.eq_of_mem_replicate hc]
    refine ⟨fun n => ?_, fun _ => Nat.le_refl 0⟩
    simp [TimedAttempt.InTime, deadPeer]
  · intro h
    have := h 0 (0 + (limit + 1) * 10000007500) (by
      rw [dead_first]
      simp only [initPeersTimes, if_pos hg]
      simp)
    omega

/-- The tracker is asked again only after all that: the wait of `WaitInterval` begins when `initPeers` is done. -/
theorem C118_reannounce_partial (k now : Nat) : (initPeersTimes (List.replicate k deadPeer) now).2 = now + k * 10000007500 := by
  have := dead_first [] k now
  rw [List.append_nil] at this
  rw [this]
  rfl

theorem took_spent (a : TimedAttempt) : a.took = spent a := by
  unfold TimedAttempt.took spent
  cases a.dialOk <;> cases a.writeOk <;> simp <;> omega

theorem ok_answered (a : TimedAttempt) : a.ok = true ↔ answered a := by
  unfold TimedAttempt.ok answered
  simp [and_assoc]

theorem contactLoop_exact (c : Candidate) : ∀ (left n now : Nat), left + n = 4 → (∀ i, i < n → ¬ answered (c.tries i)) →
    ∃ last, n ≤ last ∧ LastTry c last ∧ ((contactLoop c.tries c.slack (left + 1) n now).2 = true ↔ answered (c.tries last)) ∧
      (contactLoop c.tries c.slack (left + 1) n now).1 = now + ((List.range' n (last - n)).map (fun i => spent (c.tries i) + 500 * 2 ^ i + c.slack i)).sum +
        spent (c.tries last) := by
  intro left
  induction left with
  | zero =>
    intro n now hn hf
    refine ⟨n, Nat.le_refl _, ⟨by omega, hf, .inr (by omega)⟩, ?_⟩
    rw [contactLoop]
    by_cases h : (c.tries n).ok = true
    · rw [if_pos h]
      simp [(ok_answered _).1 h, took_spent]
    · rw [if_neg h]
      have := mt (ok_answered (c.tries n)).2 h
      simp [this, took_spent]
  | succ left ih =>
    intro n now hn hf
    rw [contactLoop]
    by_cases h : (c.tries n).ok = true
    · rw [if_pos h]
      refine ⟨n, Nat.le_refl _, ⟨by omega, hf, .inl ((ok_answered _).1 h)⟩, ?_⟩
      simp [(ok_answered _).1 h, took_spent]
    · rw [if_neg h, if_neg (by omega)]
      have hna := mt (ok_answered (c.tries n)).2 h
      obtain ⟨last, h1, h2, h3, h4⟩ := ih (n + 1) (now + (c.tries n).took + backOffDelay peerRetryDelay n + c.slack n) (by omega) (by
        intro i hi
        by_cases e : i = n
        · rw [e]; exact hna
        · exact hf i (by omega))
      refine ⟨last, by omega, h2, h3, ?_⟩
      rw [h4]
      have hb : backOffDelay peerRetryDelay n = 500 * 2 ^ n := by rw [backOffDelay, Nat.shiftLeft_eq]; rfl
      rw [show last - n = (last - (n + 1)) + 1 from by omega, List.range'_succ, List.map_cons, List.sum_cons, hb, took_spent]
      omega

/-- C118, exact for one peer: it is tried until an attempt succeeds or five have failed; each attempt costs dialling, and as far as it gets
writing and reading; between attempts there are 0.5, 1, 2 and 4 microseconds; its download starts if and only if the last attempt succeeded. -/
theorem C118_exact_partial (c : Candidate) (now : Nat) : ∃ last, LastTry c last ∧ ((contact c now).2 = true ↔ answered (c.tries last)) ∧
    (contact c now).1 = now + ((List.range last).map (fun i => spent (c.tries i) + 500 * 2 ^ i + c.slack i)).sum + spent (c.tries last) := by
  obtain ⟨last, _, h2, h3, h4⟩ := contactLoop_exact c 4 0 now rfl (fun i hi => absurd hi (Nat.not_lt_zero i))
  refine ⟨last, h2, h3, ?_⟩
  rw [Nat.sub_zero, ← List.range_eq_range'] at h4
  exact h4

/-! ## Cases -/

/-- The last of fifty peers, the others dead, is dialled after 490 seconds. -/
example (good : Candidate) (hg : good.accepted = true) :
    (initPeersTimes (List.replicate 49 deadPeer ++ [good]) 0).1[49]? = some (some 490000367500) := by
  rw [dead_first]
  simp [initPeersTimes, hg]

/-- A peer that accepts connections at once and then says nothing. -/
def mutePeer : Candidate where
  accepted := true
  tries := fun _ => { dialTook := 0, dialOk := true, writeTook := 0, writeOk := true, readTook := 1000000000, readOk := false }
  slack := fun _ => 0

/-- It takes five seconds. -/
example : contact mutePeer 0 = (5000007500, false) := by decide +kernel

/-- A peer whose first connection is refused after 3 ns and which answers on the second attempt. -/
example : LastTry { accepted := true, tries := fun n => ⟨3, n == 1, 5, true, 7, true⟩, slack := fun _ => 2 } 1 ∧
    contact { accepted := true, tries := fun n => ⟨3, n == 1, 5, true, 7, true⟩, slack := fun _ => 2 } 100 = (100 + (3 + 500 + 2) + (3 + 5 + 7), true) := by
  refine ⟨⟨by omega, ?_, .inl (by simp [answered])⟩, by decide +kernel⟩
  intro i hi
  simp [answered]; omega

end Gotit.Props
