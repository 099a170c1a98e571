import Verif.Props.UdpTracker
import Verif.Lemmas.Num
/-
  C133: answers of UDP trackers are taken for what they are.
-/
namespace Gotit.Props
open Gotit Gotit.Spec

/-- C133, what is taken for an answer: one with the transaction id of the request that is either a connect answer of at least 16 bytes,
whose connection id is stored, or an announce answer of at least 20 bytes, whose interval and peers are. Which of the two was asked for
does not matter. -/
theorem C133_exact_partial (t t' : UdpTracker) (response spare : Bytes) (tid : Nat) (h4 : 4 ≤ response.length) :
    parseTrackerResponse t response spare tid = (t', .ok ()) ↔
      numberAt response 4 4 = tid ∧
      ((numberAt response 0 4 = 0 ∧ 16 ≤ response.length ∧ t' = { t with connectionId := numberAt response 8 8 }) ∨
       (numberAt response 0 4 = 1 ∧ 20 ≤ response.length ∧
         t' = { t with interval := numberAt response 8 4 * 10 ^ 9, ips := parseCompactPeers (response.drop 20) })) := by
  have ha : getBE ((response ++ spare).take 4) = numberAt response 0 4 := by
    rw [numberAt, List.drop_zero, List.take_append_of_le_length h4]
  have hlt : numberAt response 8 4 < 2 ^ 32 := by
    have := getBE_lt ((response.drop 8).take 4)
    have hl : ((response.drop 8).take 4).length ≤ 4 := by simp; omega
    unfold numberAt
    refine Nat.lt_of_lt_of_le this ?_
    exact Nat.pow_le_pow_right (n := 256) (by decide) hl
  have hw : wrap64 ((numberAt response 8 4 : Int) * 10 ^ 9) = (numberAt response 8 4 : Int) * 10 ^ 9 := by
    apply wrap64_eq_self <;> omega
  unfold parseTrackerResponse
  rw [if_neg (by omega)]
  simp only [ha]
  by_cases h0 : numberAt response 0 4 = 0
  · simp only [h0, if_true]
    unfold readConnect
    by_cases hl : response.length < 16
    · simp [hl, show ¬ 16 ≤ response.length from by omega]
    · rw [if_neg hl]
      unfold checkTransactionId
      change (match (if (!decide (numberAt response 4 4 = tid)) = true then UdpRes.err UdpErr.badTransaction else
        .ok (numberAt response 8 8)) with | .ok c => _ | .err e => _ | .panic => _) = _ ↔ _
      by_cases ht : numberAt response 4 4 = tid
      · simp [ht, show 16 ≤ response.length from by omega, eq_comm]
      · simp [ht]
  · simp only [h0, if_false]
    by_cases h1 : numberAt response 0 4 = 1
    · simp only [h1, if_true]
      unfold readAnnounce
      by_cases hl : response.length < 20
      · simp [hl, show ¬ 20 ≤ response.length from by omega]
      · rw [if_neg hl]
        unfold checkTransactionId
        change (match (if (!decide (numberAt response 4 4 = tid)) = true then (t, UdpRes.err UdpErr.badTransaction) else
          ({ t with interval := wrap64 ((numberAt response 8 4 : Int) * 10 ^ 9) }, UdpRes.ok (parseCompactPeers (response.drop 20)))) with
          | (t', .ok ips) => _ | (t', .err e) => _ | (t', .panic) => _) = _ ↔ _
        rw [hw]
        by_cases ht : numberAt response 4 4 = tid
        · simp [ht, show 20 ≤ response.length from by omega, eq_comm]
        · simp [ht]
    · simp only [h1, if_false]
      split <;> simp

/-- C133 for the connect request: it succeeds exactly if the answer is a connect answer with the right transaction id, and the result is
the connection id in it. -/
theorem C133_connect (t : UdpTracker) (tid : Nat) (writeErr : Option String) (evs : List Ev) (c : Nat) :
    (udpHandshake t tid writeErr evs).2.2 = .ok c ↔
      writeErr = none ∧ ∃ r, (readUdpHandshake evs).1 = .ok r ∧ numberAt r 0 4 = 0 ∧ numberAt r 4 4 = tid ∧ c = numberAt r 8 8 := by
  unfold udpHandshake
  cases writeErr with
  | some e => simp
  | none =>
    simp only [true_and]
    rcases hrd : readUdpHandshake evs with ⟨a, evs'⟩
    cases a with
    | err e => simp
    | panic e => simp
    | ok r =>
      have hl : r.length = 16 := readFull_fills _ _ _ _ _ hrd
      simp only [Res.ok.injEq, exists_eq_left']
      rcases hp : parseTrackerResponse t r [] tid with ⟨t', o⟩
      cases o with
      | ok u =>
        have := (C133_exact_partial t t' r [] tid (by omega)).1 hp
        obtain ⟨h1, ⟨h2, _, h3⟩ | ⟨_, h2, _⟩⟩ := this
        · subst h3
          simp [h1, h2, eq_comm]
        · omega
      | err e =>
        simp only [false_iff, reduceCtorEq]
        rintro ⟨h1, h2, h3⟩
        have := (C133_exact_partial t { t with connectionId := numberAt r 8 8 } r [] tid (by omega)).2 ⟨h2, .inl ⟨h1, by omega, rfl⟩⟩
        rw [hp] at this
        cases this
      | panic =>
        simp only [false_iff, reduceCtorEq]
        rintro ⟨h1, h2, h3⟩
        have := (C133_exact_partial t { t with connectionId := numberAt r 8 8 } r [] tid (by omega)).2 ⟨h2, .inl ⟨h1, by omega, rfl⟩⟩
        rw [hp] at this
        cases this

/-- C133 is false of the code: an announce that is answered with a connect answer succeeds, and its result is the peers of a former
announce. (As in C25, if the answer could be read at all.) -/
theorem C133_violated (clientId : Bytes) (t : UdpTracker) (hash : Bytes) (d : AnnounceData) (r : UdpRandom) (connId other : Nat)
    (h1 : r.tid1 < 2 ^ 32) (h2 : r.tid2 < 2 ^ 32) (h3 : connId < 2 ^ 64) (h4 : other < 2 ^ 64) (spare : Bytes) :
    (udpAnnounce clientId t hash d r none [.data (connectReply r.tid1 connId), .data (connectReply r.tid2 other), .eof] spare).2.2 = .ok t.ips := by
  have hl : (connectReply r.tid1 connId).length = 16 := by simp [connectReply]
  have hh : udpHandshake t r.tid1 none [.data (connectReply r.tid1 connId), .data (connectReply r.tid2 other), .eof] =
      ({ t with connectionId := connId }, [.data (connectReply r.tid2 other), .eof], .ok connId) := by
    unfold udpHandshake
    simp only [readUdpHandshake, readExactly]
    rw [readFull, if_pos (by omega)]
    rw [List.take_of_length_le (by omega)]
    simp only [C25_connect_partial t r.tid1 connId h1 h3]
    simp [putBack]
  unfold udpAnnounce
  rw [hh]
  simp only [readAll, List.nil_append]
  rw [C25_connect_partial _ r.tid2 other h2 h4]

example : (udpAnnounce (List.replicate 20 45) { newUdpTracker with ips := [⟨some (.v4 1 2 3 4), 5⟩] } [] ⟨0, 0, 10, 6881⟩ ⟨7, 8, 9⟩ none
    [.data (connectReply 7 1), .data (connectReply 8 2), .eof] []).2.2 = .ok [⟨some (.v4 1 2 3 4), 5⟩] := by decide

/-- A connect request that succeeds, and one answered with an announce answer, which does not. -/
example : (udpHandshake newUdpTracker 7 none [.data (connectReply 7 99)]).2.2 = .ok 99 ∧
    (udpHandshake newUdpTracker 7 none [.data (announceReply 7 1 1 1 [1, 2, 3, 4, 5, 6])]).2.2 = .err .tooShort := by decide

end Gotit.Props
