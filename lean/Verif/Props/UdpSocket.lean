import Verif.Model.UdpSocket
import Verif.Props.UdpTracker
/-
  C115: late replies of a UDP tracker.
-/
namespace Gotit.Props
open Gotit Spec

theorem connectReply_length (tid c : Nat) : (connectReply tid c).length = 16 := by simp [connectReply]

theorem connectReply_other (t : UdpTracker) (tid tid' c : Nat) (h : tid' < 2 ^ 32) (hne : tid' ≠ tid) (spare : Bytes) :
    parseTrackerResponse t (connectReply tid' c) spare tid = ({ t with connectionId := 0 }, .err .badTransaction) := by
  have ha : getBE ((connectReply tid' c ++ spare).take 4) = 0 := by
    rw [connectReply, List.append_assoc, take_prefix (by simp), getBE_putBE _ _ (by omega)]
  have ht : getBE (((connectReply tid' c).drop 4).take 4) = tid' := by
    rw [connectReply, drop_prefix (by simp), take_prefix (by simp), getBE_putBE _ _ (by omega)]
  unfold parseTrackerResponse
  rw [if_neg (by rw [connectReply_length]; omega), ha]
  simp [readConnect, connectReply_length, checkTransactionId, ht, hne]

/-- One attempt with a connect reply at the front of the socket. -/
theorem handshake_front (t : UdpTracker) (tid tid' c : Nat) (h1 : tid' < 2 ^ 32) (h2 : c < 2 ^ 64) (rest : List Ev) :
    udpHandshake t tid none (.data (connectReply tid' c) :: rest) =
      if tid' = tid then ({ t with connectionId := c }, rest, .ok c) else ({ t with connectionId := 0 }, rest, .err .badTransaction) := by
  have hr : readUdpHandshake (.data (connectReply tid' c) :: rest) = (.ok (connectReply tid' c), rest) := by
    simp only [readUdpHandshake, readExactly, readFull, putBack, connectReply_length]
    simp [connectReply_length, List.take_of_length_le]
  unfold udpHandshake
  simp only [hr]
  by_cases e : tid' = tid
  · subst e
    rw [C25_connect_partial t tid' c h1 h2 [], if_pos rfl]
  · rw [connectReply_other t tid tid' c h1 e [], if_neg e]

/-- An attempt whose reply arrives in time. -/
def answered (x : Nat × Nat) : UdpAttempt := ⟨x.1, none, [.data (connectReply x.1 x.2)], []⟩

theorem out_of_step : ∀ (l : List (Nat × Nat)) (t : UdpTracker) (prev : Nat × Nat), (∀ x ∈ prev :: l, x.1 < 2 ^ 32 ∧ x.2 < 2 ^ 64) →
    ((prev :: l).map (·.1)).Nodup →
    udpAttempts t [.data (connectReply prev.1 prev.2)] (l.map answered) = List.replicate l.length (.err .badTransaction)
  | [], _, _, _, _ => rfl
  | x :: l, t, prev, hb, hd => by
    have hp := hb prev List.mem_cons_self
    have hne : prev.1 ≠ x.1 := by
      intro h
      simp [h] at hd
    rw [List.map_cons, udpAttempts]
    simp only [answered, List.cons_append, List.nil_append]
    rw [handshake_front t x.1 prev.1 prev.2 hp.1 hp.2, if_neg hne]
    simp only [List.length_cons, List.replicate_succ]
    congr 1
    exact out_of_step l _ x (fun y hy => hb y (List.mem_cons_of_mem _ hy)) (by
      simp only [List.map_cons, List.nodup_cons] at hd ⊢
      exact hd.2)

/-- C115 is violated: one reply comes too late, after the deadline of its attempt. The next attempt finds it on the socket in front of its own
reply; and although from then on the tracker answers every request in time, every attempt fails, each reading the reply to the one before. -/
theorem C115_violated (t : UdpTracker) (first second : Nat × Nat) (l : List (Nat × Nat))
    (hb : ∀ x ∈ first :: second :: l, x.1 < 2 ^ 32 ∧ x.2 < 2 ^ 64) (hd : ((first :: second :: l).map (·.1)).Nodup) :
    udpAttempts t [] (⟨first.1, none, [], []⟩ ::
        ⟨second.1, none, [.data (connectReply first.1 first.2), .data (connectReply second.1 second.2)], []⟩ :: l.map answered) =
      .err (.conn "i/o timeout") :: List.replicate (l.length + 1) (.err .badTransaction) := by
  have hp := hb first List.mem_cons_self
  have hne : first.1 ≠ second.1 := by
    intro h
    simp [h] at hd
  rw [udpAttempts]
  simp only [List.append_nil]
  have h0 : udpHandshake t first.1 none [] = (t, [], .err (.conn "i/o timeout")) := rfl
  rw [h0]
  simp only
  rw [udpAttempts]
  simp only [List.nil_append]
  rw [handshake_front t second.1 first.1 first.2 hp.1 hp.2, if_neg hne]
  simp only [List.replicate_succ]
  rw [out_of_step l _ second (fun y hy => hb y (List.mem_cons_of_mem _ hy)) (by
      simp only [List.map_cons, List.nodup_cons] at hd ⊢
      exact hd.2)]

/-- C115, exactly what happens when connect replies are on the socket: the attempt reads the first, succeeds if and only if that is the reply to
its own request, and takes nothing else. Missing: that it looks further. -/
theorem C115_first_partial (t : UdpTracker) (tid : Nat) (x : Nat × Nat) (hx : x.1 < 2 ^ 32 ∧ x.2 < 2 ^ 64) (rest : List Ev) :
    (udpHandshake t tid none (.data (connectReply x.1 x.2) :: rest)).2.1 = rest ∧
    ∀ c, (udpHandshake t tid none (.data (connectReply x.1 x.2) :: rest)).2.2 = .ok c ↔ x.1 = tid ∧ x.2 = c := by
  rw [handshake_front t tid x.1 x.2 hx.1 hx.2 rest]
  split <;> simp_all

theorem readAll_rest : ∀ (evs : List Ev) (acc : Bytes), (∀ e ∈ evs, ∃ d, e = .data d) → (readAll acc evs).2 = []
  | [], _, _ => rfl
  | e :: evs, acc, h => by
    obtain ⟨d, rfl⟩ := h e List.mem_cons_self
    rw [readAll]
    exact readAll_rest evs _ (fun x hx => h x (List.mem_cons_of_mem _ hx))

/-- C115, proved when no reply is late: if nothing is on the socket at first, and in each attempt the reply is the first datagram to arrive,
every connect succeeds, whatever else arrives after it. Missing: late replies. -/
theorem C115_in_time_partial : ∀ (l : List (Nat × Nat × List Bytes)) (t : UdpTracker), (∀ x ∈ l, x.1 < 2 ^ 32 ∧ x.2.1 < 2 ^ 64) →
    udpAttempts t [] (l.map fun x => ⟨x.1, none, [.data (connectReply x.1 x.2.1)], x.2.2.map .data⟩) = l.map fun x => .ok x.2.1
  | [], _, _ => rfl
  | x :: l, t, hb => by
    have hx := hb x List.mem_cons_self
    rw [List.map_cons, udpAttempts]
    simp only [List.nil_append]
    rw [handshake_front t x.1 x.1 x.2.1 hx.1 hx.2, if_pos rfl]
    simp only [List.nil_append, List.map_cons]
    rw [readAll_rest _ _ (by intro e he; obtain ⟨d, _, rfl⟩ := List.mem_map.1 he; exact ⟨d, rfl⟩)]
    rw [C115_in_time_partial l _ (fun y hy => hb y (List.mem_cons_of_mem _ hy))]

/-! ## Cases -/

/-- Four attempts; the first reply comes 0.6 seconds after the request. -/
example : udpAttempts newUdpTracker [] [⟨11, none, [], []⟩, ⟨12, none, [.data (connectReply 11 1), .data (connectReply 12 2)], []⟩,
    answered (13, 3), answered (14, 4)] =
    [.err (.conn "i/o timeout"), .err .badTransaction, .err .badTransaction, .err .badTransaction] := by decide +kernel

/-- Two attempts with replies in time, and an announce reply after the first. -/
example : udpAttempts newUdpTracker [] [⟨11, none, [.data (connectReply 11 1)], [.data (announceReply 12 60 0 0 [])]⟩,
    ⟨13, none, [.data (connectReply 13 2)], []⟩] = [.ok 1, .ok 2] := by decide +kernel

end Gotit.Props
