import Verif.Model.UdpTracker
import Verif.Lemmas.BE
import Verif.Props.HttpTracker
/-
  Properties C23–C26: UDP trackers.
-/
namespace Gotit.Props
open Gotit Gotit.Spec

/-! ## C23 -/

/-- C23 is false of the code: whatever the arguments, the announce datagram has 80 bytes, not 98. -/
theorem C23_length_violated (clientId : Bytes) (hc : clientId.length = 20) (connId tid : Nat) (hash : Bytes)
    (d : AnnounceData) (key : Nat) :
    (createAnnounce clientId connId tid hash d key).length = 80 ∧
    (createAnnounce clientId connId tid hash d key).length ≠ 98 := by
  simp [createAnnounce, binaryWriteString, hc]

/-- C23 is false of the code: the datagram does not depend on the info-hash, and where the hash belongs (offset 16) it
carries the client id. So no 20-byte hash other than the client id itself is ever announced. -/
theorem C23_hash_violated (clientId : Bytes) (hc : clientId.length = 20) (connId tid : Nat) (hash hash' : Bytes)
    (d : AnnounceData) (key : Nat) :
    createAnnounce clientId connId tid hash d key = createAnnounce clientId connId tid hash' d key ∧
    ((createAnnounce clientId connId tid hash d key).drop 16).take 20 = clientId := by
  refine ⟨rfl, ?_⟩
  have e : createAnnounce clientId connId tid hash d key = (putBE 8 connId ++ putBE 4 1 ++ putBE 4 tid) ++ (clientId ++
      (putBE 8 d.downloaded ++ putBE 8 d.left ++ putBE 8 d.uploaded ++ putBE 4 0 ++ putBE 4 0 ++ putBE 4 key ++
      putBE 4 (low32 (-1)) ++ putBE 4 (low32 d.port))) := by
    simp [createAnnounce, binaryWriteString]
  rw [e, drop_prefix (by simp), take_prefix hc]

/-- C23, what does hold: the first 16 bytes (connection id, action 1, transaction id) are as in BEP 15. -/
theorem C23_header_partial (clientId : Bytes) (connId tid : Nat) (hash : Bytes) (d : AnnounceData) (key : Nat)
    (h1 : connId < 2 ^ 64) (h2 : tid < 2 ^ 32) :
    let p := createAnnounce clientId connId tid hash d key
    getBE (p.take 8) = connId ∧ getBE ((p.drop 8).take 4) = 1 ∧ getBE ((p.drop 12).take 4) = tid := by
  simp only
  generalize hr : (clientId ++ putBE 8 d.downloaded ++ putBE 8 d.left ++ putBE 8 d.uploaded ++ putBE 4 0 ++ putBE 4 0 ++
      putBE 4 key ++ putBE 4 (low32 (-1)) ++ putBE 4 (low32 d.port)) = rest
  have e : createAnnounce clientId connId tid hash d key = putBE 8 connId ++ (putBE 4 1 ++ (putBE 4 tid ++ rest)) := by
    rw [← hr]; simp [createAnnounce, binaryWriteString]
  refine ⟨?_, ?_, ?_⟩
  · rw [e, take_prefix (by simp), getBE_putBE _ _ (by omega)]
  · rw [e, drop_prefix (by simp), take_prefix (by simp), getBE_putBE _ _ (by omega)]
  · have e2 : createAnnounce clientId connId tid hash d key = (putBE 8 connId ++ putBE 4 1) ++ (putBE 4 tid ++ rest) := by
      rw [e]; simp
    rw [e2, drop_prefix (by simp), take_prefix (by simp), getBE_putBE _ _ (by omega)]

/-- The number in the bytes `off .. off + len - 1` of a datagram. -/
def numberAt (p : Bytes) (off len : Nat) : Nat := getBE ((p.drop off).take len)

theorem numberAt_mid {a b c : Bytes} {off len : Nat} (ha : a.length = off) (hb : b.length = len) :
    numberAt (a ++ (b ++ c)) off len = getBE b := by
  rw [numberAt, drop_prefix ha, take_prefix hb]

/-- C23, the rest of the datagram: behind the client id stand, 20 bytes earlier than BEP 15 wants them, what was downloaded, what is
left, what was uploaded, event 0, address 0, the key and -1 for the number of peers wanted; the port takes 4 bytes instead of 2. -/
theorem C23_fields_partial (clientId : Bytes) (hc : clientId.length = 20) (connId tid : Nat) (hash : Bytes) (d : AnnounceData)
    (key : Nat) (h1 : d.downloaded < 2 ^ 64) (h2 : d.left < 2 ^ 64) (h3 : d.uploaded < 2 ^ 64) (hk : key < 2 ^ 32)
    (hp : 0 ≤ d.port) (hp' : d.port < 65536) :
    let p := createAnnounce clientId connId tid hash d key
    numberAt p 36 8 = d.downloaded ∧ numberAt p 44 8 = d.left ∧ numberAt p 52 8 = d.uploaded ∧ numberAt p 60 4 = 0 ∧
      numberAt p 64 4 = 0 ∧ numberAt p 68 4 = key ∧ numberAt p 72 4 = 2 ^ 32 - 1 ∧ (numberAt p 76 4 : Int) = d.port ∧
      (numberAt p 78 2 : Int) = d.port := by
  have hport : low32 d.port = d.port.toNat := by
    unfold low32; rw [Int.emod_eq_of_lt hp (by omega)]
  have hm : low32 (-1) = 2 ^ 32 - 1 := by decide
  have split : putBE 4 d.port.toNat = [0, 0] ++ (putBE 2 d.port.toNat ++ []) := by
    have e : d.port.toNat < 65536 := by omega
    have e1 : d.port.toNat / 256 ^ 3 = 0 := Nat.div_eq_of_lt (by omega)
    have e2 : d.port.toNat / 256 ^ 2 = 0 := Nat.div_eq_of_lt (by omega)
    simp [putBE, e1, e2]
  simp only [createAnnounce, binaryWriteString, hport, hm, List.append_nil]
  generalize hA : putBE 8 connId ++ putBE 4 1 ++ putBE 4 tid ++ clientId = A
  have lA : A.length = 36 := by rw [← hA]; simp [hc]
  have g8 : ∀ n, n < 2 ^ 64 → getBE (putBE 8 n) = n := fun n h => getBE_putBE 8 n (by omega)
  have g4 : ∀ n, n < 2 ^ 32 → getBE (putBE 4 n) = n := fun n h => getBE_putBE 4 n (by omega)
  simp only [List.append_assoc]
  refine ⟨?_, ?_, ?_, ?_, ?_, ?_, ?_, ?_, ?_⟩
  · have e := numberAt_mid (a := A) (b := putBE 8 d.downloaded) (c := putBE 8 d.left ++ putBE 8 d.uploaded ++ putBE 4 0 ++ putBE 4 0 ++ putBE 4 key ++ putBE 4 (2 ^ 32 - 1) ++ putBE 4 d.port.toNat) (off := 36) (len := 8) (by simp [lA]) (by simp)
    simp only [List.append_assoc] at e
    rw [e, g8 _ h1]
  · have e := numberAt_mid (a := A ++ putBE 8 d.downloaded) (b := putBE 8 d.left) (c := putBE 8 d.uploaded ++ putBE 4 0 ++ putBE 4 0 ++ putBE 4 key ++ putBE 4 (2 ^ 32 - 1) ++ putBE 4 d.port.toNat) (off := 44) (len := 8) (by simp [lA]) (by simp)
    simp only [List.append_assoc] at e
    rw [e, g8 _ h2]
  · have e := numberAt_mid (a := A ++ putBE 8 d.downloaded ++ putBE 8 d.left) (b := putBE 8 d.uploaded) (c := putBE 4 0 ++ putBE 4 0 ++ putBE 4 key ++ putBE 4 (2 ^ 32 - 1) ++ putBE 4 d.port.toNat) (off := 52) (len := 8) (by simp [lA]) (by simp)
    simp only [List.append_assoc] at e
    rw [e, g8 _ h3]
  · have e := numberAt_mid (a := A ++ putBE 8 d.downloaded ++ putBE 8 d.left ++ putBE 8 d.uploaded) (b := putBE 4 0) (c := putBE 4 0 ++ putBE 4 key ++ putBE 4 (2 ^ 32 - 1) ++ putBE 4 d.port.toNat) (off := 60) (len := 4) (by simp [lA]) (by simp)
    simp only [List.append_assoc] at e
    rw [e, g4 _ (by omega)]
  · have e := numberAt_mid (a := A ++ putBE 8 d.downloaded ++ putBE 8 d.left ++ putBE 8 d.uploaded ++ putBE 4 0) (b := putBE 4 0) (c := putBE 4 key ++ putBE 4 (2 ^ 32 - 1) ++ putBE 4 d.port.toNat) (off := 64) (len := 4) (by simp [lA]) (by simp)
    simp only [List.append_assoc] at e
    rw [e, g4 _ (by omega)]
  · have e := numberAt_mid (a := A ++ putBE 8 d.downloaded ++ putBE 8 d.left ++ putBE 8 d.uploaded ++ putBE 4 0 ++ putBE 4 0) (b := putBE 4 key) (c := putBE 4 (2 ^ 32 - 1) ++ putBE 4 d.port.toNat) (off := 68) (len := 4) (by simp [lA]) (by simp)
    simp only [List.append_assoc] at e
    rw [e, g4 _ hk]
  · have e := numberAt_mid (a := A ++ putBE 8 d.downloaded ++ putBE 8 d.left ++ putBE 8 d.uploaded ++ putBE 4 0 ++ putBE 4 0 ++ putBE 4 key) (b := putBE 4 (2 ^ 32 - 1)) (c := putBE 4 d.port.toNat) (off := 72) (len := 4) (by simp [lA]) (by simp)
    simp only [List.append_assoc] at e
    rw [e, g4 _ (by omega)]
  · have e := numberAt_mid (a := A ++ putBE 8 d.downloaded ++ putBE 8 d.left ++ putBE 8 d.uploaded ++ putBE 4 0 ++ putBE 4 0 ++ putBE 4 key ++ putBE 4 (2 ^ 32 - 1)) (b := putBE 4 d.port.toNat) (c := []) (off := 76) (len := 4) (by simp [lA]) (by simp)
    simp only [List.append_assoc, List.append_nil] at e
    rw [e, g4 _ (by omega)]
    omega
  · have e := numberAt_mid (a := A ++ putBE 8 d.downloaded ++ putBE 8 d.left ++ putBE 8 d.uploaded ++ putBE 4 0 ++ putBE 4 0 ++ putBE 4 key ++ putBE 4 (2 ^ 32 - 1) ++ [0, 0]) (b := putBE 2 d.port.toNat) (c := []) (off := 78) (len := 2) (by simp [lA]) (by simp)
    simp only [List.append_assoc] at e
    rw [split, e, getBE_putBE _ _ (by omega)]
    omega

/-- The connect request is exactly the 16 bytes of BEP 15. -/
theorem C23_connect (tid : Nat) :
    connectRequest tid = [0, 0, 4, 0x17, 0x27, 0x10, 0x19, 0x80, 0, 0, 0, 0] ++ putBE 4 tid := by
  have : putBE 8 0x41727101980 ++ putBE 4 0 = [0, 0, 4, 0x17, 0x27, 0x10, 0x19, 0x80, 0, 0, 0, 0] := by decide
  rw [connectRequest, this]

example : (createAnnounce (List.replicate 20 45) 7 8 (List.replicate 20 1) ⟨0, 0, 10, 6881⟩ 3).length = 80 := by decide

example : numberAt (createAnnounce (List.replicate 20 45) 7 8 (List.replicate 20 1) ⟨5, 0, 10, 6881⟩ 3) 76 4 = 6881 := by decide

/-! ## C24 -/

/-- The transaction id of a datagram, if it is long enough to have one. -/
def transactionOf (data : Bytes) : Option Nat := if data.length < 8 then none else some (getBE ((data.drop 4).take 4))

/-- C24: a datagram with a foreign or missing transaction id is always an error, and never one that passes on a message of the tracker; the
interval is unchanged, the connection id and the peer list are unchanged or reset to nothing. (The slice has at least 4 bytes; any capacity.) -/
theorem C24_foreign (t : UdpTracker) (response spare : Bytes) (tid : Nat) (h4 : 4 ≤ response.length)
    (hf : transactionOf response ≠ some tid) :
    ∃ t' e, parseTrackerResponse t response spare tid = (t', .err e) ∧ (∀ m, e ≠ .tracker m) ∧ t'.interval = t.interval ∧
      (t'.connectionId = t.connectionId ∨ t'.connectionId = 0) ∧ (t'.ips = t.ips ∨ t'.ips = []) := by
  have hchk : 8 ≤ response.length → checkTransactionId response tid = false := by
    intro h8
    simp only [transactionOf, show ¬ response.length < 8 from by omega, if_false, ne_eq, Option.some.injEq] at hf
    simpa [checkTransactionId] using hf
  have hconn : ∃ e, readConnect response tid = .err e ∧ ∀ m, e ≠ .tracker m := by
    unfold readConnect
    split
    · exact ⟨_, rfl, by simp⟩
    · rw [hchk (by omega)]; exact ⟨_, rfl, by simp⟩
  have hann : ∃ e, readAnnounce t response tid = (t, .err e) ∧ ∀ m, e ≠ .tracker m := by
    unfold readAnnounce
    split
    · exact ⟨_, rfl, by simp⟩
    · rw [hchk (by omega)]; exact ⟨_, rfl, by simp⟩
  have herr : ∀ m, readError response tid ≠ .tracker m := by
    unfold readError
    split
    · simp
    · rw [hchk (by omega)]; simp
  obtain ⟨e1, h1, m1⟩ := hconn
  obtain ⟨e2, h2, m2⟩ := hann
  unfold parseTrackerResponse
  rw [if_neg (by omega), h1, h2]
  simp only
  split
  · exact ⟨_, _, rfl, m1, rfl, .inr rfl, .inl rfl⟩
  · split
    · exact ⟨_, _, rfl, m2, rfl, .inl rfl, .inr rfl⟩
    · split
      · exact ⟨_, _, rfl, herr, rfl, .inl rfl, .inl rfl⟩
      · exact ⟨_, _, rfl, by simp, rfl, .inl rfl, .inl rfl⟩

/-- C24: the parser panics exactly when the slice has fewer than 4 bytes including its spare capacity. -/
theorem C24_panic_iff (t : UdpTracker) (response spare : Bytes) (tid : Nat) :
    (parseTrackerResponse t response spare tid).2 = .panic ↔ response.length + spare.length < 4 := by
  unfold parseTrackerResponse
  split
  · simp_all
  · rename_i h
    simp only [h, iff_false]
    have h1 : readConnect response tid ≠ .panic := by
      unfold readConnect; repeat' split
      all_goals simp
    have h2 : (readAnnounce t response tid).2 ≠ .panic := by
      unfold readAnnounce; repeat' split
      all_goals simp
    split
    · split
      · simp
      · simp
      · rename_i h; exact absurd h h1
    · split
      · split
        · simp
        · simp
        · rename_i h; rw [h] at h2; simp at h2
      · split <;> simp

/-- `io.ReadFull` that succeeds fills the buffer. -/
theorem readFull_fills : ∀ (k : Kind) (evs : List Ev) (n : Nat) (b : Bytes) evs', readFull k n evs = (.ok b, evs') → b.length = n := by
  intro k evs
  induction evs with
  | nil => intro n b evs' h; cases n <;> simp [readFull] at h; simp [h.1]
  | cons e evs ih =>
    intro n b evs' h
    cases n with
    | zero => simp [readFull] at h; simp [h.1]
    | succ n =>
      cases e with
      | data x =>
        rw [readFull] at h
        split at h
        · rename_i hle
          simp only [Prod.mk.injEq, Res.ok.injEq] at h
          rw [← h.1, List.length_take]; omega
        · rename_i hle
          split at h
          · rename_i heq
            simp only [Prod.mk.injEq, Res.ok.injEq] at h
            rw [← h.1, List.length_append, ih _ _ _ heq]; omega
          · rename_i heq; rw [h] at heq; exact absurd rfl (heq _ _)
      | timeout => simp [readFull] at h
      | fail e => simp [readFull] at h
      | eof => simp [readFull] at h

/-- C24 for a whole announce: over every socket behaviour no panic can happen in `Announce`, if `io.ReadAll`'s slice has
4 bytes of capacity (it always has 512). -/
theorem C24_announce_no_panic (clientId : Bytes) (t : UdpTracker) (hash : Bytes) (d : AnnounceData) (r : UdpRandom)
    (writeErr : Option String) (evs : List Ev) (spare : Bytes) (hs : 4 ≤ spare.length) :
    (udpAnnounce clientId t hash d r writeErr evs spare).2.2 ≠ .panic := by
  have hlen := readFull_fills
  have hnp : ∀ (k : Kind) (evs : List Ev) (n : Nat) w evs', readFull k n evs ≠ (.panic w, evs') := by
    intro k evs
    induction evs with
    | nil => intro n w evs' h; cases n <;> simp [readFull] at h
    | cons e evs ih =>
      intro n w evs' h
      cases n with
      | zero => simp [readFull] at h
      | succ n =>
        cases e with
        | data x =>
          rw [readFull] at h
          split at h
          · simp at h
          · split at h
            · simp at h
            · exact ih _ _ _ h
        | timeout => simp [readFull] at h
        | fail e => simp [readFull] at h
        | eof => simp [readFull] at h
  have hra : ∀ (evs : List Ev) acc w evs', readAll acc evs ≠ (.panic w, evs') := by
    intro evs
    induction evs with
    | nil => intro acc w evs' h; simp [readAll] at h
    | cons e evs ih =>
      intro acc w evs' h
      cases e with
      | data x => exact ih _ _ _ h
      | timeout => simp [readAll] at h
      | fail e => simp [readAll] at h
      | eof => simp [readAll] at h
  unfold udpAnnounce
  split
  · simp
  · rename_i hh
    unfold udpHandshake at hh
    cases writeErr with
    | some e => simp at hh
    | none =>
      simp only at hh
      split at hh
      · simp at hh
      · rename_i heq; exact absurd heq (hnp _ _ _ _ _)
      · rename_i b evs' heq
        have hb : b.length = 16 := hlen _ _ _ _ _ heq
        split at hh
        · simp at hh
        · simp at hh
        · rename_i heq2
          have := (C24_panic_iff t b [] r.tid1).1 (by rw [heq2])
          simp only [List.length_nil] at this; omega
  · split
    · simp
    · rename_i heq; exact absurd heq (hra _ _ _ _)
    · split
      · simp
      · simp
      · rename_i t' _ _ _ _ _ _ heq2
        have := (C24_panic_iff _ _ spare r.tid2).1 (by rw [heq2])
        omega

example : transactionOf (putBE 4 0 ++ putBE 4 5 ++ putBE 8 77) ≠ some 6 := by decide

/-! ## C25 -/

/-- `io.ReadAll` succeeds only if the event EOF occurs. -/
theorem readAll_ok {evs : List Ev} : ∀ {acc b evs'}, readAll acc evs = (.ok b, evs') → Ev.eof ∈ evs := by
  induction evs with
  | nil => intro acc b evs' h; simp [readAll] at h
  | cons e evs ih =>
    intro acc b evs' h
    cases e with
    | data x => exact List.mem_cons_of_mem _ (ih h)
    | timeout => simp [readAll] at h
    | fail e => simp [readAll] at h
    | eof => exact List.mem_cons_self

theorem readFull_sub {k : Kind} {evs : List Ev} : ∀ {n r evs'}, readFull k n evs = (r, evs') → Ev.eof ∈ evs' → Ev.eof ∈ evs := by
  induction evs with
  | nil => intro n r evs' h; cases n <;> simp [readFull] at h <;> (rw [h.2]; simp)
  | cons e evs ih =>
    intro n r evs' h
    cases n with
    | zero => simp [readFull] at h; rw [← h.2]; exact id
    | succ n =>
      cases e with
      | data x =>
        rw [readFull] at h
        split at h
        · simp only [Prod.mk.injEq] at h
          rw [← h.2]
          unfold putBack
          split
          · split <;> simp
          · simp
        · split at h
          · rename_i heq
            simp only [Prod.mk.injEq] at h
            rw [← h.2]
            intro hm; exact List.mem_cons_of_mem _ (ih heq hm)
          · intro hm; exact List.mem_cons_of_mem _ (ih h hm)
      | timeout => simp [readFull] at h; rw [← h.2]; exact List.mem_cons_of_mem _
      | fail e => simp [readFull] at h; rw [← h.2]; exact List.mem_cons_of_mem _
      | eof => intro _; exact List.mem_cons_self

/-- What the handshake leaves unread comes from the socket. -/
theorem udpHandshake_sub {t : UdpTracker} {tid : Nat} {writeErr : Option String} {evs : List Ev} (h : Ev.eof ∈ (udpHandshake t tid writeErr evs).2.1) :
    Ev.eof ∈ evs := by
  unfold udpHandshake at h
  split at h
  · exact h
  · split at h
    · rename_i hr; exact readFull_sub hr h
    · rename_i hr; exact readFull_sub hr h
    · rename_i hr; split at h <;> exact readFull_sub hr h

/-- C25 is false of the code: a UDP socket never reports EOF, and then `Announce` fails, whatever datagrams arrive and
whenever they do. -/
theorem C25_announce_violated (clientId : Bytes) (t : UdpTracker) (hash : Bytes) (d : AnnounceData) (r : UdpRandom)
    (writeErr : Option String) (evs : List Ev) (spare : Bytes) (hs : 4 ≤ spare.length) (hudp : Ev.eof ∉ evs) :
    ∃ e, (udpAnnounce clientId t hash d r writeErr evs spare).2.2 = .err e := by
  have hnp := C24_announce_no_panic clientId t hash d r writeErr evs spare hs
  cases h : (udpAnnounce clientId t hash d r writeErr evs spare).2.2 with
  | err e => exact ⟨e, rfl⟩
  | panic => exact absurd h hnp
  | ok ips =>
    exfalso
    unfold udpAnnounce at h
    split at h
    · simp at h
    · simp at h
    · rename_i heq
      split at h
      · simp at h
      · simp at h
      · rename_i hr
        have h1 := readAll_ok hr
        apply hudp
        unfold udpHandshake at heq
        cases writeErr with
        | some e => simp at heq
        | none =>
          simp only at heq
          split at heq
          · simp at heq
          · simp at heq
          · rename_i hh
            split at heq
            · simp only [Prod.mk.injEq] at heq
              exact readFull_sub hh (heq.2.1 ▸ h1)
            · simp at heq
            · simp at heq

/-- The connect and announce answers of BEP 15. -/
def connectReply (tid connId : Nat) : Bytes := putBE 4 0 ++ (putBE 4 tid ++ putBE 8 connId)
def announceReply (tid interval leechers seeders : Nat) (peers : Bytes) : Bytes :=
  putBE 4 1 ++ (putBE 4 tid ++ (putBE 4 interval ++ (putBE 4 leechers ++ (putBE 4 seeders ++ peers))))

/-- A correct connect answer gives the connection id. -/
theorem C25_connect_partial (t : UdpTracker) (tid connId : Nat) (h1 : tid < 2 ^ 32) (h2 : connId < 2 ^ 64) (spare : Bytes) :
    parseTrackerResponse t (connectReply tid connId) spare tid = ({ t with connectionId := connId }, .ok ()) := by
  have hl : (connectReply tid connId).length = 16 := by simp [connectReply]
  have ha : getBE ((connectReply tid connId ++ spare).take 4) = 0 := by
    rw [connectReply, List.append_assoc, take_prefix (by simp), getBE_putBE _ _ (by omega)]
  have ht : getBE (((connectReply tid connId).drop 4).take 4) = tid := by
    rw [connectReply, drop_prefix (by simp), take_prefix (by simp), getBE_putBE _ _ (by omega)]
  have hc : getBE (((connectReply tid connId).drop 8).take 8) = connId := by
    have : connectReply tid connId = (putBE 4 0 ++ putBE 4 tid) ++ (putBE 8 connId ++ []) := by simp [connectReply]
    rw [this, drop_prefix (by simp), take_prefix (by simp), getBE_putBE _ _ (by omega)]
  unfold parseTrackerResponse
  rw [if_neg (by omega), ha]
  simp [readConnect, hl, checkTransactionId, ht, hc]

/-- A correct announce answer gives the peers and the interval. -/
theorem C25_parse_partial (t : UdpTracker) (tid interval leechers seeders : Nat) (peers : Bytes)
    (h1 : tid < 2 ^ 32) (h2 : interval < 2 ^ 32) (spare : Bytes) :
    parseTrackerResponse t (announceReply tid interval leechers seeders peers) spare tid =
      ({ t with ips := parseCompactPeers peers, interval := interval * 10 ^ 9 }, .ok ()) := by
  have hl : ¬ (announceReply tid interval leechers seeders peers).length < 20 := by simp [announceReply]; omega
  have ha : getBE ((announceReply tid interval leechers seeders peers ++ spare).take 4) = 1 := by
    rw [announceReply, List.append_assoc, take_prefix (by simp), getBE_putBE _ _ (by omega)]
  have ht : getBE (((announceReply tid interval leechers seeders peers).drop 4).take 4) = tid := by
    rw [announceReply, drop_prefix (by simp), take_prefix (by simp), getBE_putBE _ _ (by omega)]
  have hi : getBE (((announceReply tid interval leechers seeders peers).drop 8).take 4) = interval := by
    have : announceReply tid interval leechers seeders peers = (putBE 4 1 ++ putBE 4 tid) ++ (putBE 4 interval ++
      (putBE 4 leechers ++ (putBE 4 seeders ++ peers))) := by simp [announceReply]
    rw [this, drop_prefix (by simp), take_prefix (by simp), getBE_putBE _ _ (by omega)]
  have hp : (announceReply tid interval leechers seeders peers).drop 20 = peers := by
    have : announceReply tid interval leechers seeders peers = (putBE 4 1 ++ putBE 4 tid ++ putBE 4 interval ++
      putBE 4 leechers ++ putBE 4 seeders) ++ peers := by simp [announceReply]
    rw [this, drop_prefix (by simp)]
  unfold parseTrackerResponse
  rw [if_neg (by omega), ha]
  simp only [readAnnounce, if_neg hl, checkTransactionId, ht, hi, hp]
  rw [wrap64_small (by omega) (by omega)]
  simp

/-- C25, what does hold: if the socket did report the end of the datagram (as a TCP connection would), `Announce` would
return exactly the peers. Everything except the final read is right. -/
theorem C25_if_eof_partial (clientId : Bytes) (t : UdpTracker) (hash : Bytes) (d : AnnounceData) (r : UdpRandom)
    (connId interval leechers seeders : Nat) (h1 : r.tid1 < 2 ^ 32) (h2 : r.tid2 < 2 ^ 32) (h3 : connId < 2 ^ 64)
    (h4 : interval < 2 ^ 32) (peers : List (UInt8 × UInt8 × UInt8 × UInt8 × Nat))
    (hport : ∀ p ∈ peers, p.2.2.2.2 < 65536) (spare : Bytes) :
    (udpAnnounce clientId t hash d r none
      [.data (connectReply r.tid1 connId),
       .data (announceReply r.tid2 interval leechers seeders
         (peers.flatMap (fun (a, b, c, d, port) => compactEntry a b c d port))), .eof] spare).2.2 =
      .ok (peers.map (fun (a, b, c, d, port) => ⟨some (.v4 a b c d), port⟩)) := by
  have hl : (connectReply r.tid1 connId).length = 16 := by simp [connectReply]
  have hc := C19_compact peers hport [] (by simp)
  rw [List.append_nil] at hc
  have hh : udpHandshake t r.tid1 none
      [.data (connectReply r.tid1 connId),
       .data (announceReply r.tid2 interval leechers seeders
         (peers.flatMap (fun (a, b, c, d, port) => compactEntry a b c d port))), .eof] =
      ({ t with connectionId := connId }, [.data (announceReply r.tid2 interval leechers seeders
         (peers.flatMap (fun (a, b, c, d, port) => compactEntry a b c d port))), .eof], .ok connId) := by
    unfold udpHandshake
    simp only [readUdpHandshake, readExactly]
    rw [readFull]
    simp only [hl, Nat.le_refl, if_true, putBack]
    rw [List.take_of_length_le (by omega), C25_connect_partial _ _ _ h1 h3]
  unfold udpAnnounce
  rw [hh]
  simp only [readAll, List.nil_append]
  rw [C25_parse_partial _ _ _ _ _ _ h2 h4]
  simp only [hc]

/-! ## C26 -/

/-- The error packet of BEP 15 (action 3). -/
def errorReply (action tid : Nat) (message : Bytes) : Bytes := putBE 4 action ++ (putBE 4 tid ++ message)

theorem errorReply_action (action tid : Nat) (message spare : Bytes) (h : action < 2 ^ 32) :
    getBE ((errorReply action tid message ++ spare).take 4) = action := by
  rw [errorReply, List.append_assoc, take_prefix (by simp), getBE_putBE _ _ (by omega)]

/-- C26 is false of the code: for every BEP 15 error packet the error is "unrecognized … action code: 3"; the tracker's
message is not in it (it is the same for all messages). -/
theorem C26_message_violated (t : UdpTracker) (tid : Nat) (spare : Bytes) :
    ∃ e : UdpErr, ∀ message, parseTrackerResponse t (errorReply 3 tid message) spare tid = (t, .err e) := by
  refine ⟨.unrecognized 3, ?_⟩
  intro message
  unfold parseTrackerResponse
  rw [if_neg (by simp [errorReply]; omega), errorReply_action _ _ _ _ (by omega)]
  simp

/-- The same for a whole announce: the tracker answers the connect request with an error packet of 16 bytes or more. -/
theorem C26_announce_violated (clientId : Bytes) (t : UdpTracker) (hash : Bytes) (d : AnnounceData) (r : UdpRandom)
    (message : Bytes) (hm : 8 ≤ message.length) (evs : List Ev) (spare : Bytes) :
    (udpAnnounce clientId t hash d r none (.data (errorReply 3 r.tid1 message) :: evs) spare).2.2 =
      .err (.unrecognized 3) := by
  have ht : (errorReply 3 r.tid1 message).take 16 = errorReply 3 r.tid1 (message.take 8) := by
    have e : errorReply 3 r.tid1 message = (putBE 4 3 ++ putBE 4 r.tid1) ++ message := by simp [errorReply]
    rw [e, List.take_append, List.take_of_length_le (by simp)]
    simp [errorReply]
  have hh : udpHandshake t r.tid1 none (.data (errorReply 3 r.tid1 message) :: evs) = (t, evs, .err (.unrecognized 3)) := by
    unfold udpHandshake
    simp only [readUdpHandshake, readExactly]
    rw [readFull, if_pos (by simp [errorReply]; omega), ht]
    simp only
    unfold parseTrackerResponse
    rw [if_neg (by simp [errorReply]), errorReply_action _ _ _ _ (by omega)]
    simp [putBack]
  unfold udpAnnounce
  rw [hh]

/-- C26, what holds: with action 2 (which BEP 15 assigns to scrape) the message is reported. -/
theorem C26_action2_partial (t : UdpTracker) (tid : Nat) (ht : tid < 2 ^ 32) (message spare : Bytes) :
    parseTrackerResponse t (errorReply 2 tid message) spare tid = (t, .err (.tracker message)) ∧
      (UdpErr.tracker message).text = ascii "udp error response: " ++ message := by
  refine ⟨?_, rfl⟩
  have htid : getBE (((errorReply 2 tid message).drop 4).take 4) = tid := by
    rw [errorReply, drop_prefix (by simp), take_prefix (by simp), getBE_putBE _ _ (by omega)]
  have hd : (errorReply 2 tid message).drop 8 = message := by
    have e : errorReply 2 tid message = (putBE 4 2 ++ putBE 4 tid) ++ message := by simp [errorReply]
    rw [e, drop_prefix (by simp)]
  unfold parseTrackerResponse
  rw [if_neg (by simp [errorReply]; omega), errorReply_action _ _ _ _ (by omega)]
  have hl : ¬ (errorReply 2 tid message).length < 8 := by simp [errorReply]; omega
  simp only [readError, if_neg hl, checkTransactionId, htid, hd]
  simp

example (t : UdpTracker) : ∃ e, parseTrackerResponse t (errorReply 3 9 (ascii "no such torrent")) [] 9 = (t, .err e) ∧
    parseTrackerResponse t (errorReply 3 9 (ascii "banned")) [] 9 = (t, .err e) := by
  obtain ⟨e, h⟩ := C26_message_violated t 9 []
  exact ⟨e, h _, h _⟩

/-! ### C21 for UDP trackers -/

theorem udpHandshake_interval (t : UdpTracker) (tid : Nat) (writeErr : Option String) (evs : List Ev) :
    (udpHandshake t tid writeErr evs).1.interval = t.interval := by
  unfold udpHandshake
  split
  · rfl
  · split
    · rfl
    · rfl
    · rename_i r evs' hr
      have hl : r.length = 16 := readFull_fills _ _ _ _ _ hr
      have : (parseTrackerResponse t r [] tid).1.interval = t.interval := by
        unfold parseTrackerResponse
        split
        · rfl
        · simp only
          split
          · split <;> rfl
          · split
            · have : readAnnounce t r tid = (t, .err .tooShort) := by unfold readAnnounce; rw [if_pos (by omega)]
              rw [this]
            · split <;> rfl
      split <;> (rename_i h; rw [h] at this; exact this)

theorem udpAnnounce_interval (clientId : Bytes) (t : UdpTracker) (hash : Bytes) (d : AnnounceData) (r : UdpRandom) (writeErr : Option String)
    (evs : List Ev) (spare : Bytes) (hudp : Ev.eof ∉ evs) : (udpAnnounce clientId t hash d r writeErr evs spare).2.1.interval = t.interval := by
  have hi := udpHandshake_interval t r.tid1 writeErr evs
  unfold udpAnnounce
  split
  · rename_i h; rw [h] at hi; exact hi
  · rename_i h; rw [h] at hi; exact hi
  · rename_i t' evs' c h
    rw [h] at hi
    simp only
    split
    · exact hi
    · exact hi
    · rename_i resp evs'' hr
      exact absurd (udpHandshake_sub (by rw [h]; exact readAll_ok hr)) hudp

theorem udpTries_interval (clientId hash : Bytes) : ∀ (xs : List UdpTry) (t : UdpTracker), (∀ x ∈ xs, Ev.eof ∉ x.evs) →
    (udpTries clientId hash t xs).1.interval = t.interval
  | [], _, _ => rfl
  | x :: xs, t, hu => by
    have hi := udpAnnounce_interval clientId t hash x.data x.random x.writeErr x.evs x.spare (hu x List.mem_cons_self)
    rw [udpTries]
    split
    · rename_i h
      rw [h] at hi
      split
      · exact hi
      · rw [udpTries_interval clientId hash xs _ (fun y hy => hu y (List.mem_cons_of_mem _ hy))]
        exact hi
    · rename_i h; rw [h] at hi; exact hi

theorem runUdpTracker_wait (clientId hash : Bytes) : ∀ (rs : List UdpRound) (t : UdpTracker) (now i : Nat),
    (∀ r ∈ rs, ∀ x ∈ r.tries, Ev.eof ∉ x.evs) → ∀ (start done : Nat) (res : UdpRes (List AddrPort)) (r : UdpRound)
    (next : Nat × Nat × UdpRes (List AddrPort)), (runUdpTracker clientId hash t now rs)[i]? = some (start, done, res) → rs[i]? = some r →
    (runUdpTracker clientId hash t now rs)[i + 1]? = some next → done = start + r.took ∧ next.1 = done + t.interval.toNat + r.slack
  | [], _, _, _, _ => by simp [runUdpTracker]
  | r :: rs, t, now, i, hu => by
    have hi := udpTries_interval clientId hash r.tries t (hu r List.mem_cons_self)
    intro start done res r' next h1 hr h2
    rw [runUdpTracker] at h1 h2
    cases i with
    | zero =>
      simp only [List.getElem?_cons_zero, Option.some.injEq, Prod.mk.injEq] at h1 hr
      simp only [Nat.zero_add, List.getElem?_cons_succ] at h2
      cases rs with
      | nil => simp [runUdpTracker] at h2
      | cons r2 rs =>
        rw [runUdpTracker] at h2
        simp only [List.getElem?_cons_zero, Option.some.injEq] at h2
        rw [← h2, ← hr, ← h1.1, ← h1.2.1]
        simp only [waitInterval, hi]
        exact ⟨trivial, trivial⟩
    | succ i =>
      simp only [List.getElem?_cons_succ] at h1 hr h2
      have := runUdpTracker_wait clientId hash rs _ _ i (fun y hy => hu y (List.mem_cons_of_mem _ hy)) start done res r' next h1 hr h2
      rw [hi] at this
      exact this

/-- C21 for UDP trackers: nothing a tracker sends changes the minute `newUdpTracker` starts with, as a UDP socket reports no EOF
(`C25_announce_violated`); every announce starts a minute and the scheduling delay after the end of the one before. Missing: the interval the
tracker asks for. -/
theorem C21_udp_partial (clientId hash : Bytes) (rs : List UdpRound) (now i : Nat) (hudp : ∀ r ∈ rs, ∀ x ∈ r.tries, Ev.eof ∉ x.evs)
    (start done : Nat) (res : UdpRes (List AddrPort)) (r : UdpRound) (next : Nat × Nat × UdpRes (List AddrPort))
    (h1 : (runUdpTracker clientId hash newUdpTracker now rs)[i]? = some (start, done, res)) (hr : rs[i]? = some r)
    (h2 : (runUdpTracker clientId hash newUdpTracker now rs)[i + 1]? = some next) :
    done = start + r.took ∧ next.1 = done + 60000000000 + r.slack :=
  runUdpTracker_wait clientId hash rs newUdpTracker now i hudp start done res r next h1 hr h2

/-- A tracker that answers the handshake and then asks for 1800 seconds is asked again after 60. -/
example : ((runUdpTracker [] [] newUdpTracker 0
    [⟨[⟨⟨0, 8, 0, 6881⟩, ⟨5, 6, 0⟩, none, [.data (connectReply 5 77), .data (announceReply 6 1800 0 0 []), .timeout], List.replicate 512 0⟩], 5, 1⟩,
     ⟨[], 0, 0⟩])[1]?).map (·.1) = some 60000000006 := by decide +kernel

end Gotit.Props
