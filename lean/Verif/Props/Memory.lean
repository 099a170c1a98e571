import Verif.Model.Peer
import Verif.Spec.Stream
import Verif.Props.Connection
/-
  C75: memory a peer makes the client reserve.
-/
namespace Gotit.Props
open Gotit Spec

theorem getBE_lt (bs : Bytes) : getBE bs < 256 ^ bs.length := by
  rw [← bigEndian_eq]
  induction bs with
  | nil => simp [bigEndian]
  | cons b bs ih =>
    simp only [bigEndian, List.length_cons, Nat.pow_succ]
    have := b.toNat_lt
    calc b.toNat * 256 ^ bs.length + bigEndian bs < b.toNat * 256 ^ bs.length + 256 ^ bs.length := by omega
      _ = (b.toNat + 1) * 256 ^ bs.length := by rw [Nat.add_mul, Nat.one_mul]
      _ ≤ 256 * 256 ^ bs.length := Nat.mul_le_mul_right _ (by omega)
      _ = 256 ^ bs.length * 256 := Nat.mul_comm _ _

theorem readFull_length (k : Kind) : ∀ (evs : List Ev) (n : Nat) (b : Bytes) (evs' : List Ev), readFull k n evs = (.ok b, evs') → b.length = n := by
  intro evs
  induction evs with
  | nil => intro n b evs' h; cases n <;> simp [readFull] at h; simp [h.1.symm]
  | cons e evs ih =>
    intro n b evs' h
    cases n with
    | zero => simp [readFull] at h; simp [h.1.symm]
    | succ n =>
      cases e with
      | data d =>
        rw [readFull] at h
        split at h
        · simp at h; rw [← h.1]; simp; omega
        · split at h
          · rename_i hr
            simp at h
            rw [← h.1, List.length_append, ih _ _ _ hr]; omega
          · rename_i hx; exact absurd h (by intro e; exact hx _ _ e)
      | timeout => simp [readFull] at h
      | fail e => simp [readFull] at h
      | eof => simp [readFull] at h

/-- C75: one call never reserves more than 4 + 2^32 - 1 bytes, a call that returns a message reserves four bytes more than
the message has, and one that gets no length reserves four. Missing: a bound by what the peer has sent. -/
theorem C75_alloc_partial (evs : List Ev) :
    readPeerMessageAlloc evs < 4 + 2 ^ 32 ∧ (∀ b evs', readPeerMessage evs = (.ok b, evs') → readPeerMessageAlloc evs = 4 + b.length) ∧
      ((∀ b evs', readExactly .stream 4 evs ≠ (.ok b, evs')) → readPeerMessageAlloc evs = 4) := by
  unfold readPeerMessageAlloc readPeerMessage
  match h : readExactly .stream 4 evs with
  | (.ok hdr, evs1) =>
    have hl := readFull_length _ _ _ _ _ h
    have := getBE_lt hdr
    rw [hl] at this
    simp only
    refine ⟨by omega, fun b evs' hb => ?_, fun hn => absurd rfl (hn _ _)⟩
    rw [readFull_length _ _ _ _ _ hb]
  | (.err e, evs1) => simp
  | (.panic e, evs1) => simp

/-- C75 is false of the code: four bytes from a peer make the client reserve any amount below 4 GiB, although nothing follows. -/
theorem C75_violated (n : Nat) (hn : n < 2 ^ 32) :
    ∃ hdr : Bytes, hdr.length = 4 ∧ readPeerMessageAlloc [.data hdr] = 4 + n := by
  refine ⟨putBE 4 n, by simp, ?_⟩
  have h : readExactly .stream 4 [Ev.data (putBE 4 n)] = (.ok (putBE 4 n), []) := by
    unfold readExactly
    rw [readFull]
    simp [putBack, putBE_length]
    rw [List.take_of_length_le (by simp)]
  unfold readPeerMessageAlloc
  rw [h]
  simp only
  rw [getBE_putBE 4 n (by omega)]

/-- C75 is false of the code: a have message with index `n` makes the peer's piece set `n + 1` bits long, whatever the torrent. -/
theorem C75_have_violated (sha1 : Bytes → Bytes) (t : Torrent) (p : Peer) (n : Nat) (hn : n < 2 ^ 32) (hl : p.bitset.len ≤ n) :
    ∃ frame : Bytes, frame.length = 5 ∧
      ∃ p', (newPeerMessage frame).bind (p.handlePeerMessage sha1 t) = .ok (none, p') ∧ p'.bitset.len = n + 1 := by
  refine ⟨4 :: putBE 4 n, by simp, { p with bitset := p.bitset.set n }, ?_, by simp [BitSet.set, hl]⟩
  have hu : uint32At (putBE 4 n) 0 = .ok n := by
    unfold uint32At
    rw [if_neg (by simp)]
    simp only [List.drop_zero]
    rw [List.take_of_length_le (by simp), getBE_putBE 4 n (by omega)]
  simp only [newPeerMessage, haveType, if_true]
  rw [hu]
  simp [Res.bind, Peer.handlePeerMessage, keepaliveType, bitfieldType, haveType]

/-- Four bytes, 4 GiB. -/
example : readPeerMessageAlloc [.data [255, 255, 255, 255]] = 4294967299 := by decide

/-- A message of three bytes reserves seven. -/
example : readPeerMessageAlloc [.data [0, 0, 0, 3, 1], .data [2, 3]] = 7 ∧ (readPeerMessage [.data [0, 0, 0, 3, 1], .data [2, 3]]).1 = .ok [1, 2, 3] := by
  decide

end Gotit.Props
