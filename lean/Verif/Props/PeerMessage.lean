import Verif.Model.PeerMessage
import Verif.Spec.Wire
import Verif.Lemmas.BE
/-
  Properties C27–C31: peer wire messages.
-/
namespace Gotit.Props
open Gotit Gotit.Spec

/-- The decoder in closed form. -/
theorem newPeerMessage_cons (ty : UInt8) (p : Bytes) :
    newPeerMessage (ty :: p) =
      if ty = 4 then
        if p.length < 4 then .panic "slice bounds out of range"
        else .ok { len := (p.length + 1) % 2 ^ 32, type := ty, payload := p, index := num4 p 0 }
      else if ty = 6 ∨ ty = 8 then
        if p.length < 12 then .panic "slice bounds out of range"
        else .ok { len := (p.length + 1) % 2 ^ 32, type := ty, payload := p, index := num4 p 0, offset := num4 p 4,
                   blockLength := num4 p 8 }
      else if ty = 7 then
        if p.length < 8 then .panic "slice bounds out of range"
        else .ok { len := (p.length + 1) % 2 ^ 32, type := ty, payload := p, index := num4 p 0, offset := num4 p 4 }
      else .ok { len := (p.length + 1) % 2 ^ 32, type := ty, payload := p } := by
  simp only [newPeerMessage, haveType, requestType, cancelType, pieceType, uint32At, num4]
  by_cases h4 : ty = 4
  · simp only [h4, if_true]
    by_cases hl : p.length < 4
    · simp [hl, Res.bind]
    · simp [hl, Res.bind]
  · simp only [h4, if_false]
    by_cases h6 : ty = 6 ∨ ty = 8
    · simp only [h6, if_true]
      by_cases hl : p.length < 12
      · by_cases h0 : p.length < 4
        · simp [hl, h0, Res.bind]
        · by_cases h1 : p.length < 8 <;> simp [hl, h0, h1, Res.bind]
      · simp [hl, show ¬ p.length < 4 from by omega, show ¬ p.length < 8 from by omega, Res.bind]
    · simp only [h6, if_false]
      by_cases h7 : ty = 7
      · simp only [h7, if_true]
        by_cases hl : p.length < 8
        · by_cases h0 : p.length < 4 <;> simp [hl, h0, Res.bind]
        · simp [hl, show ¬ p.length < 4 from by omega, Res.bind]
      · simp [h7]

/-! ## C27 -/

theorem wire_ne {m : PeerMessage} (h : m.type ≠ keepaliveType) : m.wire = putBE 4 m.len ++ m.type :: m.payload := by
  simp [PeerMessage.wire, h]

/-- C27, exact: what `Send` writes is a frame iff the length field is the size of the body. -/
theorem C27_framed_iff_partial (m : PeerMessage) (h : m.len < 2 ^ 32) :
    Framed m.wire ↔ (m.type = 99 ∧ m.len = 0) ∨ (m.type ≠ 99 ∧ m.len = m.payload.length + 1) := by
  have key : ∀ body : Bytes, Framed (putBE 4 m.len ++ body) ↔ m.len = body.length := by
    intro body
    constructor
    · rintro ⟨hdr, body', he, hl, hb⟩
      obtain ⟨e1, e2⟩ := List.append_inj he (by simp [hl])
      rw [← e1, bigEndian_putBE _ _ (by omega)] at hb
      rw [e2]; exact hb
    · intro hl
      exact ⟨_, body, rfl, by simp, by rw [bigEndian_putBE _ _ (by omega)]; exact hl⟩
  by_cases ht : m.type = keepaliveType
  · have : m.wire = putBE 4 m.len ++ [] := by simp [PeerMessage.wire, ht]
    rw [this, key]
    simp only [keepaliveType] at ht
    simp [ht]
  · rw [wire_ne ht, key]
    simp only [keepaliveType] at ht
    simp [ht]

/-- C27, what holds: keep-alives, choke/unchoke/(not-)interested, have, request and cancel messages are framed correctly,
and so is every received message that is sent again, unless its type byte is 99; the bytes are then exactly the
bytes received. -/
theorem C27_framed_partial :
    Framed keepaliveMessage.wire ∧
    (∀ ty : UInt8, ty ≠ 99 → Framed (signalMessage ty).wire) ∧
    (∀ i, Framed (haveMessage i).wire) ∧
    (∀ i o l, Framed (requestMessage i o l).wire) ∧
    (∀ i o l, Framed (cancelMessage i o l).wire) ∧
    (∀ data m, newPeerMessage data = .ok m → data.length < 2 ^ 32 → data.head? ≠ some 99 →
      Framed m.wire ∧ m.wire = putBE 4 data.length ++ data) := by
  refine ⟨?_, ?_, ?_, ?_, ?_, ?_⟩
  · exact (C27_framed_iff_partial _ (by decide)).2 (.inl ⟨rfl, rfl⟩)
  · intro ty h; exact (C27_framed_iff_partial _ (by simp [signalMessage])).2 (.inr ⟨h, rfl⟩)
  · intro i
    exact (C27_framed_iff_partial _ (by simp [haveMessage])).2 (.inr ⟨by simp [haveMessage, haveType], by simp [haveMessage, put32]⟩)
  · intro i o l
    exact (C27_framed_iff_partial _ (by simp [requestMessage])).2 (.inr ⟨by simp [requestMessage, requestType], by simp [requestMessage, put32]⟩)
  · intro i o l
    exact (C27_framed_iff_partial _ (by simp [cancelMessage])).2 (.inr ⟨by simp [cancelMessage, cancelType], by simp [cancelMessage, put32]⟩)
  · intro data m hm hlen h99
    cases data with
    | nil =>
      simp only [newPeerMessage, Res.ok.injEq] at hm
      subst hm
      exact ⟨(C27_framed_iff_partial _ (by decide)).2 (.inl ⟨rfl, rfl⟩), by decide⟩
    | cons ty p =>
      have hty : ty ≠ 99 := by simpa using h99
      have hf : m.type = ty ∧ m.payload = p ∧ m.len = p.length + 1 := by
        have hmod : (p.length + 1) % 2 ^ 32 = p.length + 1 := Nat.mod_eq_of_lt (by simpa using hlen)
        rw [newPeerMessage_cons, hmod] at hm
        repeat' split at hm
        all_goals simp only [Res.ok.injEq, reduceCtorEq] at hm
        all_goals subst hm; exact ⟨rfl, rfl, rfl⟩
      refine ⟨(C27_framed_iff_partial _ (by rw [hf.2.2]; simpa using hlen)).2 (.inr ⟨by rw [hf.1]; exact hty, by rw [hf.2.1, hf.2.2]⟩), ?_⟩
      rw [wire_ne (by rw [hf.1]; exact hty), hf.1, hf.2.1, hf.2.2]
      rfl

/-- C27 is false of the code: bitfield messages are framed wrongly unless the set has exactly 13 bits, and a received
message with type byte 99 is sent again without its body. -/
theorem C27_framed_violated :
    (∀ b : BitSet, b.len + 1 < 2 ^ 32 → (Framed (bitfieldMessage b).wire ↔ b.len = 13)) ∧
    (∀ p : Bytes, p.length + 1 < 2 ^ 32 → ∃ m, newPeerMessage (99 :: p) = .ok m ∧ ¬ Framed m.wire) := by
  constructor
  · intro b hb
    have hfl : ∀ l : List Nat, (l.flatMap (putBE 8)).length = 8 * l.length := by
      intro l
      induction l with
      | nil => rfl
      | cons a l ih => rw [List.flatMap_cons, List.length_append, ih]; simp; omega
    rw [C27_framed_iff_partial _ (by simp only [bitfieldMessage]; omega)]
    simp only [bitfieldMessage, bitfieldType, Nat.mod_eq_of_lt hb, List.length_append, putBE_length, List.length_cons, hfl,
      BitSet.words, List.length_map, List.length_range, BitSet.wordsNeeded]
    constructor
    · rintro (⟨h, _⟩ | ⟨_, h⟩)
      · simp at h
      · omega
    · intro h; right; refine ⟨by decide, ?_⟩; omega
  · intro p hp
    refine ⟨{ len := p.length + 1, type := 99, payload := p }, ?_, ?_⟩
    · rw [newPeerMessage_cons, Nat.mod_eq_of_lt hp]; simp
    · rw [C27_framed_iff_partial _ (by simpa using hp)]; simp

example : Framed (requestMessage 3 0 131072).wire := C27_framed_partial.2.2.2.1 3 0 131072
example : ∃ m, newPeerMessage [7, 0, 0, 0, 1, 0, 0, 0, 0, 65, 66] = .ok m ∧ m.wire = [0, 0, 0, 11, 7, 0, 0, 0, 1, 0, 0, 0, 0, 65, 66] :=
  ⟨_, rfl, by decide⟩

/-! ## C28 -/

theorem put32_three (i o l : Nat) :
    put32 (put32 (put32 (List.replicate 12 0) i) o) l = putBE 4 l ++ List.replicate 8 0 := by
  simp [put32, drop_prefix]

theorem hearWire_framed (n : Nat) (body : Bytes) (h : n = body.length) (hn : n < 2 ^ 32) :
    hearWire (putBE 4 n ++ body) = hear body := by
  unfold hearWire
  rw [take_prefix (by simp), drop_prefix (by simp), bigEndian_putBE _ _ (by omega)]
  rw [if_neg]
  simp [h]

theorem num4_first (v : Nat) (rest : Bytes) (hv : v < 2 ^ 32) : num4 (putBE 4 v ++ rest) 0 = v := by
  rw [num4, List.drop_zero, take_prefix (by simp), bigEndian_putBE _ _ (by omega)]

/-- What a request or cancel really says: index `l`, offset 0, length 0. -/
theorem C28_wire_partial (i o l : Nat) (hl : l < 2 ^ 32) :
    hearWire (requestMessage i o l).wire = .request l 0 0 ∧ hearWire (cancelMessage i o l).wire = .cancel l 0 0 := by
  have e4 : num4 (putBE 4 l ++ List.replicate 8 0) 4 = 0 := by
    rw [num4, drop_prefix (by simp)]; decide
  have e8 : num4 (putBE 4 l ++ List.replicate 8 0) 8 = 0 := by
    have : (putBE 4 l ++ List.replicate 8 0 : Bytes) = (putBE 4 l ++ List.replicate 4 0) ++ List.replicate 4 0 := by
      simp
    rw [num4, this, drop_prefix (by simp)]; decide
  constructor
  · rw [wire_ne (by simp [requestMessage, requestType, keepaliveType])]
    simp only [requestMessage, put32_three]
    rw [hearWire_framed _ _ (by simp) (by omega)]
    simp only [hear, requestType, num4_first l _ hl, e4, e8]
    simp
  · rw [wire_ne (by simp [cancelMessage, cancelType, keepaliveType])]
    simp only [cancelMessage, put32_three]
    rw [hearWire_framed _ _ (by simp) (by omega)]
    simp only [hear, cancelType, num4_first l _ hl, e4, e8]
    simp

/-- C28 is false of the code: the remote peer sees the block that was asked for only if all three numbers are 0. -/
theorem C28_request_violated (i o l : Nat) (hl : l < 2 ^ 32) :
    (hearWire (requestMessage i o l).wire = .request i o l ↔ i = 0 ∧ o = 0 ∧ l = 0) ∧
    (hearWire (cancelMessage i o l).wire = .cancel i o l ↔ i = 0 ∧ o = 0 ∧ l = 0) := by
  rw [(C28_wire_partial i o l hl).1, (C28_wire_partial i o l hl).2]
  simp only [Heard.request.injEq, Heard.cancel.injEq]
  omega

/-- C28 for have messages holds; a keep-alive and the four signals are understood as what they are. -/
theorem C28_have_partial :
    (∀ i, i < 2 ^ 32 → hearWire (haveMessage i).wire = .have i) ∧
    hearWire keepaliveMessage.wire = .keepalive ∧
    (∀ ty : UInt8, ty.toNat ≤ 3 → hearWire (signalMessage ty).wire = .signal ty) := by
  refine ⟨?_, by decide, ?_⟩
  · intro i hi
    rw [wire_ne (by simp [haveMessage, haveType, keepaliveType])]
    simp only [haveMessage]
    rw [hearWire_framed _ _ (by simp [put32]) (by omega)]
    have : num4 (put32 (List.replicate 4 0) i) 0 = i := by rw [put32]; exact num4_first i _ hi
    simp only [hear, haveType, this]
    simp [put32]
  · intro ty ht
    rw [wire_ne (by intro h; simp only [signalMessage, keepaliveType] at h; subst h; simp at ht)]
    simp only [signalMessage]
    rw [hearWire_framed _ _ (by simp) (by omega)]
    simp [hear, ht]

example : hearWire (requestMessage 5 131072 131072).wire = .request 131072 0 0 := (C28_wire_partial 5 _ _ (by decide)).1

/-! ## C29 -/

/-- C29, exact: the decoder panics iff a have, request, cancel or piece message is too short for its fields. -/
theorem C29_panic_iff_partial (data : Bytes) :
    (newPeerMessage data).isPanic = true ↔
      (data.head? = some 4 ∧ data.length < 5) ∨ ((data.head? = some 6 ∨ data.head? = some 8) ∧ data.length < 13) ∨
      (data.head? = some 7 ∧ data.length < 9) := by
  cases data with
  | nil => simp [newPeerMessage, Res.isPanic]
  | cons ty p =>
    rw [newPeerMessage_cons]
    simp only [List.head?_cons, Option.some.injEq, List.length_cons]
    by_cases h4 : ty = 4
    · subst h4
      simp only [if_true]
      split <;> simp_all [Res.isPanic]
      omega
    · by_cases h6 : ty = 6 ∨ ty = 8
      · simp only [h4, h6, if_true, if_false]
        have h7 : ¬ ty = 7 := by rcases h6 with rfl | rfl <;> decide
        split <;> simp_all [Res.isPanic] <;> omega
      · by_cases h7 : ty = 7
        · subst h7
          simp only [show ¬ (7 : UInt8) = 4 from by decide, show ¬ ((7 : UInt8) = 6 ∨ (7 : UInt8) = 8) from by decide,
            if_true, if_false]
          split <;> simp_all [Res.isPanic] <;> omega
        · simp [h4, h6, h7, Res.isPanic]

/-- C29 is false of the code: the one-byte message "have" crashes the client. -/
theorem C29_no_panic_violated : ¬ ∀ data, (newPeerMessage data).isPanic = false := by
  intro h
  have := (C29_panic_iff_partial [4]).2 (by decide)
  rw [h] at this; simp at this

/-- The decoder never returns an error; otherwise it returns a message. -/
theorem C29_total (data : Bytes) : (∃ m, newPeerMessage data = .ok m) ∨ (newPeerMessage data).isPanic = true := by
  cases data with
  | nil => left; exact ⟨_, rfl⟩
  | cons ty p =>
    rw [newPeerMessage_cons]
    repeat' split
    all_goals simp [Res.isPanic]

/-! ## C30 -/

/-- C30: for every frame body that BEP 3 understands as a have, request, cancel or piece message, the decoded message
has exactly those fields. -/
theorem C30_fields (data : Bytes) (hlen : data.length < 2 ^ 32) :
    (∀ i, hear data = .have i → ∃ m, newPeerMessage data = .ok m ∧ m.type = haveType ∧ m.index = i) ∧
    (∀ i o l, hear data = .request i o l → ∃ m, newPeerMessage data = .ok m ∧ m.type = requestType ∧
      m.index = i ∧ m.offset = o ∧ m.blockLength = l) ∧
    (∀ i o l, hear data = .cancel i o l → ∃ m, newPeerMessage data = .ok m ∧ m.type = cancelType ∧
      m.index = i ∧ m.offset = o ∧ m.blockLength = l) ∧
    (∀ i o d, hear data = .piece i o d → ∃ m, newPeerMessage data = .ok m ∧ m.type = pieceType ∧
      m.index = i ∧ m.offset = o ∧ m.data = .ok d) := by
  cases data with
  | nil => simp [hear]
  | cons ty p =>
    simp only [hear]
    rw [newPeerMessage_cons]
    by_cases hs : ty.toNat ≤ 3
    · simp only [hs, if_true]
      refine ⟨?_, ?_, ?_, ?_⟩ <;> intros <;> rename_i h <;> split at h <;> simp at h
    simp only [hs, if_false]
    by_cases h4 : ty = 4
    · subst h4
      simp only [if_true]
      refine ⟨?_, ?_, ?_, ?_⟩ <;> intros <;> rename_i h <;> split at h <;> simp at h
      rename_i hl
      rw [if_neg (by omega)]
      exact ⟨_, rfl, rfl, h⟩
    by_cases h5 : ty = 5
    · subst h5; simp
    by_cases h6 : ty = 6
    · subst h6
      simp only [show ¬ (6 : UInt8) = 4 from by decide, show ¬ (6 : UInt8) = 5 from by decide, if_true, if_false, true_or]
      refine ⟨?_, ?_, ?_, ?_⟩ <;> intros <;> rename_i h <;> split at h <;> simp at h
      rename_i hl
      rw [if_neg (by omega)]
      exact ⟨_, rfl, rfl, h.1, h.2.1, h.2.2⟩
    by_cases h7 : ty = 7
    · subst h7
      simp only [show ¬ (7 : UInt8) = 4 from by decide, show ¬ (7 : UInt8) = 5 from by decide,
        show ¬ (7 : UInt8) = 6 from by decide, show ¬ (7 : UInt8) = 8 from by decide, if_true, if_false, false_or]
      refine ⟨?_, ?_, ?_, ?_⟩ <;> intros <;> rename_i h <;> split at h <;> simp at h
      rename_i hl
      rw [if_neg (by omega)]
      refine ⟨_, rfl, rfl, h.1, h.2.1, ?_⟩
      simp only [PeerMessage.data, pieceType, ne_eq, not_true_eq_false, if_false]
      rw [if_neg (by omega), h.2.2]
    by_cases h8 : ty = 8
    · subst h8
      simp only [show ¬ (8 : UInt8) = 4 from by decide, show ¬ (8 : UInt8) = 5 from by decide,
        show ¬ (8 : UInt8) = 6 from by decide, show ¬ (8 : UInt8) = 7 from by decide, if_true, if_false, or_true]
      refine ⟨?_, ?_, ?_, ?_⟩ <;> intros <;> rename_i h <;> split at h <;> simp at h
      rename_i hl
      rw [if_neg (by omega)]
      exact ⟨_, rfl, rfl, h.1, h.2.1, h.2.2⟩
    simp [h4, h5, h6, h7, h8]

/-- C30 for concrete fields: the frames an honest peer writes decode to what it wrote. -/
theorem C30_pieces (i o : Nat) (d : Bytes) (hi : i < 2 ^ 32) (ho : o < 2 ^ 32) :
    ∃ m, newPeerMessage (7 :: (putBE 4 i ++ (putBE 4 o ++ d))) = .ok m ∧ m.type = pieceType ∧
      m.index = i ∧ m.offset = o ∧ m.data = .ok d := by
  have e0 : num4 (putBE 4 i ++ (putBE 4 o ++ d)) 0 = i := num4_first i _ hi
  have e4 : num4 (putBE 4 i ++ (putBE 4 o ++ d)) 4 = o := by
    rw [num4, drop_prefix (by simp), take_prefix (by simp), bigEndian_putBE _ _ (by omega)]
  have ed : (putBE 4 i ++ (putBE 4 o ++ d)).drop 8 = d := by
    rw [← List.append_assoc, drop_prefix (by simp)]
  rw [newPeerMessage_cons]
  simp only [show ¬ (7 : UInt8) = 4 from by decide, show ¬ (7 : UInt8) = 6 from by decide, show ¬ (7 : UInt8) = 8 from by decide,
    if_true, if_false, or_self]
  rw [if_neg (by simp; omega)]
  refine ⟨_, rfl, rfl, e0, e4, ?_⟩
  simp only [PeerMessage.data, pieceType, ne_eq, not_true_eq_false, if_false]
  rw [if_neg (by simp; omega), ed]

example : hear [6, 0, 0, 0, 1, 0, 0, 0, 2, 0, 0, 0, 3] = .request 1 2 3 := by decide

/-! ## C31 -/

theorem getBE_testBit (bs : Bytes) : ∀ t, (getBE bs).testBit t =
    if t < 8 * bs.length then (bs.getD (bs.length - 1 - t / 8) 0).toNat.testBit (t % 8) else false := by
  induction bs with
  | nil => intro t; simp [getBE]
  | cons b bs ih =>
    intro t
    have hpow : 256 ^ bs.length = 2 ^ (8 * bs.length) := by rw [Nat.pow_mul]
    have hlt := getBE_lt bs
    rw [getBE_cons, hpow, Nat.mul_comm, Nat.testBit_two_pow_mul_add _ (hpow ▸ hlt), ih]
    simp only [List.length_cons]
    by_cases h1 : t < 8 * bs.length
    · rw [if_pos h1, if_pos h1, if_pos (by omega)]
      have e : bs.length + 1 - 1 - t / 8 = (bs.length - 1 - t / 8) + 1 := by omega
      rw [e, List.getD_cons_succ]
    · rw [if_neg h1]
      by_cases h2 : t < 8 * (bs.length + 1)
      · rw [if_pos h2]
        have e : bs.length + 1 - 1 - t / 8 = 0 := by omega
        rw [e, List.getD_cons_zero]
        congr 1
        omega
      · rw [if_neg h2]
        apply Nat.testBit_lt_two_pow
        have := UInt8.toNat_lt b
        have : 2 ^ 8 ≤ 2 ^ (t - 8 * bs.length) := Nat.pow_le_pow_right (by omega) (by omega)
        omega

theorem words64_getD (bs : Bytes) : ∀ n w, w < n → (words64 n bs).getD w 0 = getBE ((bs.drop (8 * w)).take 8) := by
  intro n
  induction n generalizing bs with
  | zero => intro w h; omega
  | succ n ih =>
    intro w h
    cases w with
    | zero => simp [words64]
    | succ w =>
      rw [words64, List.getD_cons_succ, ih _ _ (by omega), List.drop_drop]
      congr 3
      omega

theorem words64_length (n : Nat) (bs : Bytes) : (words64 n bs).length = n := by
  induction n generalizing bs with
  | zero => rfl
  | succ n ih => simp [words64, ih]

theorem pad8_length (p : Bytes) : (pad8 p).length % 8 = 0 ∧ p.length ≤ (pad8 p).length ∧ (pad8 p).length < p.length + 8 := by
  unfold pad8
  split
  · omega
  · simp only [List.length_append, List.length_replicate]; omega

theorem wireBit_pad8 (p : Bytes) (i : Nat) : wireBit (pad8 p) i = wireBit p i := by
  unfold pad8
  split
  · rfl
  · unfold wireBit
    by_cases h : i / 8 < p.length
    · rw [List.getElem?_append_left h]
    · rw [List.getElem?_append_right (by omega), List.getElem?_eq_none (l := p) (by omega)]
      cases hr : (List.replicate (8 - p.length % 8) (0 : UInt8))[i / 8 - p.length]? with
      | none => rfl
      | some b =>
        have := List.mem_of_getElem? hr
        rw [List.mem_replicate] at this
        simp [this.2]

theorem wireBit_getD (p : Bytes) (i : Nat) : wireBit p i = (p.getD (i / 8) 0).toNat.testBit (7 - i % 8) := by
  unfold wireBit
  rw [List.getD_eq_getElem?_getD]
  cases p[i / 8]? <;> simp

/-- C31, exact: what the client believes about piece `i` is the wire bit of piece `64 * (i / 64) + 63 - i % 64`: the order
of the pieces is reversed inside each group of 64. -/
theorem C31_bits_partial (payload : Bytes) (i : Nat) :
    (createBitset payload).test i = wireBit payload (64 * (i / 64) + (63 - i % 64)) := by
  obtain ⟨h8, _, _⟩ := pad8_length payload
  rw [← wireBit_pad8 payload]
  unfold createBitset BitSet.fromWords BitSet.test
  simp only [words64_length]
  generalize pad8 payload = p at h8
  by_cases h : i ≥ 64 * (p.length / 8)
  · rw [if_pos h]
    unfold wireBit
    rw [List.getElem?_eq_none (by omega)]
  · rw [if_neg h, words64_getD _ _ _ (by omega), getBE_testBit, wireBit_getD]
    have hl : ((p.drop (8 * (i / 64))).take 8).length = 8 := by
      rw [List.length_take, List.length_drop]; omega
    rw [hl, if_pos (by omega)]
    have hidx : (64 * (i / 64) + (63 - i % 64)) / 8 = 8 * (i / 64) + (7 - i % 64 / 8) := by omega
    have hbit : 7 - (64 * (i / 64) + (63 - i % 64)) % 8 = i % 64 % 8 := by omega
    rw [hidx, hbit]
    congr 2
    rw [List.getD_eq_getElem?_getD, List.getD_eq_getElem?_getD]
    rw [List.getElem?_take, if_pos (by omega), List.getElem?_drop]

/-- C31 is false of the code: from the bitfield `80` ("I have piece 0") the client concludes that the peer has piece 63
and not piece 0. -/
theorem C31_bits_violated :
    wireBit [0x80] 0 = true ∧ (createBitset [0x80]).test 0 = false ∧
    wireBit [0x80] 63 = false ∧ (createBitset [0x80]).test 63 = true := by
  rw [C31_bits_partial, C31_bits_partial]
  decide

/-- Consequently the set is right for piece `i` exactly when the peer's bits for `i` and for its mirror image agree; in
particular for a seed whose bitfield fills whole groups of 64. -/
theorem C31_seed_partial (n : Nat) (i : Nat) :
    (createBitset (List.replicate (8 * n) 0xff)).test i = wireBit (List.replicate (8 * n) 0xff) i := by
  rw [C31_bits_partial, wireBit_getD, wireBit_getD]
  have hr : ∀ k, (List.replicate (8 * n) (0xff : UInt8)).getD k 0 = if k < 8 * n then 0xff else 0 := by
    intro k
    rw [List.getD_eq_getElem?_getD, List.getElem?_replicate]
    split <;> rfl
  rw [hr, hr]
  have hff : ∀ t, t ≤ 7 → (0xff : UInt8).toNat.testBit t = true := by decide
  by_cases h : i / 8 < 8 * n
  · rw [if_pos h, if_pos (by omega), hff _ (by omega), hff _ (by omega)]
  · rw [if_neg h, if_neg (by omega)]
    simp

/-! ### The bitfield the client could send -/

theorem sumBits (f : Nat → Bool) : ∀ n, (List.range n).foldl (fun a t => a + if f t then 2 ^ t else 0) 0 < 2 ^ n ∧
    ∀ t, ((List.range n).foldl (fun a t => a + if f t then 2 ^ t else 0) 0).testBit t = (decide (t < n) && f t)
  | 0 => by simp
  | n + 1 => by
    obtain ⟨h1, h2⟩ := sumBits f n
    rw [List.range_succ, List.foldl_append, List.foldl_cons, List.foldl_nil]
    generalize (List.range n).foldl (fun a t => a + if f t then 2 ^ t else 0) 0 = x at h1 h2
    have hp : 2 ^ (n + 1) = 2 ^ n + 2 ^ n := by rw [Nat.pow_succ]; omega
    cases hf : f n with
    | false =>
      simp only [Bool.false_eq_true, if_false, Nat.add_zero]
      refine ⟨by omega, fun t => ?_⟩
      rw [h2 t]
      by_cases e : t = n
      · subst e; simp [hf]
      · have : decide (t < n + 1) = decide (t < n) := by rw [decide_eq_decide]; omega
        rw [this]
    | true =>
      simp only [if_true]
      refine ⟨by omega, fun t => ?_⟩
      have := Nat.two_pow_add_eq_or_of_lt h1 1
      rw [Nat.mul_one] at this
      rw [Nat.add_comm, this, Nat.testBit_or, h2 t, Nat.testBit_two_pow]
      by_cases e : t = n
      · subst e; simp [hf]
      · by_cases g : t < n
        · simp [g, show t < n + 1 by omega, show ¬ n = t by omega]
        · simp [g, show ¬ t < n + 1 by omega, show ¬ n = t by omega]

/-- The words of a bit set are numbers of 64 bits that hold its bits, from the least significant one. -/
theorem word_bits (b : BitSet) (w : Nat) : b.word w < 2 ^ 64 ∧ ∀ t, t < 64 → (b.word w).testBit t = b.bit (64 * w + t) := by
  obtain ⟨h1, h2⟩ := sumBits (fun t => b.bit (64 * w + t)) 64
  exact ⟨h1, fun t ht => by unfold BitSet.word; rw [h2 t]; simp [ht]⟩

theorem words64_flat : ∀ (ws : List Nat), (∀ w ∈ ws, w < 2 ^ 64) → words64 ws.length (ws.flatMap (putBE 8)) = ws
  | [], _ => rfl
  | w :: ws, h => by
    rw [List.flatMap_cons, List.length_cons, words64, take_prefix (putBE_length 8 w), drop_prefix (putBE_length 8 w),
      words64_flat ws (fun x hx => h x (by simp [hx])), getBE_putBE 8 w (by simpa using h w (by simp))]

theorem flat_length : ∀ (ws : List Nat), (ws.flatMap (putBE 8)).length = 8 * ws.length
  | [] => rfl
  | w :: ws => by rw [List.flatMap_cons, List.length_append, flat_length ws]; simp; omega

/-- C31 for the bitfield message the client can make (it never sends one): the bits follow the header that is repeated in the payload, in the
same wrong order. Missing: the right order and frame, see `C27_framed_violated`. -/
theorem C31_sent_partial (b : BitSet) (i : Nat) (hi : i < b.len) :
    wireBit ((bitfieldMessage b).payload.drop 5) (64 * (i / 64) + (63 - i % 64)) = b.test i := by
  rw [← C31_bits_partial]
  have hd : (bitfieldMessage b).payload.drop 5 = b.words.flatMap (putBE 8) := by
    unfold bitfieldMessage
    simp only
    rw [show putBE 4 (b.len + 1) ++ bitfieldType :: b.words.flatMap (putBE 8) = (putBE 4 (b.len + 1) ++ [bitfieldType]) ++ b.words.flatMap (putBE 8) by simp]
    exact drop_prefix (by simp)
  have hw : ∀ w ∈ b.words, w < 2 ^ 64 := by
    intro w hw
    obtain ⟨k, _, rfl⟩ := List.mem_map.1 hw
    exact (word_bits b k).1
  have hl : b.words.length = (b.len + 63) / 64 := by simp [BitSet.words, BitSet.wordsNeeded]
  rw [hd]
  unfold createBitset pad8
  rw [flat_length, if_pos (by omega), flat_length, Nat.mul_div_cancel_left _ (by omega : 0 < 8), words64_flat _ hw]
  unfold BitSet.fromWords BitSet.test
  simp only
  rw [if_neg (by omega), if_neg (by omega)]
  rw [List.getD_eq_getElem?_getD]
  unfold BitSet.words
  rw [List.getElem?_map, List.getElem?_range (by unfold BitSet.wordsNeeded; omega)]
  simp only [Option.map_some, Option.getD_some]
  rw [(word_bits b (i / 64)).2 _ (by omega)]
  congr 1
  omega

example : wireBit ((bitfieldMessage ((BitSet.new 70).set 65)).payload.drop 5) (64 + 62) = true := C31_sent_partial _ 65 (by decide)

end Gotit.Props
