import Verif.Model.Handshake
import Verif.Lemmas.BE
/-
  C34: the handshake.
-/
namespace Gotit.Props
open Gotit

/-- The text of BEP 3: a byte 19 and "BitTorrent protocol". -/
def protocolHeader : Bytes :=
  [19, 66, 105, 116, 84, 111, 114, 114, 101, 110, 116, 32, 112, 114, 111, 116, 111, 99, 111, 108]

theorem bittorrentProto_eq : (19 : UInt8) :: bittorrentProto = protocolHeader := by decide

theorem bittorrentProto_length : bittorrentProto.length = 19 := by decide

/-- C34: a handshake is accepted iff it is header, any 8 reserved bytes, the expected hash, and at least 20 more bytes. -/
theorem C34_accept_iff (h hash : Bytes) (hh : hash.length = 20) :
    isHandshakeValid h hash = true ↔
      ∃ reserved rest, h = protocolHeader ++ (reserved ++ (hash ++ rest)) ∧ reserved.length = 8 ∧ 20 ≤ rest.length := by
  unfold isHandshakeValid
  by_cases hl : h.length < 68
  · rw [if_pos hl]
    constructor
    · intro h; cases h
    · rintro ⟨r, t, rfl, h1, h2⟩
      simp [protocolHeader] at hl
      omega
  · rw [if_neg hl]
    simp only [Bool.and_eq_true, beq_iff_eq]
    constructor
    · rintro ⟨⟨h1, h2⟩, h3⟩
      refine ⟨(h.drop 20).take 8, h.drop 48, ?_, ?_, ?_⟩
      · rw [← bittorrentProto_eq, ← h2, ← h3]
        have e3 : (h.drop 28).take 20 ++ h.drop 48 = h.drop 28 := by
          have := List.take_append_drop 20 (h.drop 28); rwa [List.drop_drop] at this
        have e2 : (h.drop 20).take 8 ++ h.drop 28 = h.drop 20 := by
          have := List.take_append_drop 8 (h.drop 20); rwa [List.drop_drop] at this
        have e1 : (h.drop 1).take 19 ++ h.drop 20 = h.drop 1 := by
          have := List.take_append_drop 19 (h.drop 1); rwa [List.drop_drop] at this
        rw [e3, e2, List.cons_append, e1]
        cases h with
        | nil => simp at hl
        | cons a t => simp at h1; simp [h1]
      · simp; omega
      · simp; omega
    · rintro ⟨r, t, rfl, h1, h2⟩
      refine ⟨⟨rfl, ?_⟩, ?_⟩
      · have : (protocolHeader ++ (r ++ (hash ++ t))).drop 1 = bittorrentProto ++ (r ++ (hash ++ t)) := by
          rw [← bittorrentProto_eq]; rfl
        rw [this, take_prefix bittorrentProto_length]
      · have : (protocolHeader ++ (r ++ (hash ++ t))).drop 28 = hash ++ t := by
          rw [← List.append_assoc, drop_prefix (by simp [protocolHeader, h1])]
        rw [this, take_prefix hh]

/-- C34: the client's own handshake has 68 bytes and is accepted by a peer expecting that hash, and by no other. -/
theorem C34_own (hash random expected : Bytes) (hh : hash.length = 20) (he : expected.length = 20) :
    (createHandshake hash (createClientId random)).length = 68 ∧
    (isHandshakeValid (createHandshake hash (createClientId random)) expected = true ↔ expected = hash) := by
  have hc : (createClientId random).length = 20 := by
    have : clientIdPrefix.length = 8 := by decide
    simp [createClientId, this]
  constructor
  · simp [createHandshake, bittorrentProto_length, hh, hc]
  · rw [C34_accept_iff _ _ he]
    have hform : createHandshake hash (createClientId random) =
        protocolHeader ++ (putBE 8 0 ++ (hash ++ createClientId random)) := by
      rw [← bittorrentProto_eq]; rfl
    rw [hform]
    constructor
    · rintro ⟨r, t, e, h1, h2⟩
      have e := List.append_cancel_left e
      have h3 := congrArg (List.take 20) (congrArg (List.drop 8) e)
      rw [drop_prefix (by simp), drop_prefix h1, take_prefix hh, take_prefix he] at h3
      exact h3.symm
    · rintro rfl
      exact ⟨_, _, rfl, by simp, by omega⟩

/-- The client id of BEP 20: 20 bytes beginning with `-GO0100-`. -/
theorem C34_client_id (random : Bytes) (hr : 12 ≤ random.length) :
    createClientId random = ascii "-GO0100-" ++ random.take 12 ∧ (createClientId random).length = 20 := by
  have h8 : clientIdPrefix.length = 8 := by decide
  have : createClientId random = ascii "-GO0100-" ++ random.take 12 := by
    simp only [createClientId, h8]
    rw [List.take_append_of_le_length (by omega)]
    rfl
  refine ⟨this, ?_⟩
  rw [this]
  have : (ascii "-GO0100-").length = 8 := by decide
  simp [this]; omega

example : isHandshakeValid (protocolHeader ++ (List.replicate 8 1 ++ (List.replicate 20 7 ++ List.replicate 20 0)))
    (List.replicate 20 7) = true := by decide

end Gotit.Props
