import Verif.Model.Torrent
import Verif.Lemmas.Float
import Verif.Lemmas.BitSet
/-
  C39, C40: the number of pieces and the initial state of Done.
-/
namespace Gotit.Props
open Gotit

/-! ## C40 -/

/-- C40: for lengths and piece lengths up to 2^53 the floating-point computation gives exactly the number `k` of pieces
with `(k - 1) * pieceLength < length ≤ k * pieceLength`. -/
theorem C40_ceiling (length pieceLength : Nat) (hl : 0 < length) (hl2 : length ≤ 2 ^ 53) (hp : 0 < pieceLength)
    (hp2 : pieceLength ≤ 2 ^ 53) :
    ∃ k : Nat, piecesNum length pieceLength = k ∧ (k - 1) * pieceLength < length ∧ length ≤ k * pieceLength ∧ 0 < k := by
  refine ⟨(length + pieceLength - 1) / pieceLength, ?_, ?_, ?_, ?_⟩
  · unfold piecesNum
    rw [if_neg (by omega), if_pos (by left; omega)]
    have ex := toFloat_exact 52 length hl2
    have ey := toFloat_exact 52 pieceLength hp2
    simp only [Nat.reduceAdd] at ex ey
    have hc := ceil_round 52 length pieceLength ((toFloat 53 length).num * (toFloat 53 pieceLength).den)
      ((toFloat 53 length).den * (toFloat 53 pieceLength).num) ((length + pieceLength - 1) / pieceLength)
      hl hl2 hp ?_ ?_ ?_ ?_
    · simp only [Nat.reduceAdd] at hc
      simp only [Int.natAbs_natCast, fdiv]
      rw [hc]
      unfold floatToInt64
      rw [if_pos]
      have : (length + pieceLength - 1) / pieceLength ≤ length + pieceLength - 1 := Nat.div_le_self _ _
      omega
    · rw [ey.1]; exact Nat.mul_pos ex.2 (Nat.mul_pos hp ey.2)
    · rw [ex.1, ey.1]; ac_rfl
    · have := Nat.lt_div_mul_add (a := length + pieceLength - 1) hp
      omega
    · have h1 := Nat.div_mul_le_self (length + pieceLength - 1) pieceLength
      generalize (length + pieceLength - 1) / pieceLength = k at *
      cases k with
      | zero => simp; omega
      | succ k => rw [Nat.succ_mul] at h1; simp only [Nat.add_sub_cancel]; omega
  · have h1 := Nat.div_mul_le_self (length + pieceLength - 1) pieceLength
    generalize (length + pieceLength - 1) / pieceLength = k at *
    cases k with
    | zero => simp; omega
    | succ k => rw [Nat.succ_mul] at h1; simp only [Nat.add_sub_cancel]; omega
  · have := Nat.lt_div_mul_add (a := length + pieceLength - 1) hp
    omega
  · exact Nat.div_pos (by omega) hp

/-- 1 GiB + 1 byte in pieces of 256 KiB. -/
example : piecesNum (2 ^ 30 + 1) (2 ^ 18) = 4097 := by decide +kernel

/-- Why the bound: one byte more than 2^53 bytes in pieces of 2 bytes needs one piece more than is computed. -/
theorem C40_bound_sharp : piecesNum (2 ^ 53 + 1) 2 = 2 ^ 52 ∧ ¬ ((2 : Int) ^ 53 + 1 ≤ 2 ^ 52 * 2) := by decide +kernel

/-- The other end: the largest length in pieces of one byte is rounded up to 2^63, which is no `int`; the conversion gives the smallest one. -/
theorem C40_bound_overflow : piecesNum (2 ^ 63 - 1) 1 = -2 ^ 63 := by decide +kernel

/-- The piece length 0: the quotient is an infinity or no number, and the number of pieces becomes the smallest `int`. -/
theorem C40_bound_zero (length : Int) : piecesNum length 0 = -2 ^ 63 := rfl

/-! ## C39 -/

theorem all_new (n : Nat) : (BitSet.new n).all = true ↔ n = 0 := by
  rw [BitSet.all_iff]
  simp only [BitSet.new]
  constructor
  · intro h
    cases n with
    | zero => rfl
    | succ n => have := h 0 (by omega); cases this
  · intro h; subst h; intro i hi; omega

/-- C39, exact on the domain where a download is possible at all: `Done` is false at the start iff the piece length is
positive (at most 2^51 bytes, so at most 2^51 pieces). -/
theorem C39_initial_partial (length : Nat) (pieceLength : Int) (hl : 0 < length) (hl2 : length ≤ 2 ^ 51)
    (hp2 : pieceLength.natAbs ≤ 2 ^ 53) :
    (bitsetNew (piecesNum length pieceLength)).all = false ↔ 0 < pieceLength := by
  have hhuge : ∀ m : Int, m ≤ 0 → -2 ^ 63 ≤ m → (bitsetNew m).all = true := by
    intro m h0 h1
    unfold bitsetNew
    simp only
    split
    · exact (all_new 0).2 rfl
    · rename_i h
      rw [all_new]
      simp only [BitSet.wordsNeeded] at h
      apply Classical.byContradiction
      intro hne
      have hm : m ≠ 0 := by intro e; subst e; simp at hne
      have : (m % 2 ^ 64).toNat = (m + 2 ^ 64).toNat := by
        rw [← Int.add_emod_right, Int.emod_eq_of_lt (by omega) (by omega)]
      omega
  constructor
  · intro h
    apply Classical.byContradiction
    intro hp
    rw [hhuge] at h
    · cases h
    · unfold piecesNum
      split
      · omega
      · rw [if_neg (by omega)]
        unfold floatToInt64
        split <;> omega
    · unfold piecesNum
      split
      · omega
      · rw [if_neg (by omega)]
        unfold floatToInt64
        split <;> omega
  · intro hp
    obtain ⟨q, rfl⟩ : ∃ q : Nat, pieceLength = q := ⟨pieceLength.toNat, by omega⟩
    obtain ⟨k, e, h1, h2, h3⟩ := C40_ceiling length q hl (by omega) (by omega) (by omega)
    rw [e]
    have hk : k ≤ length := by
      cases k with
      | zero => omega
      | succ k =>
        simp only [Nat.add_sub_cancel] at h1
        have : k * 1 ≤ k * q := Nat.mul_le_mul_left _ (by omega)
        omega
    unfold bitsetNew
    have : ((k : Int) % 2 ^ 64).toNat = k := by
      rw [Int.emod_eq_of_lt (by omega) (by omega)]; omega
    simp only [this]
    rw [if_neg (by simp only [BitSet.wordsNeeded]; omega)]
    cases hb : (BitSet.new k).all with
    | false => rfl
    | true => rw [all_new] at hb; omega

/-- C39 is false of the code: with the piece length 0 (or a negative one) a torrent of any size is "done" before
anything was downloaded. -/
theorem C39_done_violated (length : Nat) (pieceLength : Int) (hl : 0 < length) (hl2 : length ≤ 2 ^ 51)
    (hp : pieceLength ≤ 0) (hp2 : -2 ^ 53 ≤ pieceLength) : (bitsetNew (piecesNum length pieceLength)).all = true := by
  cases h : (bitsetNew (piecesNum length pieceLength)).all with
  | true => rfl
  | false => exact absurd ((C39_initial_partial length pieceLength hl hl2 (by omega)).1 h) (by omega)

example : (bitsetNew (piecesNum 1000 0)).all = true := C39_done_violated 1000 0 (by omega) (by omega) (by omega) (by omega)

end Gotit.Props
