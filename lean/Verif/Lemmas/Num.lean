import Verif.Spec.Bencode
/-
  Arithmetic of `number` (parse.go:92-104) and `strconv.Itoa`.
-/
namespace Gotit
open Spec

def digitB (b : UInt8) : Bool := 48 ≤ b && b ≤ 57

theorem digitB_iff (b : UInt8) : digitB b = true ↔ 48 ≤ b.toNat ∧ b.toNat ≤ 57 := by
  simp [digitB, UInt8.le_iff_toNat_le]

/-- value accumulated by the digit loop -/
def numAcc (n : Int) (ds : Bytes) : Int :=
  ds.foldl (fun n d => wrap64 (wrap64 (n + ((d - 48).toNat : Int)) * 10)) n

theorem wrap64_bounds (x : Int) : -2^63 ≤ wrap64 x ∧ wrap64 x < 2^63 := by
  unfold wrap64; constructor
  · have := Int.le_bmod (x := x) (m := 2^64) (by decide); omega
  · have := Int.bmod_lt (x := x) (m := 2^64) (by decide); omega

theorem wrap64_eq_self {x : Int} (h1 : -2^63 ≤ x) (h2 : x < 2^63) : wrap64 x = x := by
  unfold wrap64
  apply Int.bmod_eq_of_le <;> omega

theorem wrap64_emod (x : Int) : wrap64 x % 2^64 = x % 2^64 := by
  unfold wrap64
  exact Int.bmod_emod (x := x) (m := 2^64)

theorem wrap64_congr {x y : Int} (h : x % 2^64 = y % 2^64) : wrap64 x = wrap64 y := by
  unfold wrap64 Int.bmod
  have : ((2^64 : Nat) : Int) = 2^64 := by decide
  rw [this, h]

theorem wrap64_wrap64 (x : Int) : wrap64 (wrap64 x) = wrap64 x := wrap64_congr (wrap64_emod x)

theorem wrap64_add_mul (x y : Int) : wrap64 (wrap64 (wrap64 x + y) * 10) = wrap64 ((x + y) * 10) := by
  apply wrap64_congr
  rw [Int.mul_emod, wrap64_emod, Int.add_emod, wrap64_emod, ← Int.add_emod, ← Int.mul_emod]

theorem decimal_foldl (ds : Bytes) (a : Nat) :
    ds.foldl (fun a d => a * 10 + (d.toNat - 48)) a = a * 10 ^ ds.length + decimal ds := by
  induction ds generalizing a with
  | nil => simp [decimal]
  | cons d ds ih =>
    simp only [List.foldl_cons, decimal]
    rw [ih, ih (0 * 10 + (d.toNat - 48))]
    simp only [List.length_cons, Nat.pow_succ, Nat.add_mul, Nat.zero_mul, Nat.zero_add]
    rw [Nat.mul_assoc, Nat.mul_comm 10 (10 ^ ds.length), Nat.add_assoc]

theorem decimal_cons (d : UInt8) (ds : Bytes) :
    decimal (d :: ds) = (d.toNat - 48) * 10 ^ ds.length + decimal ds := by
  have := decimal_foldl ds (0 * 10 + (d.toNat - 48))
  simp only [decimal, List.foldl_cons] at this ⊢
  rw [this]; simp

theorem decimal_append_one (ds : Bytes) (d : UInt8) :
    decimal (ds ++ [d]) = decimal ds * 10 + (d.toNat - 48) := by
  simp [decimal]

theorem numAcc_wrap (ds : Bytes) (h : IsDigits ds) (n : Int) :
    wrap64 (numAcc (wrap64 n) ds) = wrap64 (n * 10 ^ ds.length + 10 * decimal ds) ∧
      numAcc (wrap64 n) ds = wrap64 (numAcc (wrap64 n) ds) := by
  induction ds generalizing n with
  | nil => simp [numAcc, decimal, wrap64_wrap64]
  | cons d ds ih =>
    have hd := h d (by simp)
    have hsub : ((d - 48).toNat : Int) = (d.toNat - 48 : Nat) := by
      rw [UInt8.toNat_sub_of_le]
      · rfl
      · rw [UInt8.le_iff_toNat_le]; exact hd.1
    have ih' := ih (fun x hx => h x (by simp [hx])) ((n + ((d - 48).toNat : Int)) * 10)
    have e : numAcc (wrap64 n) (d :: ds) = numAcc (wrap64 ((n + ((d - 48).toNat : Int)) * 10)) ds := by
      simp only [numAcc, List.foldl_cons]
      rw [wrap64_add_mul]
    rw [e]
    refine ⟨?_, ih'.2⟩
    rw [ih'.1, decimal_cons, hsub]
    congr 1
    simp only [List.length_cons]
    push_cast
    generalize ((d.toNat - 48 : Nat) : Int) = z
    generalize (decimal ds : Int) = w
    rw [Int.pow_succ]
    generalize (10 : Int) ^ ds.length = p
    simp only [Int.add_mul, Int.mul_add, Int.mul_comm, Int.mul_left_comm, Int.mul_assoc, Int.add_assoc]

theorem numAcc_zero (ds : Bytes) (h : IsDigits ds) : numAcc 0 ds = wrap64 (10 * decimal ds) := by
  have := numAcc_wrap ds h 0
  have z : wrap64 0 = 0 := by decide
  rw [z] at this
  rw [this.2, this.1]; simp

theorem machineNumber_of_le (ds : Bytes) (h : decimal ds ≤ maxNumber) : machineNumber ds = decimal ds := by
  unfold machineNumber
  unfold maxNumber at h
  rw [wrap64_eq_self (by omega) (by omega)]
  rw [Int.tdiv_eq_ediv_of_nonneg (by omega)]; omega

theorem machineNumber_bounds (ds : Bytes) :
    -(maxNumber : Int) ≤ machineNumber ds ∧ machineNumber ds ≤ maxNumber := by
  unfold machineNumber maxNumber
  have := wrap64_bounds (10 * decimal ds)
  generalize wrap64 (10 * decimal ds) = w at this
  rcases Int.le_total 0 w with h | h
  · rw [Int.tdiv_eq_ediv_of_nonneg h]; omega
  · have : w.tdiv 10 = -((-w).tdiv 10) := by rw [Int.neg_tdiv]; omega
    rw [this, Int.tdiv_eq_ediv_of_nonneg (by omega)]; omega

theorem natDigits_spec (n : Nat) : IsDigits (natDigits n) ∧ decimal (natDigits n) = n := by
  induction n using Nat.strongRecOn with
  | ind n ih =>
    rw [natDigits]
    split
    · constructor
      · intro d hd
        simp only [List.mem_singleton] at hd
        subst hd
        rw [UInt8.toNat_ofNat_of_lt' (by simp [UInt8.size]; omega)]; omega
      · simp only [decimal, List.foldl_cons, List.foldl_nil]
        rw [UInt8.toNat_ofNat_of_lt' (by simp [UInt8.size]; omega)]; omega
    · have := ih (n / 10) (by omega)
      constructor
      · intro d hd
        simp only [List.mem_append, List.mem_singleton] at hd
        rcases hd with hd | hd
        · exact this.1 d hd
        · subst hd
          rw [UInt8.toNat_ofNat_of_lt' (by simp [UInt8.size]; omega)]; omega
      · rw [decimal_append_one, this.2]
        rw [UInt8.toNat_ofNat_of_lt' (by simp [UInt8.size]; omega)]; omega

theorem itoa_nonneg (n : Int) (h : 0 ≤ n) : itoa n = natDigits n.toNat := by
  unfold itoa; rw [if_neg (by omega)]; congr 1; omega

end Gotit
