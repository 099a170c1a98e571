import Verif.Model.Go
import Verif.Spec.Wire
/-
  Big-endian numbers.
-/
namespace Gotit

@[simp] theorem putBE_length (k n : Nat) : (putBE k n).length = k := by
  induction k with
  | zero => rfl
  | succ k ih => simp [putBE, ih]

theorem getBE_foldl (bs : Bytes) : ∀ a : Nat,
    bs.foldl (fun a b => a * 256 + b.toNat) a = a * 256 ^ bs.length + getBE bs := by
  induction bs with
  | nil => intro a; simp [getBE]
  | cons b bs ih =>
    intro a
    simp only [List.foldl_cons, getBE, List.length_cons]
    rw [ih, ih (0 * 256 + b.toNat), Nat.pow_succ, Nat.add_mul, Nat.zero_mul, Nat.zero_add, Nat.mul_assoc,
      Nat.mul_comm 256, Nat.add_assoc]

theorem getBE_cons (b : UInt8) (bs : Bytes) : getBE (b :: bs) = b.toNat * 256 ^ bs.length + getBE bs := by
  unfold getBE
  rw [List.foldl_cons, getBE_foldl]
  simp [getBE]

theorem getBE_lt (bs : Bytes) : getBE bs < 256 ^ bs.length := by
  induction bs with
  | nil => simp [getBE]
  | cons b bs ih =>
    rw [getBE_cons, List.length_cons, Nat.pow_succ]
    have := UInt8.toNat_lt b
    have h2 : b.toNat * 256 ^ bs.length ≤ 255 * 256 ^ bs.length := Nat.mul_le_mul_right _ (by omega)
    omega

theorem getBE_putBE_mod (k n : Nat) : getBE (putBE k n) = n % 256 ^ k := by
  induction k with
  | zero => simp [putBE, getBE, Nat.mod_one]
  | succ k ih =>
    rw [putBE, getBE_cons, ih, putBE_length, UInt8.toNat_ofNat']
    have h : n % 256 ^ (k + 1) = n % 256 ^ k + 256 ^ k * (n / 256 ^ k % 256) := by
      rw [Nat.pow_succ, Nat.mod_mul]
    rw [h]
    have : (2 : Nat) ^ 8 = 256 := rfl
    rw [this, Nat.mul_comm]
    omega

theorem getBE_putBE (k n : Nat) (h : n < 256 ^ k) : getBE (putBE k n) = n := by
  rw [getBE_putBE_mod, Nat.mod_eq_of_lt h]

theorem putBE_getBE (bs : Bytes) : putBE bs.length (getBE bs) = bs := by
  have key : ∀ (bs : Bytes) (m : Nat), putBE bs.length (m * 256 ^ bs.length + getBE bs) = bs := by
    intro bs
    induction bs with
    | nil => intro m; rfl
    | cons b bs ih =>
      intro m
      have hlt := getBE_lt bs
      have hpos : 0 < 256 ^ bs.length := Nat.pow_pos (by omega)
      rw [getBE_cons, List.length_cons, putBE]
      have e : m * 256 ^ (bs.length + 1) + (b.toNat * 256 ^ bs.length + getBE bs) =
          (m * 256 + b.toNat) * 256 ^ bs.length + getBE bs := by
        rw [Nat.pow_succ, Nat.add_mul, Nat.mul_assoc, Nat.mul_comm 256]; omega
      rw [e, ih]
      congr 1
      rw [Nat.mul_comm, Nat.mul_add_div hpos, Nat.div_eq_of_lt hlt]
      apply UInt8.toNat.inj
      rw [UInt8.toNat_ofNat']
      have := UInt8.toNat_lt b
      omega
  have := key bs 0
  simpa using this

theorem getBE_inj {as bs : Bytes} (hl : as.length = bs.length) (h : getBE as = getBE bs) : as = bs := by
  rw [← putBE_getBE as, ← putBE_getBE bs, hl, h]

/-- `take` of a prefix of known length. -/
theorem take_prefix {a b : Bytes} {n : Nat} (h : a.length = n) : (a ++ b).take n = a := by
  subst h; simp

theorem drop_prefix {a b : Bytes} {n : Nat} (h : a.length = n) : (a ++ b).drop n = b := by
  subst h; simp

/-- The number read by `binary.BigEndian` is the one of the specification. -/
@[simp] theorem bigEndian_eq (bs : Bytes) : Spec.bigEndian bs = getBE bs := by
  have h : ∀ (bs : Bytes) (a : Nat), bs.foldl (fun a b => a * 256 + b.toNat) a = a * 256 ^ bs.length + Spec.bigEndian bs := by
    intro bs
    induction bs with
    | nil => intro a; simp [Spec.bigEndian]
    | cons b bs ih =>
      intro a
      simp only [List.foldl_cons, List.length_cons, Spec.bigEndian]
      rw [ih, Nat.add_mul, Nat.pow_succ, Nat.mul_assoc, Nat.mul_comm 256, Nat.add_assoc]
  have := h bs 0
  unfold getBE
  omega

theorem bigEndian_putBE (k n : Nat) (h : n < 256 ^ k) : Spec.bigEndian (putBE k n) = n := by
  rw [bigEndian_eq, getBE_putBE k n h]

end Gotit
