import Verif.Model.Strconv
import Verif.Lemmas.Num
namespace Gotit
open Spec

theorem digitVal_digit {d : UInt8} (h : 48 ≤ d.toNat ∧ d.toNat ≤ 57) : digitVal d = some (d.toNat - 48) := by
  have h1 : (48 : UInt8) ≤ d ∧ d ≤ 57 := by simp [UInt8.le_iff_toNat_le]; exact h
  unfold digitVal
  rw [if_pos h1]
  congr 1
  rw [UInt8.toNat_sub_of_le _ _ h1.1]; rfl

theorem parseDigits_decimal (maxVal : Nat) (hm : maxVal < 2 ^ 64) (ds : Bytes) (h : IsDigits ds) (n : Nat) (u : Bool)
    (hn : n ≤ maxVal) :
    parseDigits 10 maxVal ds n u =
      if n * 10 ^ ds.length + decimal ds ≤ maxVal then .ok (n * 10 ^ ds.length + decimal ds, u)
      else .error .range := by
  induction ds generalizing n with
  | nil => simp [parseDigits, decimal, hn]
  | cons d ds ih =>
    have hd := h d (by simp)
    have hds : IsDigits ds := fun x hx => h x (List.mem_cons_of_mem _ hx)
    have e : n * 10 ^ (d :: ds).length + decimal (d :: ds) =
        (n * 10 + (d.toNat - 48)) * 10 ^ ds.length + decimal ds := by
      rw [decimal_cons, List.length_cons, Nat.pow_succ, Nat.add_mul, Nat.mul_assoc n 10,
        Nat.mul_comm 10 (10 ^ ds.length), Nat.add_assoc]
    have hpos : 1 ≤ 10 ^ ds.length := Nat.one_le_pow _ _ (by decide)
    have hge : n * 10 + (d.toNat - 48) ≤ (n * 10 + (d.toNat - 48)) * 10 ^ ds.length :=
      Nat.le_mul_of_pos_right _ hpos
    rw [e]
    have hne : d ≠ 95 := by rintro rfl; simp at hd
    rw [parseDigits, if_neg hne, digitVal_digit hd]
    simp only
    rw [if_neg (by omega)]
    split
    · rw [if_neg (by omega)]
    · split
      · rw [if_neg (by omega)]
      · rw [ih hds _ (by omega)]

theorem natDigits_head (n : Nat) (h : n ≠ 0) : ∃ d ds, natDigits n = d :: ds ∧ 49 ≤ d.toNat ∧ d.toNat ≤ 57 := by
  induction n using Nat.strongRecOn with
  | ind n ih =>
    rw [natDigits]
    split
    · refine ⟨_, [], rfl, ?_⟩
      have : (UInt8.ofNat (48 + n)).toNat = 48 + n := by
        rw [UInt8.toNat_ofNat']; omega
      omega
    · obtain ⟨d, ds, e, h1⟩ := ih (n / 10) (by omega) (by omega)
      exact ⟨d, ds ++ [_], by rw [e]; rfl, h1⟩

theorem natDigits_zero : natDigits 0 = [48] := by rw [natDigits]; rfl

theorem parseUint0_natDigits (n bits : Nat) (hb : bits ≤ 64) :
    parseUint0 (natDigits n) bits = if n ≤ 2 ^ bits - 1 then .ok n else .error .range := by
  have hp : 2 ^ bits ≤ 2 ^ 64 := Nat.pow_le_pow_right (by decide) hb
  have hp0 : 0 < 2 ^ bits := Nat.two_pow_pos bits
  by_cases hn : n = 0
  · subst hn
    rw [natDigits_zero]
    simp [parseUint0, base0, parseDigits]
  · obtain ⟨d, ds, e, h1, h2⟩ := natDigits_head n hn
    obtain ⟨hd, hv⟩ := natDigits_spec n
    have hbase : base0 (d :: ds) = (10, d :: ds) := by
      unfold base0
      split
      · rename_i heq; injection heq with h _; subst h; simp at h1
      · rename_i heq; injection heq with h _; subst h; simp at h1
      · rfl
    rw [e] at hd hv ⊢
    unfold parseUint0
    rw [if_neg (by simp), hbase]
    simp only
    rw [parseDigits_decimal _ (by omega) _ hd 0 false (by omega)]
    simp only [Nat.zero_mul, Nat.zero_add, hv]
    split
    · rename_i h3; split at h3 <;> simp_all
    · rename_i h3; split at h3 <;> simp_all

/-- `strconv.ParseInt(strconv.Itoa(n), 0, bits)`. -/
theorem parseInt0_itoa (n : Int) (bits : Nat) (h1 : 1 ≤ bits) (hb : bits ≤ 64) :
    parseInt0 (itoa n) bits = if -2 ^ (bits - 1) ≤ n ∧ n < 2 ^ (bits - 1) then .ok n else .error .range := by
  have hpow : (2 : Nat) ^ bits = 2 * 2 ^ (bits - 1) := by
    conv => lhs; rw [show bits = (bits - 1) + 1 by omega, Nat.pow_succ]
    omega
  have hc : ((2 : Int) ^ (bits - 1)) = ((2 ^ (bits - 1) : Nat) : Int) := by simp
  rw [hc]
  generalize hP : (2 : Nat) ^ (bits - 1) = P at hpow
  have hP0 : 0 < P := by rw [← hP]; exact Nat.two_pow_pos _
  by_cases hn : n < 0
  · have ei : itoa n = 45 :: natDigits n.natAbs := by simp [itoa, hn]
    rw [ei]
    unfold parseInt0
    rw [if_neg (by simp)]
    simp only [List.head?_cons, List.tail_cons]
    rw [if_pos (by simp), parseUint0_natDigits _ _ hb, hP, hpow]
    by_cases hr : n.natAbs ≤ 2 * P - 1
    · rw [if_pos hr]
      simp only [not_true, false_and, if_false, true_and, if_true]
      by_cases hs : n.natAbs > P
      · rw [if_pos hs, if_neg (by omega)]
      · rw [if_neg hs, if_pos (by omega)]; congr 1; omega
    · rw [if_neg hr]; simp only; rw [if_neg (by omega)]
  · have ei : itoa n = natDigits n.toNat := itoa_nonneg n (by omega)
    obtain ⟨hd, _⟩ := natDigits_spec n.toNat
    have hne : natDigits n.toNat ≠ [] := by
      by_cases h0 : n.toNat = 0
      · rw [h0, natDigits_zero]; simp
      · obtain ⟨d, ds, e, _⟩ := natDigits_head _ h0; rw [e]; simp
    have hh : ∀ c, (natDigits n.toNat).head? = some c → c ≠ 43 ∧ c ≠ 45 := by
      intro c hc
      have := hd c (List.mem_of_head? hc)
      constructor <;> rintro rfl <;> simp at this
    have h43 : (natDigits n.toNat).head? ≠ some 43 := fun h => (hh _ h).1 rfl
    have h45 : (natDigits n.toNat).head? ≠ some 45 := fun h => (hh _ h).2 rfl
    rw [ei]
    unfold parseInt0
    rw [if_neg hne]
    simp only
    rw [if_neg (by simp [h43, h45]), parseUint0_natDigits _ _ hb, hP, hpow]
    by_cases hr : n.toNat ≤ 2 * P - 1
    · rw [if_pos hr]
      simp only [h45, not_false_eq_true, true_and, false_and, if_false]
      by_cases hs : n.toNat ≥ P
      · rw [if_pos hs, if_neg (by omega)]
      · rw [if_neg hs, if_pos (by omega)]; congr 1; omega
    · rw [if_neg hr]; simp only; rw [if_neg (by omega)]

/-- `strconv.ParseUint(strconv.Itoa(n), 0, bits)`. -/
theorem parseUint0_itoa (n : Int) (bits : Nat) (hb : bits ≤ 64) :
    parseUint0 (itoa n) bits =
      if 0 ≤ n ∧ n < 2 ^ bits then .ok n.toNat else .error (if n < 0 then .syntax else .range) := by
  have hc : ((2 : Int) ^ bits) = ((2 ^ bits : Nat) : Int) := by simp
  have hp0 : 0 < 2 ^ bits := Nat.two_pow_pos bits
  by_cases hn : n < 0
  · have ei : itoa n = 45 :: natDigits n.natAbs := by simp [itoa, hn]
    rw [if_neg (by omega), ei, if_pos hn]
    unfold parseUint0
    rw [if_neg (by simp)]
    have : base0 (45 :: natDigits n.natAbs) = (10, 45 :: natDigits n.natAbs) := by
      unfold base0; split <;> simp_all
    rw [this]
    simp only [parseDigits]
    have h2 : digitVal 45 = none := by decide
    rw [if_neg (by decide), h2]
  · rw [itoa_nonneg n (by omega), parseUint0_natDigits _ _ hb, hc]
    by_cases h : n.toNat ≤ 2 ^ bits - 1
    · rw [if_pos h, if_pos (by omega)]
    · rw [if_neg h, if_neg (by omega), if_neg hn]

/-- Whatever the text, a successfully parsed number is in range. -/
theorem parseDigits_range {base maxVal : Nat} (cs : Bytes) (n : Nat) (u : Bool) (hn : n ≤ maxVal) {m : Nat} {u' : Bool}
    (h : parseDigits base maxVal cs n u = .ok (m, u')) : m ≤ maxVal := by
  induction cs generalizing n u with
  | nil => simp [parseDigits] at h; omega
  | cons c cs ih =>
    rw [parseDigits] at h
    split at h
    · exact ih _ _ hn h
    · split at h
      · simp at h
      · split at h
        · simp at h
        · split at h
          · simp at h
          · split at h
            · simp at h
            · exact ih _ _ (by omega) h

theorem parseUint0_range {s : Bytes} {bits n : Nat} (h : parseUint0 s bits = .ok n) : n < 2 ^ bits := by
  have hp0 : 0 < 2 ^ bits := Nat.two_pow_pos bits
  unfold parseUint0 at h
  split at h
  · simp at h
  · split at h
    · simp at h
    · rename_i m u hd
      split at h
      · simp at h
      · have := parseDigits_range _ _ _ (by omega) hd
        simp at h; omega

theorem parseInt0_range {s : Bytes} {bits : Nat} {n : Int} (h : parseInt0 s bits = .ok n) :
    -2 ^ (bits - 1) ≤ n ∧ n < 2 ^ (bits - 1) := by
  have hc : ((2 : Int) ^ (bits - 1)) = ((2 ^ (bits - 1) : Nat) : Int) := by simp
  have hp0 : 0 < 2 ^ (bits - 1) := Nat.two_pow_pos (bits - 1)
  rw [hc]
  unfold parseInt0 at h
  split at h
  · simp at h
  · simp only at h
    split at h
    · simp at h
    · split at h
      · simp at h
      · split at h
        · simp at h
        · rename_i h1 h2
          simp only [Except.ok.injEq] at h
          split at h
          · rename_i h3; simp only [h3, not_true, false_and, true_and] at h1 h2; omega
          · rename_i h3; simp only [h3, not_false_eq_true, true_and] at h1; omega

end Gotit
