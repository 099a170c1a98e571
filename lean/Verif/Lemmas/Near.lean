import Verif.Lemmas.Round
import Verif.Model.StatusLine
/-
  Accumulated rounding errors of float64 arithmetic.
-/
namespace Gotit

theorem rne_near (n d : Nat) (hd : 0 < d) : 2 * (rne n d * d) ≤ 2 * n + d ∧ 2 * n ≤ 2 * (rne n d * d) + d := by
  have hm := Nat.div_add_mod n d
  have hr := Nat.mod_lt n hd
  have e : d * (n / d) = n / d * d := Nat.mul_comm _ _
  have e' : (n / d + 1) * d = n / d * d + d := by rw [Nat.add_mul, Nat.one_mul]
  unfold rne
  simp only
  repeat' split
  all_goals first | rw [e'] | skip
  all_goals omega

/-- `x` and `y` differ by at most the factor `(1 + 2^-52)^k`. -/
def Within (k : Nat) (x y : Frac) : Prop :=
  x.num * y.den * (2 ^ 52) ^ k ≤ y.num * x.den * (2 ^ 52 + 1) ^ k ∧ y.num * x.den * (2 ^ 52) ^ k ≤ x.num * y.den * (2 ^ 52 + 1) ^ k

theorem Within.trans {j k : Nat} {x y z : Frac} (hy : 0 < y.den) (h1 : Within j x y) (h2 : Within k y z) :
    Within (j + k) x z := by
  obtain ⟨a1, a2⟩ := h1
  obtain ⟨b1, b2⟩ := h2
  constructor
  · apply Nat.le_of_mul_le_mul_right (c := y.den) _ hy
    calc x.num * z.den * (2 ^ 52) ^ (j + k) * y.den = (x.num * y.den * (2 ^ 52) ^ j) * (z.den * (2 ^ 52) ^ k) := by rw [Nat.pow_add]; ac_rfl
      _ ≤ (y.num * x.den * (2 ^ 52 + 1) ^ j) * (z.den * (2 ^ 52) ^ k) := Nat.mul_le_mul_right _ a1
      _ = (y.num * z.den * (2 ^ 52) ^ k) * (x.den * (2 ^ 52 + 1) ^ j) := by ac_rfl
      _ ≤ (z.num * y.den * (2 ^ 52 + 1) ^ k) * (x.den * (2 ^ 52 + 1) ^ j) := Nat.mul_le_mul_right _ b1
      _ = z.num * x.den * (2 ^ 52 + 1) ^ (j + k) * y.den := by rw [Nat.pow_add]; ac_rfl
  · apply Nat.le_of_mul_le_mul_right (c := y.den) _ hy
    calc z.num * x.den * (2 ^ 52) ^ (j + k) * y.den = (z.num * y.den * (2 ^ 52) ^ k) * (x.den * (2 ^ 52) ^ j) := by rw [Nat.pow_add]; ac_rfl
      _ ≤ (y.num * z.den * (2 ^ 52 + 1) ^ k) * (x.den * (2 ^ 52) ^ j) := Nat.mul_le_mul_right _ b2
      _ = (y.num * x.den * (2 ^ 52) ^ j) * (z.den * (2 ^ 52 + 1) ^ k) := by ac_rfl
      _ ≤ (x.num * y.den * (2 ^ 52 + 1) ^ j) * (z.den * (2 ^ 52 + 1) ^ k) := Nat.mul_le_mul_right _ a2
      _ = x.num * z.den * (2 ^ 52 + 1) ^ (j + k) * y.den := by rw [Nat.pow_add]; ac_rfl

/-- The error of one rounding. -/
theorem round_error (p n d : Nat) (hd : 0 < d) :
    (roundBits (p + 1) n d).num * d * 2 ^ (p + 1) ≤ n * (roundBits (p + 1) n d).den * 2 ^ (p + 1) + n * (roundBits (p + 1) n d).den ∧
    n * (roundBits (p + 1) n d).den * 2 ^ (p + 1) ≤ (roundBits (p + 1) n d).num * d * 2 ^ (p + 1) + n * (roundBits (p + 1) n d).den := by
  unfold roundBits
  by_cases h0 : n = 0
  · simp [h0]
  · rw [if_neg h0]
    obtain ⟨k1, k2⟩ := normExp_spec p n d (by omega) hd
    generalize normExp (p + 1) n d = e at *
    simp only
    have hD : 0 < d * 2 ^ e.toNat := Nat.mul_pos hd (Nat.pow_pos (by omega))
    obtain ⟨r1, r2⟩ := rne_near (n * 2 ^ (-e).toNat) (d * 2 ^ e.toNat) hD
    generalize hN : n * 2 ^ (-e).toNat = N at *
    generalize hm : rne N (d * 2 ^ e.toNat) = m at *
    have e1 : m * 2 ^ e.toNat * d = m * (d * 2 ^ e.toNat) := by ac_rfl
    rw [e1]
    generalize d * 2 ^ e.toNat = D at *
    have e2 : ∀ x : Nat, x * 2 ^ (p + 1) = 2 ^ p * (2 * x) := by intro x; rw [Nat.pow_succ]; ac_rfl
    rw [e2, e2]
    constructor
    · calc 2 ^ p * (2 * (m * D)) ≤ 2 ^ p * (2 * N + D) := Nat.mul_le_mul_left _ r1
        _ = 2 ^ p * (2 * N) + 2 ^ p * D := Nat.mul_add _ _ _
        _ ≤ _ := Nat.add_le_add_left k1 _
    · calc 2 ^ p * (2 * N) ≤ 2 ^ p * (2 * (m * D) + D) := Nat.mul_le_mul_left _ r2
        _ = 2 ^ p * (2 * (m * D)) + 2 ^ p * D := Nat.mul_add _ _ _
        _ ≤ _ := Nat.add_le_add_left k1 _

theorem round_within (n d : Nat) (hd : 0 < d) : Within 1 (roundBits 53 n d) ⟨n, d⟩ := by
  obtain ⟨h1, h2⟩ := round_error 52 n d hd
  unfold Within
  simp only [Nat.pow_one]
  generalize (roundBits 53 n d).num * d = A at *
  generalize n * (roundBits 53 n d).den = N at *
  simp only [Nat.reduceAdd, Nat.reducePow] at h1 h2 ⊢
  omega

theorem Within.mono {j k : Nat} {x y : Frac} (h : j ≤ k) (hw : Within j x y) : Within k x y := by
  obtain ⟨i, rfl⟩ : ∃ i, k = j + i := ⟨k - j, by omega⟩
  obtain ⟨a1, a2⟩ := hw
  have hp : (2 ^ 52) ^ i ≤ (2 ^ 52 + 1) ^ i := Nat.pow_le_pow_left (by omega) i
  unfold Within
  rw [Nat.pow_add, Nat.pow_add, ← Nat.mul_assoc, ← Nat.mul_assoc, ← Nat.mul_assoc, ← Nat.mul_assoc]
  exact ⟨Nat.mul_le_mul a1 hp, Nat.mul_le_mul a2 hp⟩

theorem Within.div {j k : Nat} {x x' y y' : Frac} (h1 : Within j x x') (h2 : Within k y y') :
    Within (j + k) ⟨x.num * y.den, x.den * y.num⟩ ⟨x'.num * y'.den, x'.den * y'.num⟩ := by
  obtain ⟨a1, a2⟩ := h1
  obtain ⟨b1, b2⟩ := h2
  constructor
  · calc x.num * y.den * (x'.den * y'.num) * (2 ^ 52) ^ (j + k) = (x.num * x'.den * (2 ^ 52) ^ j) * (y'.num * y.den * (2 ^ 52) ^ k) := by
          rw [Nat.pow_add]; ac_rfl
      _ ≤ (x'.num * x.den * (2 ^ 52 + 1) ^ j) * (y.num * y'.den * (2 ^ 52 + 1) ^ k) := Nat.mul_le_mul a1 b2
      _ = x'.num * y'.den * (x.den * y.num) * (2 ^ 52 + 1) ^ (j + k) := by rw [Nat.pow_add]; ac_rfl
  · calc x'.num * y'.den * (x.den * y.num) * (2 ^ 52) ^ (j + k) = (x'.num * x.den * (2 ^ 52) ^ j) * (y.num * y'.den * (2 ^ 52) ^ k) := by
          rw [Nat.pow_add]; ac_rfl
      _ ≤ (x.num * x'.den * (2 ^ 52 + 1) ^ j) * (y'.num * y.den * (2 ^ 52 + 1) ^ k) := Nat.mul_le_mul a2 b1
      _ = x.num * y.den * (x'.den * y'.num) * (2 ^ 52 + 1) ^ (j + k) := by rw [Nat.pow_add]; ac_rfl

theorem Within.add {k : Nat} {x x' y y' : Frac} (h1 : Within k x x') (h2 : Within k y y') :
    Within k ⟨x.num * y.den + y.num * x.den, x.den * y.den⟩ ⟨x'.num * y'.den + y'.num * x'.den, x'.den * y'.den⟩ := by
  obtain ⟨a1, a2⟩ := h1
  obtain ⟨b1, b2⟩ := h2
  constructor
  · calc (x.num * y.den + y.num * x.den) * (x'.den * y'.den) * (2 ^ 52) ^ k
        = (x.num * x'.den * (2 ^ 52) ^ k) * (y.den * y'.den) + (y.num * y'.den * (2 ^ 52) ^ k) * (x.den * x'.den) := by
          rw [Nat.add_mul, Nat.add_mul]; congr 1 <;> ac_rfl
      _ ≤ (x'.num * x.den * (2 ^ 52 + 1) ^ k) * (y.den * y'.den) + (y'.num * y.den * (2 ^ 52 + 1) ^ k) * (x.den * x'.den) :=
          Nat.add_le_add (Nat.mul_le_mul_right _ a1) (Nat.mul_le_mul_right _ b1)
      _ = _ := by simp only; rw [Nat.add_mul, Nat.add_mul]; congr 1 <;> ac_rfl
  · calc (x'.num * y'.den + y'.num * x'.den) * (x.den * y.den) * (2 ^ 52) ^ k
        = (x'.num * x.den * (2 ^ 52) ^ k) * (y.den * y'.den) + (y'.num * y.den * (2 ^ 52) ^ k) * (x.den * x'.den) := by
          rw [Nat.add_mul, Nat.add_mul]; congr 1 <;> ac_rfl
      _ ≤ (x.num * x'.den * (2 ^ 52 + 1) ^ k) * (y.den * y'.den) + (y.num * y'.den * (2 ^ 52 + 1) ^ k) * (x.den * x'.den) :=
          Nat.add_le_add (Nat.mul_le_mul_right _ a2) (Nat.mul_le_mul_right _ b2)
      _ = _ := by simp only; rw [Nat.add_mul, Nat.add_mul]; congr 1 <;> ac_rfl

theorem Within.refl (x : Frac) : Within 0 x x := ⟨Nat.le_refl _, Nat.le_refl _⟩

theorem toFloat_within (n : Nat) : Within 1 (toFloat 53 n) ⟨n, 1⟩ := round_within n 1 (by omega)

theorem fdiv_within {j k : Nat} {x x' y y' : Frac} (hx : 0 < x.den) (hy : 0 < y.num) (h1 : Within j x x') (h2 : Within k y y') :
    Within (1 + (j + k)) (fdiv 53 x y) ⟨x'.num * y'.den, x'.den * y'.num⟩ :=
  Within.trans (y := ⟨x.num * y.den, x.den * y.num⟩) (Nat.mul_pos hx hy) (round_within _ _ (Nat.mul_pos hx hy)) (h1.div h2)

theorem fadd_within {k : Nat} {x x' y y' : Frac} (hx : 0 < x.den) (hy : 0 < y.den) (h1 : Within k x x') (h2 : Within k y y') :
    Within (1 + k) (fadd 53 x y) ⟨x'.num * y'.den + y'.num * x'.den, x'.den * y'.den⟩ :=
  Within.trans (y := ⟨x.num * y.den + y.num * x.den, x.den * y.den⟩) (Nat.mul_pos hx hy) (round_within _ _ (Nat.mul_pos hx hy)) (h1.add h2)

theorem Within.pos {k : Nat} {x y : Frac} (h : Within k x y) (hn : 0 < y.num) (hd : 0 < x.den) : 0 < x.num := by
  have := h.2
  rcases Nat.eq_zero_or_pos x.num with h0 | h0
  · rw [h0, Nat.zero_mul, Nat.zero_mul] at this
    have := Nat.mul_pos (Nat.mul_pos hn hd) (Nat.pow_pos (n := k) (show 0 < 2 ^ 52 by omega))
    omega
  · exact h0

/-- The error in terms of a single fraction. -/
theorem Within.ratio {k R : Nat} {x y : Frac} (h : Within k x y) (hR : (2 ^ 52 + 1) ^ k * R ≤ (2 ^ 52) ^ k * (R + 1)) :
    x.num * y.den * R ≤ y.num * x.den * (R + 1) ∧ y.num * x.den * R ≤ x.num * y.den * (R + 1) := by
  obtain ⟨a1, a2⟩ := h
  have hp : 0 < (2 ^ 52) ^ k := Nat.pow_pos (by omega)
  generalize (2 ^ 52 + 1) ^ k = P at *
  generalize (2 ^ 52) ^ k = Q at *
  generalize x.num * y.den = a at *
  generalize y.num * x.den = b at *
  constructor
  · apply Nat.le_of_mul_le_mul_right (c := Q) _ hp
    calc a * R * Q = a * Q * R := by ac_rfl
      _ ≤ b * P * R := Nat.mul_le_mul_right _ a1
      _ = b * (P * R) := Nat.mul_assoc _ _ _
      _ ≤ b * (Q * (R + 1)) := Nat.mul_le_mul_left _ hR
      _ = b * (R + 1) * Q := by ac_rfl
  · apply Nat.le_of_mul_le_mul_right (c := Q) _ hp
    calc b * R * Q = b * Q * R := by ac_rfl
      _ ≤ a * P * R := Nat.mul_le_mul_right _ a2
      _ = a * (P * R) := Nat.mul_assoc _ _ _
      _ ≤ a * (Q * (R + 1)) := Nat.mul_le_mul_left _ hR
      _ = a * (R + 1) * Q := by ac_rfl

/-- The tenths printed for a number that is about `N / D`. -/
theorem tenths_near {R N D : Nat} {x : Frac} (hx : 0 < x.den)
    (h : x.num * D * R ≤ N * x.den * (R + 1) ∧ N * x.den * R ≤ x.num * D * (R + 1)) :
    2 * (rne (10 * x.num) x.den * D * R) ≤ D * R + 20 * (N * (R + 1)) ∧
    20 * (N * R) ≤ 2 * (rne (10 * x.num) x.den * D * (R + 1)) + D * (R + 1) := by
  obtain ⟨r1, r2⟩ := rne_near (10 * x.num) x.den hx
  generalize rne (10 * x.num) x.den = m at *
  constructor
  · apply Nat.le_of_mul_le_mul_right (c := x.den) _ hx
    calc 2 * (m * D * R) * x.den = 2 * (m * x.den) * (D * R) := by ac_rfl
      _ ≤ (2 * (10 * x.num) + x.den) * (D * R) := Nat.mul_le_mul_right _ r1
      _ = 20 * (x.num * D * R) + D * R * x.den := by rw [Nat.add_mul, ← Nat.mul_assoc 2 10]; congr 1 <;> ac_rfl
      _ ≤ 20 * (N * x.den * (R + 1)) + D * R * x.den := Nat.add_le_add_right (Nat.mul_le_mul_left _ h.1) _
      _ = _ := by rw [Nat.add_mul, Nat.add_comm]; congr 1; ac_rfl
  · apply Nat.le_of_mul_le_mul_right (c := x.den) _ hx
    calc 20 * (N * R) * x.den = 20 * (N * x.den * R) := by ac_rfl
      _ ≤ 20 * (x.num * D * (R + 1)) := Nat.mul_le_mul_left _ h.2
      _ = 2 * (10 * x.num) * (D * (R + 1)) := by rw [show 2 * (10 * x.num) = 20 * x.num by omega]; ac_rfl
      _ ≤ (2 * (m * x.den) + x.den) * (D * (R + 1)) := Nat.mul_le_mul_right _ r2
      _ = _ := by rw [Nat.add_mul, Nat.add_mul]; congr 1 <;> ac_rfl

/-- A number of few enough bits is not rounded, even with an exponent. -/
theorem roundBits_dyadic (p n d a k : Nat) (hd : 0 < d) (ha : a < 2 ^ (p + 1)) (h : n * 2 ^ k = a * d) :
    (roundBits (p + 1) n d).num * 2 ^ k = a * (roundBits (p + 1) n d).den := by
  unfold roundBits
  by_cases h0 : n = 0
  · subst h0
    rw [if_pos rfl]
    rw [Nat.zero_mul] at h
    have : a = 0 := by
      rcases Nat.eq_zero_or_pos a with h1 | h1
      · exact h1
      · have := Nat.mul_pos h1 hd; omega
    subst this
    simp
  · rw [if_neg h0]
    obtain ⟨k1, k2⟩ := normExp_spec p n d (by omega) hd
    generalize normExp (p + 1) n d = e at *
    simp only
    have P : ∀ k, 0 < 2 ^ k := fun k => Nat.pow_pos (by omega)
    by_cases hk : k ≤ (-e).toNat
    · obtain ⟨s, hs⟩ : ∃ s, (-e).toNat = k + s := ⟨(-e).toNat - k, by omega⟩
      by_cases he : e ≤ 0
      · have t1 : e.toNat = 0 := by omega
        rw [t1, hs, Nat.pow_zero, Nat.mul_one, Nat.mul_one, Nat.pow_add, ← Nat.mul_assoc, h]
        have : a * d * 2 ^ s = a * 2 ^ s * d := by ac_rfl
        rw [this, rne_exact hd]; ac_rfl
      · have t2 : (-e).toNat = 0 := by omega
        have hk0 : k = 0 := by omega
        subst hk0
        rw [t2] at k1 k2 ⊢
        simp only [Nat.pow_zero, Nat.mul_one] at h k1 k2 ⊢
        exfalso
        have h2 : 2 ^ 1 ≤ 2 ^ e.toNat := Nat.pow_le_pow_right (by omega) (by omega)
        have : 2 ^ (p + 1) * d ≤ a * d := by
          calc 2 ^ (p + 1) * d = 2 ^ p * (d * 2 ^ 1) := by rw [Nat.pow_add]; ac_rfl
            _ ≤ 2 ^ p * (d * 2 ^ e.toNat) := Nat.mul_le_mul_left _ (Nat.mul_le_mul_left _ h2)
            _ ≤ n := k1
            _ = a * d := h
        have := Nat.le_of_mul_le_mul_right this hd
        omega
    · exfalso
      have : 2 ^ (p + e.toNat + k) * d < 2 ^ (p + 1 + (-e).toNat) * d := by
        calc 2 ^ (p + e.toNat + k) * d = 2 ^ p * (d * 2 ^ e.toNat) * 2 ^ k := by rw [Nat.pow_add, Nat.pow_add]; ac_rfl
          _ ≤ n * 2 ^ (-e).toNat * 2 ^ k := Nat.mul_le_mul_right _ k1
          _ = a * d * 2 ^ (-e).toNat := by rw [← h]; ac_rfl
          _ < 2 ^ (p + 1) * d * 2 ^ (-e).toNat := Nat.mul_lt_mul_of_pos_right (Nat.mul_lt_mul_of_pos_right ha hd) (P _)
          _ = _ := by rw [Nat.pow_add _ (p + 1)]; ac_rfl
      have := Nat.lt_of_mul_lt_mul_right this
      have := (Nat.pow_lt_pow_iff_right (a := 2) (by omega)).1 this
      omega

end Gotit
