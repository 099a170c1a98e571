import Verif.Model.Float
namespace Gotit

theorem rne_le {n d k : Nat} (hd : 0 < d) (h : n ≤ k * d) : rne n d ≤ k := by
  have hm := Nat.div_add_mod n d
  have hr := Nat.mod_lt n hd
  have hq : n / d ≤ k := by
    have := Nat.div_le_div_right (c := d) h
    rwa [Nat.mul_div_cancel _ hd] at this
  unfold rne
  simp only
  rcases Nat.lt_or_eq_of_le hq with hlt | heq
  · split
    · exact hq
    · split
      · omega
      · split <;> omega
  · have e : d * (n / d) = k * d := by rw [heq, Nat.mul_comm]
    rw [if_pos (by omega)]
    exact hq

theorem le_rne {n d k : Nat} (hd : 0 < d) (h : k * d ≤ n) : k ≤ rne n d := by
  have hq : k ≤ n / d := (Nat.le_div_iff_mul_le hd).2 h
  unfold rne
  simp only
  split
  · exact hq
  · split
    · omega
    · split <;> omega

theorem lt_rne {n d k : Nat} (hd : 0 < d) (h : (2 * k + 1) * d < 2 * n) : k < rne n d := by
  have hm := Nat.div_add_mod n d
  have hr := Nat.mod_lt n hd
  have hq : k ≤ n / d := by
    apply Classical.byContradiction
    intro hc
    have : n / d + 1 ≤ k := by omega
    have := Nat.mul_le_mul_left d this
    rw [Nat.mul_add, Nat.mul_one] at this
    have e : (2 * k + 1) * d = 2 * (d * k) + d := by rw [Nat.add_mul, Nat.one_mul, Nat.mul_assoc, Nat.mul_comm k d]
    omega
  unfold rne
  simp only
  rcases Nat.lt_or_eq_of_le hq with hlt | heq
  · split
    · exact hlt
    · split
      · omega
      · split <;> omega
  · have e : (2 * k + 1) * d = 2 * (d * k) + d := by rw [Nat.add_mul, Nat.one_mul, Nat.mul_assoc, Nat.mul_comm k d]
    rw [← heq] at hm ⊢
    rw [if_neg (by omega), if_pos (by omega)]
    omega

theorem rne_one (n : Nat) : rne n 1 = n := by
  unfold rne; simp [Nat.mod_one]

theorem rne_exact {k d : Nat} (hd : 0 < d) : rne (k * d) d = k :=
  Nat.le_antisymm (rne_le hd (Nat.le_refl _)) (le_rne hd (Nat.le_refl _))

/-- The exponent normalises. -/
theorem normExp_spec (p n d : Nat) (hn : 0 < n) (hd : 0 < d) :
    2 ^ p * (d * 2 ^ (normExp (p + 1) n d).toNat) ≤ n * 2 ^ (-normExp (p + 1) n d).toNat ∧
    n * 2 ^ (-normExp (p + 1) n d).toNat < 2 ^ (p + 1) * (d * 2 ^ (normExp (p + 1) n d).toNat) := by
  have n1 := Nat.log2_self_le (Nat.pos_iff_ne_zero.1 hn)
  have n2 : n < 2 ^ (n.log2 + 1) := (Nat.log2_lt (Nat.pos_iff_ne_zero.1 hn)).1 (by omega)
  have d1 := Nat.log2_self_le (Nat.pos_iff_ne_zero.1 hd)
  have d2 : d < 2 ^ (d.log2 + 1) := (Nat.log2_lt (Nat.pos_iff_ne_zero.1 hd)).1 (by omega)
  generalize ha : n.log2 = a at *
  generalize hb : d.log2 = b at *
  have key : ∀ e : Int, e = (a : Int) - b - (p + 1 : Nat) →
      2 ^ p * (d * 2 ^ e.toNat) ≤ n * 2 ^ (-e).toNat ∧ n * 2 ^ (-e).toNat < 2 ^ (p + 2) * (d * 2 ^ e.toNat) := by
    intro e he
    by_cases h0 : e ≤ 0
    · have t1 : e.toNat = 0 := by omega
      have t2 : (-e).toNat = b + (p + 1) - a := by omega
      rw [t1, t2, Nat.pow_zero, Nat.mul_one]
      have e1 : 2 ^ a * 2 ^ (b + (p + 1) - a) = 2 ^ (b + p + 1) := by rw [← Nat.pow_add]; congr 1; omega
      have e2 : 2 ^ (a + 1) * 2 ^ (b + (p + 1) - a) = 2 ^ (b + p + 2) := by rw [← Nat.pow_add]; congr 1; omega
      constructor
      · calc 2 ^ p * d ≤ 2 ^ p * 2 ^ (b + 1) := Nat.mul_le_mul_left _ (by omega)
          _ = 2 ^ (b + p + 1) := by rw [← Nat.pow_add]; congr 1; omega
          _ = 2 ^ a * 2 ^ (b + (p + 1) - a) := e1.symm
          _ ≤ n * 2 ^ (b + (p + 1) - a) := Nat.mul_le_mul_right _ n1
      · calc n * 2 ^ (b + (p + 1) - a) < 2 ^ (a + 1) * 2 ^ (b + (p + 1) - a) :=
              Nat.mul_lt_mul_of_pos_right n2 (Nat.pow_pos (by omega))
          _ = 2 ^ (b + p + 2) := e2
          _ = 2 ^ (p + 2) * 2 ^ b := by rw [← Nat.pow_add]; congr 1; omega
          _ ≤ 2 ^ (p + 2) * d := Nat.mul_le_mul_left _ d1
    · have t1 : e.toNat = a - b - (p + 1) := by omega
      have t2 : (-e).toNat = 0 := by omega
      rw [t1, t2, Nat.pow_zero, Nat.mul_one]
      constructor
      · calc 2 ^ p * (d * 2 ^ (a - b - (p + 1))) ≤ 2 ^ p * (2 ^ (b + 1) * 2 ^ (a - b - (p + 1))) :=
              Nat.mul_le_mul_left _ (Nat.mul_le_mul_right _ (by omega))
          _ = 2 ^ a := by rw [← Nat.pow_add, ← Nat.pow_add]; congr 1; omega
          _ ≤ n := n1
      · calc n < 2 ^ (a + 1) := n2
          _ = 2 ^ (p + 2) * (2 ^ b * 2 ^ (a - b - (p + 1))) := by rw [← Nat.pow_add, ← Nat.pow_add]; congr 1; omega
          _ ≤ 2 ^ (p + 2) * (d * 2 ^ (a - b - (p + 1))) := Nat.mul_le_mul_left _ (Nat.mul_le_mul_right _ d1)
  unfold normExp
  simp only [ha, hb]
  generalize he : (a : Int) - b - (p + 1 : Nat) = e
  obtain ⟨k1, k2⟩ := key e he.symm
  have hD : 0 < d * 2 ^ e.toNat := Nat.mul_pos hd (Nat.pow_pos (by omega))
  split
  · rename_i hge
    have hge : 2 ^ (p + 1) * (d * 2 ^ e.toNat) ≤ n * 2 ^ (-e).toNat := (Nat.le_div_iff_mul_le hD).1 hge
    by_cases h0 : 0 ≤ e
    · have t1 : (e + 1).toNat = e.toNat + 1 := by omega
      have t2 : (-(e + 1)).toNat = 0 := by omega
      have t3 : (-e).toNat = 0 := by omega
      rw [t1, t2]
      rw [t3] at hge k2
      rw [Nat.pow_zero, Nat.mul_one] at *
      rw [Nat.pow_succ (m := e.toNat)]
      rw [Nat.pow_succ] at hge
      rw [show p + 2 = (p + 1) + 1 from rfl, Nat.pow_succ] at k2
      constructor
      · have : 2 ^ p * (d * (2 ^ e.toNat * 2)) = 2 ^ p * 2 * (d * 2 ^ e.toNat) := by
          rw [Nat.mul_assoc (2 ^ p), ← Nat.mul_assoc d, Nat.mul_comm (d * _) 2]
        omega
      · have : 2 ^ (p + 1) * (d * (2 ^ e.toNat * 2)) = 2 ^ (p + 1) * 2 * (d * 2 ^ e.toNat) := by
          rw [Nat.mul_assoc (2 ^ (p + 1)), ← Nat.mul_assoc d, Nat.mul_comm (d * _) 2]
        omega
    · have t1 : (e + 1).toNat = 0 := by omega
      have t2 : (-e).toNat = (-(e + 1)).toNat + 1 := by omega
      have t3 : e.toNat = 0 := by omega
      rw [t1]
      rw [t2, t3] at hge k2
      generalize (-(e + 1)).toNat = m at *
      rw [Nat.pow_zero, Nat.mul_one] at *
      have e1 : n * 2 ^ (m + 1) = 2 * (n * 2 ^ m) := by rw [Nat.pow_succ]; ac_rfl
      have e2 : 2 ^ (p + 1) * d = 2 * (2 ^ p * d) := by rw [Nat.pow_succ]; ac_rfl
      have e3 : 2 ^ (p + 2) * d = 2 * (2 ^ (p + 1) * d) := by rw [show p + 2 = (p + 1) + 1 from rfl, Nat.pow_succ]; ac_rfl
      rw [e1] at hge k2
      omega
  · rename_i hlt
    have hlt : n * 2 ^ (-e).toNat < 2 ^ (p + 1) * (d * 2 ^ e.toNat) := by
      apply Classical.byContradiction
      intro hc
      exact hlt ((Nat.le_div_iff_mul_le hD).2 (by omega))
    exact ⟨k1, hlt⟩

/-- Integers of at most `p + 1` bits are represented exactly. -/
theorem toFloat_exact (p n : Nat) (h : n ≤ 2 ^ (p + 1)) :
    (toFloat (p + 1) n).num = n * (toFloat (p + 1) n).den ∧ 0 < (toFloat (p + 1) n).den := by
  unfold toFloat roundBits
  by_cases h0 : n = 0
  · simp [h0]
  · rw [if_neg h0]
    obtain ⟨k1, k2⟩ := normExp_spec p n 1 (by omega) (by omega)
    generalize normExp (p + 1) n 1 = e at *
    refine ⟨?_, Nat.pow_pos (by omega)⟩
    simp only [Nat.one_mul] at *
    by_cases he : e ≤ 0
    · have t1 : e.toNat = 0 := by omega
      simp [t1, rne_one]
    · have t2 : (-e).toNat = 0 := by omega
      rw [t2] at k1 k2 ⊢
      simp only [Nat.pow_zero, Nat.mul_one] at k1 k2 ⊢
      have h2 : 2 ^ 1 ≤ 2 ^ e.toNat := Nat.pow_le_pow_right (by omega) (by omega)
      have h3 := Nat.mul_le_mul_left (2 ^ p) h2
      have h4 : 2 ^ p * 2 ^ e.toNat = 2 ^ p * 2 ^ 1 := by
        rw [Nat.pow_succ] at h; omega
      have h5 : 2 ^ e.toNat = 2 ^ 1 := Nat.eq_of_mul_eq_mul_left (Nat.pow_pos (by omega)) h4
      rw [h5] at k1 k2 ⊢
      have : n = 2 ^ p * 2 ^ 1 := by rw [Nat.pow_succ] at h; omega
      rw [this, rne_exact (by omega)]

theorem ceil_unique {n d k : Nat} (hd : 0 < d) (h1 : n ≤ k * d) (h2 : 0 < k → (k - 1) * d < n) : (n + d - 1) / d = k := by
  cases k with
  | zero =>
    have : n = 0 := by omega
    subst this
    rw [Nat.div_eq_of_lt (by omega)]
  | succ k =>
    have h2 := h2 (by omega)
    simp only [Nat.add_sub_cancel] at h2
    rw [Nat.succ_mul] at h1
    apply Nat.div_eq_of_lt_le
    · rw [Nat.succ_mul]; omega
    · rw [Nat.succ_mul, Nat.succ_mul]; omega

/-- The ceiling of the correctly rounded quotient is the ceiling of the exact quotient, as long as the numerator has at
most `p + 1` bits. `x / y` are any fractions equal to `a / b`. -/
theorem ceil_round (p a b x y K : Nat) (ha : 0 < a) (ha2 : a ≤ 2 ^ (p + 1)) (hb : 0 < b) (hy : 0 < y)
    (hxy : x * b = a * y) (hK1 : a ≤ K * b) (hK2 : (K - 1) * b < a) :
    (roundBits (p + 1) x y).ceil = K := by
  have hx : 0 < x := by
    rcases Nat.eq_zero_or_pos x with h | h
    · subst h; rw [Nat.zero_mul] at hxy
      have := Nat.mul_pos ha hy; omega
    · exact h
  have hKpos : 0 < K := by
    rcases Nat.eq_zero_or_pos K with h | h
    · subst h; omega
    · exact h
  obtain ⟨k, rfl⟩ : ∃ k, K = k + 1 := ⟨K - 1, by omega⟩
  simp only [Nat.add_sub_cancel] at hK2
  -- the same bounds for x / y
  have hx1 : x ≤ (k + 1) * y := by
    apply Nat.le_of_mul_le_mul_right (c := b) _ hb
    rw [hxy, Nat.mul_right_comm]
    exact Nat.mul_le_mul_right y hK1
  unfold roundBits
  rw [if_neg (by omega)]
  obtain ⟨n1, n2⟩ := normExp_spec p x y hx hy
  generalize normExp (p + 1) x y = e at *
  simp only [Frac.ceil]
  by_cases he : e ≤ 0
  · have t1 : e.toNat = 0 := by omega
    rw [t1] at n1 n2 ⊢
    simp only [Nat.pow_zero, Nat.mul_one] at n1 n2 ⊢
    generalize (-e).toNat = s at n1 n2 ⊢
    have hs : 0 < 2 ^ s := Nat.pow_pos (by omega)
    apply ceil_unique hs
    · apply rne_le hy
      rw [Nat.mul_right_comm]
      exact Nat.mul_le_mul_right _ hx1
    · intro _
      simp only [Nat.add_sub_cancel]
      apply lt_rne hy
      -- (2 k 2^s + 1) y < 2 x 2^s
      -- multiply by b: (2 k 2^s + 1) b y < 2 a y 2^s
      apply Nat.lt_of_mul_lt_mul_right (a := b)
      have e2 : 2 * (x * 2 ^ s) * b = 2 * (a * 2 ^ s) * y := by
        calc 2 * (x * 2 ^ s) * b = 2 * 2 ^ s * (x * b) := by ac_rfl
          _ = 2 * 2 ^ s * (a * y) := by rw [hxy]
          _ = 2 * (a * 2 ^ s) * y := by ac_rfl
      have e1 : (2 * (k * 2 ^ s) + 1) * y * b = (2 * (k * b * 2 ^ s) + b) * y := by
        calc (2 * (k * 2 ^ s) + 1) * y * b = (2 * (k * 2 ^ s) + 1) * b * y := by ac_rfl
          _ = (2 * (k * b * 2 ^ s) + b) * y := by
            rw [Nat.add_mul (2 * (k * 2 ^ s)), Nat.one_mul]
            congr 2; ac_rfl
      rw [e1, e2]
      apply Nat.mul_lt_mul_of_pos_right _ hy
      -- 2^p b ≤ a 2^s
      have h3 : 2 ^ p * b ≤ a * 2 ^ s := by
        apply Nat.le_of_mul_le_mul_right (c := y) _ hy
        calc 2 ^ p * b * y = 2 ^ p * y * b := by ac_rfl
          _ ≤ x * 2 ^ s * b := Nat.mul_le_mul_right _ n1
          _ = x * b * 2 ^ s := by ac_rfl
          _ = a * y * 2 ^ s := by rw [hxy]
          _ = a * 2 ^ s * y := by ac_rfl
      have h4 : b ≤ 2 * 2 ^ s := by
        apply Nat.le_of_mul_le_mul_left (c := 2 ^ p) _ (Nat.pow_pos (by omega))
        calc 2 ^ p * b ≤ a * 2 ^ s := h3
          _ ≤ 2 ^ (p + 1) * 2 ^ s := Nat.mul_le_mul_right _ ha2
          _ = 2 ^ p * (2 * 2 ^ s) := by rw [Nat.pow_succ, Nat.mul_assoc]
      obtain ⟨δ, hδ⟩ : ∃ δ, a = k * b + δ := ⟨a - k * b, by omega⟩
      have hδ1 : 1 ≤ δ := by omega
      have e3 : 2 * (a * 2 ^ s) = 2 * (k * b * 2 ^ s) + 2 * 2 ^ s * δ := by
        rw [hδ, Nat.add_mul, Nat.mul_add]; congr 1; ac_rfl
      rw [e3]
      apply Nat.add_lt_add_left
      rcases Nat.lt_or_eq_of_le h4 with hlt | heq
      · calc b < 2 * 2 ^ s * 1 := by omega
          _ ≤ 2 * 2 ^ s * δ := Nat.mul_le_mul_left _ hδ1
      · -- b = 2^(s+1), so a = 2^(p+1); both even, so δ ≥ 2
        have h5 : a = 2 ^ (p + 1) := by
          apply Nat.le_antisymm ha2
          apply Nat.le_of_mul_le_mul_right (c := 2 ^ s) _ hs
          calc 2 ^ (p + 1) * 2 ^ s = 2 ^ p * (2 * 2 ^ s) := by rw [Nat.pow_succ, Nat.mul_assoc]
            _ = 2 ^ p * b := by rw [heq]
            _ ≤ a * 2 ^ s := h3
        have hδ2 : 2 ≤ δ := by
          have ev : a = 2 * 2 ^ p := by rw [h5, Nat.pow_succ, Nat.mul_comm]
          have ev2 : k * b = 2 * (k * 2 ^ s) := by rw [heq]; ac_rfl
          omega
        calc b < 2 * 2 ^ s * 2 := by omega
          _ ≤ 2 * 2 ^ s * δ := Nat.mul_le_mul_left _ hδ2
  · -- the quotient needs more than p+1 bits: only 2^(p+1) / 1
    have t2 : (-e).toNat = 0 := by omega
    rw [t2] at n1 n2 ⊢
    simp only [Nat.pow_zero, Nat.mul_one] at n1 n2 ⊢
    have h2 : 2 ≤ 2 ^ e.toNat := by
      have := Nat.pow_le_pow_right (n := 2) (by omega) (show 1 ≤ e.toNat by omega)
      simpa using this
    have h3 : 2 ^ (p + 1) * y ≤ x := by
      calc 2 ^ (p + 1) * y = 2 ^ p * (y * 2) := by rw [Nat.pow_succ]; ac_rfl
        _ ≤ 2 ^ p * (y * 2 ^ e.toNat) := Nat.mul_le_mul_left _ (Nat.mul_le_mul_left _ h2)
        _ ≤ x := n1
    have h4 : 2 ^ (p + 1) * b ≤ a := by
      apply Nat.le_of_mul_le_mul_right (c := y) _ hy
      calc 2 ^ (p + 1) * b * y = 2 ^ (p + 1) * y * b := by ac_rfl
        _ ≤ x * b := Nat.mul_le_mul_right _ h3
        _ = a * y := hxy
    have hb1 : b = 1 := by
      have : 2 ^ (p + 1) * b ≤ 2 ^ (p + 1) * 1 := by omega
      have := Nat.le_of_mul_le_mul_left this (Nat.pow_pos (by omega))
      omega
    subst hb1
    simp only [Nat.mul_one] at *
    have hae : a = 2 ^ (p + 1) := by omega
    have hk : k + 1 = a := by omega
    -- x = a y, e.toNat = 1
    have he1 : 2 ^ e.toNat = 2 := by
      have : 2 ^ p * y * 2 ^ e.toNat ≤ 2 ^ p * y * 2 := by
        calc 2 ^ p * y * 2 ^ e.toNat = 2 ^ p * (y * 2 ^ e.toNat) := by rw [Nat.mul_assoc]
          _ ≤ x := n1
          _ = 2 ^ p * y * 2 := by rw [hxy, hae, Nat.pow_succ]; ac_rfl
      have := Nat.le_of_mul_le_mul_left this (Nat.mul_pos (Nat.pow_pos (by omega)) hy)
      omega
    rw [he1]
    have hx2 : x = 2 ^ p * (y * 2) := by rw [hxy, hae, Nat.pow_succ]; ac_rfl
    rw [hx2, rne_exact (by omega)]
    simp only [Nat.div_one, Nat.add_sub_cancel]
    rw [hk, hae, Nat.pow_succ]

end Gotit
