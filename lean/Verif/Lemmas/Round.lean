import Verif.Lemmas.Float
/-
  Rounding is monotone.
-/
namespace Gotit

theorem succ_le_rne {n d k : Nat} (hd : 0 < d) : k + 1 ≤ rne n d ↔ (2 * k + 1) * d < 2 * n ∨ ((2 * k + 1) * d = 2 * n ∧ k % 2 = 1) := by
  have hm := Nat.div_add_mod n d
  have hr := Nat.mod_lt n hd
  generalize hq : n / d = q at *
  generalize n % d = r at *
  subst hm
  unfold rne
  simp only [hq]
  have e2 : (2 * k + 1) * d = 2 * (d * k) + d := by rw [Nat.add_mul, Nat.one_mul, Nat.mul_assoc, Nat.mul_comm k d]
  have hmod : (d * q + r) % d = r := by rw [Nat.mul_add_mod, Nat.mod_eq_of_lt hr]
  rw [hmod, e2]
  rcases Nat.lt_trichotomy k q with h | h | h
  · obtain ⟨j, rfl⟩ : ∃ j, q = k + 1 + j := ⟨q - (k + 1), by omega⟩
    have : d * (k + 1 + j) = d * k + d + d * j := by rw [Nat.mul_add, Nat.mul_add, Nat.mul_one]
    constructor
    · intro _; left; omega
    · intro _; repeat' split
      all_goals omega
  · subst h
    repeat' split
    all_goals (constructor <;> intro hh <;> omega)
  · obtain ⟨j, rfl⟩ : ∃ j, k = q + 1 + j := ⟨k - (q + 1), by omega⟩
    have : d * (q + 1 + j) = d * q + d + d * j := by rw [Nat.mul_add, Nat.mul_add, Nat.mul_one]
    constructor
    · repeat' split
      all_goals (intro hh; omega)
    · intro hh; omega

theorem rne_mono {n d n' d' : Nat} (hd : 0 < d) (hd' : 0 < d') (h : n * d' ≤ n' * d) : rne n d ≤ rne n' d' := by
  cases hk : rne n d with
  | zero => omega
  | succ k =>
    have := (succ_le_rne (n := n) (k := k) hd).1 (by omega)
    rw [succ_le_rne hd']
    have key : (2 * k + 1) * d ≤ 2 * n → (2 * k + 1) * d' ≤ 2 * n' := by
      intro h1
      apply Nat.le_of_mul_le_mul_right (c := d) _ hd
      calc (2 * k + 1) * d' * d = (2 * k + 1) * d * d' := by ac_rfl
        _ ≤ 2 * n * d' := Nat.mul_le_mul_right _ h1
        _ = 2 * (n * d') := by rw [Nat.mul_assoc]
        _ ≤ 2 * (n' * d) := Nat.mul_le_mul_left _ h
        _ = 2 * n' * d := by rw [Nat.mul_assoc]
    rcases this with h1 | ⟨h1, h2⟩
    · rcases Nat.lt_or_eq_of_le (key (Nat.le_of_lt h1)) with h3 | h3
      · exact .inl h3
      · exfalso
        have : (2 * k + 1) * d' * d < 2 * n' * d := by
          calc (2 * k + 1) * d' * d = (2 * k + 1) * d * d' := by ac_rfl
            _ < 2 * n * d' := Nat.mul_lt_mul_of_pos_right h1 hd'
            _ = 2 * (n * d') := by rw [Nat.mul_assoc]
            _ ≤ 2 * (n' * d) := Nat.mul_le_mul_left _ h
            _ = 2 * n' * d := by rw [Nat.mul_assoc]
        rw [h3] at this
        omega
    · rcases Nat.lt_or_eq_of_le (key (Nat.le_of_eq h1)) with h3 | h3
      · exact .inl h3
      · exact .inr ⟨h3, h2⟩

/-- `x ≤ y`. -/
def Frac.le (x y : Frac) : Prop := x.num * y.den ≤ y.num * x.den

theorem roundBits_den (p n d : Nat) : 0 < (roundBits p n d).den := by
  unfold roundBits
  split
  · simp
  · exact Nat.pow_pos (by omega)

theorem roundBits_mono (p n d n' d' : Nat) (hd : 0 < d) (hd' : 0 < d') (h : n * d' ≤ n' * d) :
    (roundBits (p + 1) n d).le (roundBits (p + 1) n' d') := by
  rcases Nat.eq_zero_or_pos n with h0 | h0
  · subst h0; simp [roundBits, Frac.le]
  have h0' : 0 < n' := by
    rcases Nat.eq_zero_or_pos n' with h1 | h1
    · subst h1; have := Nat.mul_pos h0 hd'; omega
    · exact h1
  obtain ⟨a1, a2⟩ := normExp_spec p n d h0 hd
  obtain ⟨b1, b2⟩ := normExp_spec p n' d' h0' hd'
  unfold roundBits Frac.le
  rw [if_neg (by omega), if_neg (by omega)]
  generalize normExp (p + 1) n d = e at *
  generalize normExp (p + 1) n' d' = e' at *
  simp only
  obtain ⟨s, hs⟩ : ∃ s, (-e).toNat = s := ⟨_, rfl⟩
  obtain ⟨t, ht⟩ : ∃ t, e.toNat = t := ⟨_, rfl⟩
  obtain ⟨s', hs'⟩ : ∃ s, (-e').toNat = s := ⟨_, rfl⟩
  obtain ⟨t', ht'⟩ : ∃ t, e'.toNat = t := ⟨_, rfl⟩
  rw [hs, ht] at a1 a2 ⊢
  rw [hs', ht'] at b1 b2 ⊢
  have P : ∀ k, 0 < 2 ^ k := fun k => Nat.pow_pos (by omega)
  have hdt : 0 < d * 2 ^ t := Nat.mul_pos hd (P _)
  have hdt' : 0 < d' * 2 ^ t' := Nat.mul_pos hd' (P _)
  rcases Int.lt_trichotomy e e' with hlt | heq | hgt
  · have m1 : rne (n * 2 ^ s) (d * 2 ^ t) ≤ 2 ^ (p + 1) := rne_le hdt (Nat.le_of_lt a2)
    have m2 : 2 ^ p ≤ rne (n' * 2 ^ s') (d' * 2 ^ t') := le_rne hdt' b1
    have e1 : (p + 1) + t + s' ≤ p + t' + s := by omega
    calc rne (n * 2 ^ s) (d * 2 ^ t) * 2 ^ t * 2 ^ s' ≤ 2 ^ (p + 1) * 2 ^ t * 2 ^ s' :=
          Nat.mul_le_mul_right _ (Nat.mul_le_mul_right _ m1)
      _ = 2 ^ (p + 1 + t + s') := by rw [Nat.pow_add _ _ s', Nat.pow_add _ _ t]
      _ ≤ 2 ^ (p + t' + s) := Nat.pow_le_pow_right (by omega) e1
      _ = 2 ^ p * 2 ^ t' * 2 ^ s := by rw [Nat.pow_add, Nat.pow_add]
      _ ≤ _ := Nat.mul_le_mul_right _ (Nat.mul_le_mul_right _ m2)
  · subst heq
    have q1 : s' = s := by omega
    have q2 : t' = t := by omega
    subst q1; subst q2
    refine Nat.mul_le_mul_right _ (Nat.mul_le_mul_right _ (rne_mono hdt hdt' ?_))
    calc n * 2 ^ s' * (d' * 2 ^ t') = n * d' * (2 ^ s' * 2 ^ t') := by ac_rfl
      _ ≤ n' * d * (2 ^ s' * 2 ^ t') := Nat.mul_le_mul_right _ h
      _ = n' * 2 ^ s' * (d * 2 ^ t') := by ac_rfl
  · exfalso
    have : 2 ^ (p + t + s') * (d * d') < 2 ^ (p + 1 + t' + s) * (d * d') := by
      calc 2 ^ (p + t + s') * (d * d') = 2 ^ p * (d * 2 ^ t) * (d' * 2 ^ s') := by rw [Nat.pow_add, Nat.pow_add]; ac_rfl
        _ ≤ n * 2 ^ s * (d' * 2 ^ s') := Nat.mul_le_mul_right _ a1
        _ = n * d' * (2 ^ s * 2 ^ s') := by ac_rfl
        _ ≤ n' * d * (2 ^ s * 2 ^ s') := Nat.mul_le_mul_right _ h
        _ = n' * 2 ^ s' * (d * 2 ^ s) := by ac_rfl
        _ < 2 ^ (p + 1) * (d' * 2 ^ t') * (d * 2 ^ s) := Nat.mul_lt_mul_of_pos_right b2 (Nat.mul_pos hd (P _))
        _ = 2 ^ (p + 1 + t' + s) * (d * d') := by rw [Nat.pow_add _ _ s, Nat.pow_add _ _ t']; ac_rfl
    have := Nat.lt_of_mul_lt_mul_right this
    have := (Nat.pow_lt_pow_iff_right (a := 2) (by omega)).1 this
    omega

theorem Frac.le_trans {x y z : Frac} (hy : 0 < y.den) (h1 : x.le y) (h2 : y.le z) : x.le z := by
  unfold Frac.le at *
  apply Nat.le_of_mul_le_mul_right (c := y.den) _ hy
  calc x.num * z.den * y.den = x.num * y.den * z.den := by ac_rfl
    _ ≤ y.num * x.den * z.den := Nat.mul_le_mul_right _ h1
    _ = y.num * z.den * x.den := by ac_rfl
    _ ≤ z.num * y.den * x.den := Nat.mul_le_mul_right _ h2
    _ = z.num * x.den * y.den := by ac_rfl

theorem toFloat_mono (p n n' : Nat) (h : n ≤ n') : (toFloat (p + 1) n).le (toFloat (p + 1) n') :=
  roundBits_mono p n 1 n' 1 (by omega) (by omega) (by omega)

theorem toFloat_num_pos (p n : Nat) (h : 0 < n) : 0 < (toFloat (p + 1) n).num := by
  have h1 := toFloat_mono p 1 n h
  obtain ⟨e1, e2⟩ := toFloat_exact p 1 (Nat.pow_pos (by omega))
  have hd := roundBits_den (p + 1) n 1
  unfold Frac.le at h1
  rw [e1, Nat.one_mul] at h1
  have := Nat.mul_pos e2 (show 0 < (toFloat (p + 1) n).den from hd)
  have h3 : 0 < (toFloat (p + 1) n).num * (toFloat (p + 1) 1).den := Nat.lt_of_lt_of_le this h1
  exact Nat.pos_of_mul_pos_right h3 

theorem fdiv_mono (p : Nat) {x x' y y' : Frac} (hx : 0 < x.den) (hx' : 0 < x'.den) (hy : 0 < y.num) (hy' : 0 < y'.num)
    (h1 : x.le x') (h2 : y'.le y) : (fdiv (p + 1) x y).le (fdiv (p + 1) x' y') := by
  apply roundBits_mono p _ _ _ _ (Nat.mul_pos hx hy) (Nat.mul_pos hx' hy')
  unfold Frac.le at *
  calc x.num * y.den * (x'.den * y'.num) = (x.num * x'.den) * (y'.num * y.den) := by ac_rfl
    _ ≤ (x'.num * x.den) * (y.num * y'.den) := Nat.mul_le_mul h1 h2
    _ = x'.num * y'.den * (x.den * y.num) := by ac_rfl

theorem fmul_mono (p : Nat) {x x' y y' : Frac} (hx : 0 < x.den) (hx' : 0 < x'.den) (hy : 0 < y.den) (hy' : 0 < y'.den)
    (h1 : x.le x') (h2 : y.le y') : (fmul (p + 1) x y).le (fmul (p + 1) x' y') := by
  apply roundBits_mono p _ _ _ _ (Nat.mul_pos hx hy) (Nat.mul_pos hx' hy')
  unfold Frac.le at *
  calc x.num * y.num * (x'.den * y'.den) = (x.num * x'.den) * (y.num * y'.den) := by ac_rfl
    _ ≤ (x'.num * x.den) * (y'.num * y.den) := Nat.mul_le_mul h1 h2
    _ = x'.num * y'.num * (x.den * y.den) := by ac_rfl

theorem floor_mono {x y : Frac} (hx : 0 < x.den) (hy : 0 < y.den) (h : x.le y) : x.floor ≤ y.floor := by
  unfold Frac.floor Frac.le at *
  rw [Nat.le_div_iff_mul_le hy]
  apply Nat.le_of_mul_le_mul_right (c := x.den) _ hx
  calc x.num / x.den * y.den * x.den = (x.num / x.den * x.den) * y.den := by ac_rfl
    _ ≤ x.num * y.den := Nat.mul_le_mul_right _ (Nat.div_mul_le_self _ _)
    _ ≤ _ := h

theorem round_mono {x y : Frac} (hx : 0 < x.den) (hy : 0 < y.den) (h : x.le y) : x.round ≤ y.round := by
  have := floor_mono (x := ⟨2 * x.num + x.den, 2 * x.den⟩) (y := ⟨2 * y.num + y.den, 2 * y.den⟩) (by simp; omega) (by simp; omega) (by
    unfold Frac.le at *
    simp only
    rw [Nat.add_mul, Nat.add_mul]
    have e1 : 2 * x.num * (2 * y.den) = 4 * (x.num * y.den) := by
      rw [Nat.mul_mul_mul_comm]
    have e2 : 2 * y.num * (2 * x.den) = 4 * (y.num * x.den) := by
      rw [Nat.mul_mul_mul_comm]
    have e3 : x.den * (2 * y.den) = 2 * (x.den * y.den) := by rw [Nat.mul_left_comm]
    have e4 : y.den * (2 * x.den) = 2 * (x.den * y.den) := by rw [Nat.mul_left_comm, Nat.mul_comm y.den]
    omega)
  exact this

/-- Equal numbers round to the same number. -/
theorem roundBits_exact (p n d k : Nat) (hd : 0 < d) (hk : k ≤ 2 ^ (p + 1)) (h : n = k * d) :
    (roundBits (p + 1) n d).num = k * (roundBits (p + 1) n d).den := by
  have h1 := roundBits_mono p n d k 1 hd (by omega) (by omega)
  have h2 := roundBits_mono p k 1 n d (by omega) hd (by omega)
  obtain ⟨e1, e2⟩ := toFloat_exact p k hk
  unfold toFloat at e1 e2
  unfold Frac.le at h1 h2
  rw [e1] at h1 h2
  apply Nat.le_antisymm
  · apply Nat.le_of_mul_le_mul_right (c := (roundBits (p + 1) k 1).den) _ e2
    calc _ ≤ _ := h1
      _ = _ := by ac_rfl
  · apply Nat.le_of_mul_le_mul_right (c := (roundBits (p + 1) k 1).den) _ e2
    calc _ = _ := by ac_rfl
      _ ≤ _ := h2

end Gotit
