import Verif.Spec.StatusLine
import Verif.Lemmas.Near
import Verif.Lemmas.Num
/-
  C101: sizes. C102: the speed.
-/
namespace Gotit.Props
open Gotit Spec

theorem natDigits_digit (n : Nat) (h : n < 10) : natDigits n = [UInt8.ofNat (48 + n)] := by rw [natDigits, if_pos h]

theorem natDigits_ne_nil (n : Nat) : natDigits n ≠ [] := by
  rw [natDigits]; split <;> simp

/-- What `formatTenths` prints reads as the rounded number of tenths. -/
theorem formatTenths_reads (x : Frac) : TenthsText (formatTenths x) (rne (10 * x.num) x.den) := by
  unfold formatTenths
  generalize rne (10 * x.num) x.den = m
  simp only
  have h := natDigits_spec (m / 10)
  have h2 := natDigits_spec (m % 10)
  have hd := natDigits_digit (m % 10) (Nat.mod_lt _ (by omega))
  rw [hd] at h2 ⊢
  have : TenthsText (natDigits (m / 10) ++ [46, UInt8.ofNat (48 + m % 10)])
      (10 * decimal (natDigits (m / 10)) + decimal [UInt8.ofNat (48 + m % 10)]) := .tenth _ _ h.1 (natDigits_ne_nil _) h2.1
  rw [h.2, h2.2, Nat.div_add_mod] at this
  exact this

theorem trimmed_reads (x : Frac) : TenthsText (trimSuffix (formatTenths x) [46, 48]) (rne (10 * x.num) x.den) := by
  have h0 := formatTenths_reads x
  unfold formatTenths at h0 ⊢
  generalize rne (10 * x.num) x.den = m at *
  simp only at h0 ⊢
  have h := natDigits_spec (m / 10)
  have h2 := natDigits_spec (m % 10)
  have hlt : m % 10 < 10 := Nat.mod_lt _ (by omega)
  have hd := natDigits_digit (m % 10) hlt
  rw [hd] at h2 h0 ⊢
  unfold trimSuffix
  by_cases hz : m % 10 = 0
  · rw [hz]
    rw [if_pos (by
      rw [List.isSuffixOf_iff_suffix]
      exact ⟨natDigits (m / 10), rfl⟩)]
    have e : (natDigits (m / 10) ++ [46, UInt8.ofNat (48 + 0)]).length - [46, (48 : UInt8)].length = (natDigits (m / 10)).length := by simp
    rw [e, List.take_left]
    have : TenthsText (natDigits (m / 10)) (10 * decimal (natDigits (m / 10))) := .whole _ h.1 (natDigits_ne_nil _)
    rw [h.2] at this
    rwa [show m = 10 * (m / 10) by omega, Nat.mul_div_cancel_left _ (by omega)]
  · rw [if_neg (by
      rw [List.isSuffixOf_iff_suffix]
      rintro ⟨t, ht⟩
      have := congrArg List.getLast? ht
      simp at this
      have := congrArg UInt8.toNat this
      simp at this
      omega)]
    exact h0

/-- The unit chosen. -/
theorem byteUnit_spec (n : Nat) : (((byteUnit n).2, (byteUnit n).1) ∈ unitPower) ∧ (2 ^ (byteUnit n).1 ≤ n ∨ (byteUnit n).1 = 0) ∧
    (∀ l k', (l, k') ∈ unitPower → 2 ^ k' ≤ n → k' ≤ (byteUnit n).1) ∧ (n < 2 ^ 64 → n < 2 ^ ((byteUnit n).1 + 10)) := by
  unfold byteUnit
  repeat' split
  all_goals
    refine ⟨by simp [unitPower], by first | (simp; done) | (simp only; omega), ?_, by simp only; omega⟩
    intro l k' hm hk
    simp only [unitPower, List.mem_cons, Prod.mk.injEq, List.not_mem_nil, or_false] at hm
    rcases hm with ⟨_, rfl⟩ | ⟨_, rfl⟩ | ⟨_, rfl⟩ | ⟨_, rfl⟩ | ⟨_, rfl⟩ | ⟨_, rfl⟩ | ⟨_, rfl⟩ <;> simp only at hk ⊢ <;> omega

theorem says_of_near {slack n m k : Nat} {s : Bytes} (hs : SizeText s m k) (hk : k = (byteUnit n).1)
    (h1 : 1000 * (m * 2 ^ k) ≤ 1000 * (10 * n) + (500 + slack) * 2 ^ k) (h2 : 1000 * (10 * n) ≤ 1000 * (m * 2 ^ k) + (500 + slack) * 2 ^ k) :
    SaysSize slack n s := by
  subst hk
  obtain ⟨_, a2, a3, _⟩ := byteUnit_spec n
  exact ⟨m, _, hs, h1, h2, a2, a3⟩

theorem zero_says (slack : Nat) : SaysSize slack 0 [48, 66] :=
  ⟨0, 0, ⟨[48], 66, rfl, .whole [48] (by intro d hd; simp at hd; subst hd; decide) (by simp), by simp [unitPower]⟩, by simp, by simp, .inr rfl, by
    intro l k' hm hk
    have := Nat.pow_pos (n := k') (show 0 < 2 by omega)
    omega⟩

theorem byteSize_reads (n : Nat) (h : n ≠ 0) :
    SizeText (byteSize n) (rne (10 * (fdiv 53 (toFloat 53 n) ⟨2 ^ (byteUnit n).1, 1⟩).num) (fdiv 53 (toFloat 53 n) ⟨2 ^ (byteUnit n).1, 1⟩).den)
      (byteUnit n).1 := by
  unfold byteSize
  rw [if_neg h]
  exact ⟨_, _, rfl, trimmed_reads _, (byteUnit_spec n).1⟩

/-- C101: every number of bytes is shown to the nearest tenth of its unit; the error is at most one part in a thousand of a tenth larger
(because of numbers beyond 2^53, which float64 cannot represent exactly). -/
theorem C101_sizes (n : Nat) (hn : n < 2 ^ 64) : SaysSize 1 n (byteSize n) := by
  by_cases h0 : n = 0
  · subst h0; exact zero_says 1
  have hw : Within 2 (fdiv 53 (toFloat 53 n) ⟨2 ^ (byteUnit n).1, 1⟩) ⟨n * 1, 1 * 2 ^ (byteUnit n).1⟩ :=
    fdiv_within (roundBits_den _ _ _) (Nat.pow_pos (by omega)) (toFloat_within n) (Within.refl _)
  have hr := hw.ratio (R := 2 ^ 50) (by decide)
  have hd : 0 < (fdiv 53 (toFloat 53 n) ⟨2 ^ (byteUnit n).1, 1⟩).den := roundBits_den _ _ _
  have ht := tenths_near hd hr
  have hu := (byteUnit_spec n).2.2.2 hn
  refine says_of_near (byteSize_reads n h0) rfl ?_ ?_
  all_goals
    generalize rne (10 * (fdiv 53 (toFloat 53 n) ⟨2 ^ (byteUnit n).1, 1⟩).num) (fdiv 53 (toFloat 53 n) ⟨2 ^ (byteUnit n).1, 1⟩).den = m at *
    rw [Nat.pow_add] at hu
    generalize 2 ^ (byteUnit n).1 = K at *
    simp only [Nat.mul_one, Nat.one_mul] at ht
    generalize m * K = M at *
    simp only [Nat.reduceAdd, Nat.reducePow] at ht hu ⊢
    omega

/-- C101: exactly to the nearest tenth below 2^53 bytes (8192 TB). -/
theorem C101_exact (n : Nat) (hn : n < 2 ^ 53) : SaysSize 0 n (byteSize n) := by
  by_cases h0 : n = 0
  · subst h0; exact zero_says 0
  have hx := toFloat_exact 52 n (Nat.le_of_lt hn)
  have he : (fdiv 53 (toFloat 53 n) ⟨2 ^ (byteUnit n).1, 1⟩).num * 2 ^ (byteUnit n).1 =
      n * (fdiv 53 (toFloat 53 n) ⟨2 ^ (byteUnit n).1, 1⟩).den := by
    refine roundBits_dyadic 52 _ _ n _ (Nat.mul_pos hx.2 (Nat.pow_pos (by omega))) hn ?_
    simp only [Nat.mul_one]
    rw [hx.1]; ac_rfl
  have hd : 0 < (fdiv 53 (toFloat 53 n) ⟨2 ^ (byteUnit n).1, 1⟩).den := roundBits_den _ _ _
  obtain ⟨r1, r2⟩ := rne_near (10 * (fdiv 53 (toFloat 53 n) ⟨2 ^ (byteUnit n).1, 1⟩).num) _ hd
  refine says_of_near (byteSize_reads n h0) rfl ?_ ?_
  all_goals
    generalize rne (10 * (fdiv 53 (toFloat 53 n) ⟨2 ^ (byteUnit n).1, 1⟩).num) (fdiv 53 (toFloat 53 n) ⟨2 ^ (byteUnit n).1, 1⟩).den = m at *
    generalize 2 ^ (byteUnit n).1 = K at *
    generalize (fdiv 53 (toFloat 53 n) ⟨K, 1⟩).num = a at *
    generalize (fdiv 53 (toFloat 53 n) ⟨K, 1⟩).den = b at *
    apply Nat.le_of_mul_le_mul_right (c := b) _ hd
  · calc 1000 * (m * K) * b = 500 * (2 * (m * b) * K) := by rw [show (1000 : Nat) = 500 * 2 from rfl]; ac_rfl
      _ ≤ 500 * ((2 * (10 * a) + b) * K) := Nat.mul_le_mul_left _ (Nat.mul_le_mul_right _ r1)
      _ = 500 * (20 * (a * K) + b * K) := by rw [Nat.add_mul, show 2 * (10 * a) = 20 * a by omega, Nat.mul_assoc 20]
      _ = _ := by rw [he, Nat.add_mul, Nat.mul_add]; simp only [Nat.mul_assoc, Nat.mul_comm K b, Nat.add_zero]; omega
  · calc 1000 * (10 * n) * b = 500 * (20 * (a * K)) := by rw [he]; simp only [Nat.mul_assoc]; omega
      _ = 500 * (2 * (10 * a) * K) := by rw [show 2 * (10 * a) = 20 * a by omega, Nat.mul_assoc 20]
      _ ≤ 500 * ((2 * (m * b) + b) * K) := Nat.mul_le_mul_left _ (Nat.mul_le_mul_right _ r2)
      _ = _ := by
        rw [Nat.add_mul, Nat.mul_add, Nat.add_mul]
        simp only [Nat.mul_assoc, Nat.mul_comm K b, Nat.add_zero]; omega

/-- The duration in seconds. -/
theorem durationSeconds_within (ns : Nat) : Within 3 (durationSeconds ns) ⟨ns, 10 ^ 9⟩ := by
  have h1 : Within 2 (toFloat 53 (ns / 1000000000)) ⟨ns / 1000000000, 1⟩ := (toFloat_within _).mono (by omega)
  have h2 : Within 2 (fdiv 53 (toFloat 53 (ns % 1000000000)) ⟨1000000000, 1⟩) ⟨ns % 1000000000 * 1, 1 * 1000000000⟩ :=
    fdiv_within (roundBits_den _ _ _) (by simp) (toFloat_within _) (Within.refl _)
  have h3 := fadd_within (roundBits_den _ _ _) (roundBits_den _ _ _) h1 h2
  have e : (⟨ns / 1000000000 * (1 * 1000000000) + ns % 1000000000 * 1 * 1, 1 * (1 * 1000000000)⟩ : Frac) = ⟨ns, 10 ^ 9⟩ := by
    have : ns / 1000000000 * (1 * 1000000000) + ns % 1000000000 * 1 * 1 = ns := by omega
    rw [this]
  rw [← e]
  exact h3

theorem speed_within (download ns : Nat) (hns : 0 < ns) : Within 6 (speed download ns) ⟨download * 10 ^ 9, ns * 2 ^ 20⟩ := by
  have hd : 0 < (durationSeconds ns).den := roundBits_den _ _ _
  have h1 := durationSeconds_within ns
  have h2 := fdiv_within (roundBits_den _ _ _) (h1.pos hns hd) (toFloat_within download) h1
  have h3 := fdiv_within (y := ⟨2 ^ 20, 1⟩) (y' := ⟨2 ^ 20, 1⟩) (k := 0) (roundBits_den _ _ _) (by simp) h2 (Within.refl _)
  have e : (⟨download * 10 ^ 9 * 1, 1 * ns * 2 ^ 20⟩ : Frac) = ⟨download * 10 ^ 9, ns * 2 ^ 20⟩ := by
    rw [Nat.mul_one, Nat.one_mul]
  rw [← e]
  exact h3

/-- C102: the speed shown is the average since the start, to the nearest tenth. -/
theorem C102_speed (download ns : Nat) (hns : 0 < ns) : SaysSpeed download ns (speedText download ns) := by
  have hr := (speed_within download ns hns).ratio (R := 2 ^ 49) (by decide)
  have hd : 0 < (speed download ns).den := roundBits_den _ _ _
  have ht := tenths_near hd hr
  unfold speedText
  rw [if_neg (by omega)]
  exact ⟨_, formatTenths_reads _, ht.1, ht.2⟩

/-- C102 in the very moment of the start: no number is shown, but `NaN` if nothing was downloaded and `+Inf` otherwise. -/
theorem C102_start (download : Nat) : (¬ ∃ m, TenthsText (speedText download 0) m) ∧
    (download = 0 ↔ speedText download 0 = ascii "NaN") ∧ (0 < download ↔ speedText download 0 = ascii "+Inf") := by
  have no : ∀ s : Bytes, (∃ c ∈ s, ¬ IsDigits [c] ∧ c ≠ 46) → ¬ ∃ m, TenthsText s m := by
    rintro s ⟨c, hc, h1, h2⟩ ⟨m, ht⟩
    have hd : ∀ ds : Bytes, IsDigits ds → c ∈ ds → False := fun ds hds hm => h1 (by intro x hx; rw [List.mem_singleton] at hx; subst hx; exact hds x hm)
    cases ht with
    | whole _ h _ => exact hd _ h hc
    | tenth ds d h _ h3 =>
      rcases List.mem_append.1 hc with hc | hc
      · exact hd _ h hc
      · rcases List.mem_cons.1 hc with hc | hc
        · exact h2 hc
        · exact hd _ h3 hc
  have e : ascii "NaN" ≠ ascii "+Inf" := by decide
  unfold speedText
  rw [if_pos rfl]
  by_cases h : download = 0
  · rw [if_pos h]
    exact ⟨no _ ⟨78, by decide, by unfold IsDigits; decide, by decide⟩, by simp [h], by simp [h, e]⟩
  · rw [if_neg h]
    exact ⟨no _ ⟨73, by decide, by unfold IsDigits; decide, by decide⟩, by simp [h, e.symm], by simp; omega⟩

/-! ### C101: a text is read in one way, and larger numbers are not shown as smaller ones -/

theorem tenths_unique {s : Bytes} {a b : Nat} (h1 : TenthsText s a) (h2 : TenthsText s b) : a = b := by
  have bad : ∀ (ds : Bytes) (d : UInt8), ¬ IsDigits (ds ++ [46, d]) := by
    intro ds d h
    have := h 46 (by simp)
    exact absurd this (by decide)
  rcases h1 with ⟨ds, hd, hn⟩ | ⟨ds, d, hd, hn, h1⟩
  · generalize hs : s = t at h2
    rcases h2 with ⟨ds', _, _⟩ | ⟨ds', d', _, _, _⟩
    · rfl
    · subst hs; exact absurd hd (bad _ _)
  · generalize hs : ds ++ [46, d] = t at h2
    rcases h2 with ⟨ds', hd', _⟩ | ⟨ds', d', _, _, _⟩
    · subst hs; exact absurd hd' (bad _ _)
    · obtain ⟨rfl, h⟩ := List.append_inj' hs rfl
      simp at h
      subst h
      rfl

theorem size_unique {s : Bytes} {a b j k : Nat} (h1 : SizeText s a j) (h2 : SizeText s b k) : a = b ∧ j = k := by
  obtain ⟨n1, l1, rfl, t1, u1⟩ := h1
  obtain ⟨n2, l2, e, t2, u2⟩ := h2
  have := List.append_inj' e rfl
  obtain ⟨rfl, h⟩ := this
  simp at h
  subst h
  refine ⟨tenths_unique t1 t2, ?_⟩
  simp only [unitPower, List.mem_cons, Prod.mk.injEq, List.not_mem_nil, or_false] at u1 u2
  rcases u1 with ⟨rfl, rfl⟩ | ⟨rfl, rfl⟩ | ⟨rfl, rfl⟩ | ⟨rfl, rfl⟩ | ⟨rfl, rfl⟩ | ⟨rfl, rfl⟩ | ⟨rfl, rfl⟩ <;>
    rcases u2 with ⟨h, rfl⟩ | ⟨h, rfl⟩ | ⟨h, rfl⟩ | ⟨h, rfl⟩ | ⟨h, rfl⟩ | ⟨h, rfl⟩ | ⟨h, rfl⟩ <;>
      first | rfl | exact absurd h (by decide)

theorem byteUnit_mono {n n' : Nat} (h : n ≤ n') : (byteUnit n).1 ≤ (byteUnit n').1 := by
  obtain ⟨a1, a2, _, _⟩ := byteUnit_spec n
  obtain ⟨_, _, b3, _⟩ := byteUnit_spec n'
  rcases a2 with a2 | a2
  · exact b3 _ _ a1 (by omega)
  · omega

theorem units_apart {l l' : UInt8} {k k' : Nat} (h : (l, k) ∈ unitPower) (h' : (l', k') ∈ unitPower) (hlt : k < k') : k + 10 ≤ k' := by
  simp only [unitPower, List.mem_cons, Prod.mk.injEq, List.not_mem_nil, or_false] at h h'
  omega

/-- Whole units are exact. -/
theorem unit_exact {l : UInt8} {k : Nat} (h : (l, k) ∈ unitPower) :
    (fdiv 53 (toFloat 53 (2 ^ k)) ⟨2 ^ k, 1⟩).num = (fdiv 53 (toFloat 53 (2 ^ k)) ⟨2 ^ k, 1⟩).den ∧
    (fdiv 53 (toFloat 53 (2 ^ (k + 10))) ⟨2 ^ k, 1⟩).num = 1024 * (fdiv 53 (toFloat 53 (2 ^ (k + 10))) ⟨2 ^ k, 1⟩).den := by
  simp only [unitPower, List.mem_cons, Prod.mk.injEq, List.not_mem_nil, or_false] at h
  rcases h with ⟨_, rfl⟩ | ⟨_, rfl⟩ | ⟨_, rfl⟩ | ⟨_, rfl⟩ | ⟨_, rfl⟩ | ⟨_, rfl⟩ | ⟨_, rfl⟩ <;> decide +kernel

/-- C101: if `n ≤ n'`, what is shown for `n` is not more than what is shown for `n'`. -/
theorem C101_mono {n n' m k m' k' : Nat} (hn : n' < 2 ^ 64) (h : n ≤ n') (h1 : SizeText (byteSize n) m k) (h2 : SizeText (byteSize n') m' k') :
    m * 2 ^ k ≤ m' * 2 ^ k' := by
  have P : ∀ k, 0 < 2 ^ k := fun k => Nat.pow_pos (by omega)
  by_cases h0 : n = 0
  · subst h0
    obtain ⟨a, j, hs, b1, _⟩ := C101_sizes 0 (by omega)
    obtain ⟨rfl, rfl⟩ := size_unique h1 hs
    have : m = 0 := by
      rcases Nat.eq_zero_or_pos m with h | h
      · exact h
      · have := Nat.mul_le_mul_right (2 ^ k) (show 1 ≤ m from h)
        have := P k
        omega
    subst this
    simp
  have h0' : n' ≠ 0 := by omega
  obtain ⟨rfl, rfl⟩ := size_unique h1 (byteSize_reads n h0)
  obtain ⟨rfl, rfl⟩ := size_unique h2 (byteSize_reads n' h0')
  have hu := byteUnit_mono h
  rcases Nat.lt_or_eq_of_le hu with hlt | heq
  · -- different units
    obtain ⟨a1, _, _, a4⟩ := byteUnit_spec n
    obtain ⟨b1, b2, _, _⟩ := byteUnit_spec n'
    have a4 := a4 (by omega)
    have b2 : 2 ^ (byteUnit n').1 ≤ n' := by omega
    have hk : (byteUnit n).1 + 10 ≤ (byteUnit n').1 := units_apart a1 b1 hlt
    generalize (byteUnit n).1 = k at *
    generalize (byteUnit n').1 = k' at *
    have u1 := (unit_exact a1).2
    have u2 := (unit_exact b1).1
    have m1 := fdiv_mono 52 (x := toFloat 53 n) (x' := toFloat 53 (2 ^ (k + 10))) (y := ⟨2 ^ k, 1⟩) (y' := ⟨2 ^ k, 1⟩)
      (roundBits_den _ _ _) (roundBits_den _ _ _) (P _) (P _) (toFloat_mono 52 _ _ (Nat.le_of_lt a4)) (Nat.le_refl _)
    have m2 := fdiv_mono 52 (x := toFloat 53 (2 ^ k')) (x' := toFloat 53 n') (y := ⟨2 ^ k', 1⟩) (y' := ⟨2 ^ k', 1⟩)
      (roundBits_den _ _ _) (roundBits_den _ _ _) (P _) (P _) (toFloat_mono 52 _ _ b2) (Nat.le_refl _)
    have d1 : 0 < (fdiv 53 (toFloat 53 (2 ^ (k + 10))) ⟨2 ^ k, 1⟩).den := roundBits_den _ _ _
    have d2 : 0 < (fdiv 53 (toFloat 53 (2 ^ k')) ⟨2 ^ k', 1⟩).den := roundBits_den _ _ _
    have d3 : 0 < (fdiv 53 (toFloat 53 n) ⟨2 ^ k, 1⟩).den := roundBits_den _ _ _
    have d4 : 0 < (fdiv 53 (toFloat 53 n') ⟨2 ^ k', 1⟩).den := roundBits_den _ _ _
    unfold Frac.le at m1 m2
    rw [u1] at m1
    rw [u2] at m2
    generalize (fdiv 53 (toFloat 53 (2 ^ (k + 10))) ⟨2 ^ k, 1⟩).den = c1 at *
    generalize (fdiv 53 (toFloat 53 (2 ^ k')) ⟨2 ^ k', 1⟩).den = c2 at *
    have e1 : (fdiv 53 (toFloat 53 n) ⟨2 ^ k, 1⟩).num ≤ 1024 * (fdiv 53 (toFloat 53 n) ⟨2 ^ k, 1⟩).den := by
      apply Nat.le_of_mul_le_mul_right (c := c1) _ d1
      calc _ ≤ _ := m1
        _ = _ := by ac_rfl
    have e2 : (fdiv 53 (toFloat 53 n') ⟨2 ^ k', 1⟩).den ≤ (fdiv 53 (toFloat 53 n') ⟨2 ^ k', 1⟩).num := by
      apply Nat.le_of_mul_le_mul_right (c := c2) _ d2
      calc _ = _ := Nat.mul_comm _ _
        _ ≤ _ := m2
    have f1 := rne_le (n := 10 * (fdiv 53 (toFloat 53 n) ⟨2 ^ k, 1⟩).num) (k := 10240) d3 (by omega)
    have f2 := le_rne (n := 10 * (fdiv 53 (toFloat 53 n') ⟨2 ^ k', 1⟩).num) (k := 10) d4 (by omega)
    calc _ ≤ 10240 * 2 ^ k := Nat.mul_le_mul_right _ f1
      _ = 10 * 2 ^ (k + 10) := by rw [Nat.pow_add]; omega
      _ ≤ 10 * 2 ^ k' := Nat.mul_le_mul_left _ (Nat.pow_le_pow_right (by omega) hk)
      _ ≤ _ := Nat.mul_le_mul_right _ f2
  · -- the same unit
    rw [heq]
    apply Nat.mul_le_mul_right
    apply rne_mono (roundBits_den _ _ _) (roundBits_den _ _ _)
    have hm := fdiv_mono 52 (x := toFloat 53 n) (x' := toFloat 53 n') (y := ⟨2 ^ (byteUnit n').1, 1⟩) (y' := ⟨2 ^ (byteUnit n').1, 1⟩)
      (roundBits_den _ _ _) (roundBits_den _ _ _) (P _) (P _) (toFloat_mono 52 n n' h) (Nat.le_refl _)
    unfold Frac.le at hm
    rw [Nat.mul_assoc, Nat.mul_assoc]
    exact Nat.mul_le_mul_left _ hm

/-- Sizes as they are shown: the second is a byte short of a megabyte, the fourth 8.25 P and one byte, which float64 rounds down to 8.25 P. -/
example : [0, 1048575, 1536, 9288674231451649, 18446744073709551615].map byteSize =
    [ascii "0B", ascii "1024K", ascii "1.5K", ascii "8.2P", ascii "16E"] := by decide +kernel

/-- 5 MB in two seconds. -/
example : speedText (5 * 2 ^ 20) 2000000000 = ascii "2.5" := by decide +kernel

/-! ### C103: the line -/

/-- The number of trackers in the counters is never changed. -/
theorem inProgram_trackers {size : Nat} {τ : StatSys} (h : StatSys.InProgram size τ) :
    τ.stats.trackerNum = 0 ∧ ∀ p ∈ τ.pending, ∀ a ∈ p, a.1 ≠ .trackerNum := by
  induction h with
  | init => exact ⟨rfl, by simp⟩
  | call op _ ho ih =>
    refine ⟨ih.1, ?_⟩
    intro p hp
    rcases List.mem_append.1 hp with hp | hp
    · exact ih.2 p hp
    · simp only [List.mem_singleton] at hp
      subst hp
      cases op <;> simp [StatOp.called, StatOp.atoms] at ho ⊢
  | @atom σ a r d rest b _ he ih =>
    have hr : r ≠ .trackerNum := ih.2 ((r, d) :: rest) (by rw [he]; simp) (r, d) (by simp)
    refine ⟨?_, ?_⟩
    · cases r <;> simp_all [Stats.add]
    · intro p hp
      rcases List.mem_append.1 hp with hp | hp
      · exact ih.2 p (by rw [he]; simp [hp])
      · rcases List.mem_cons.1 hp with rfl | hp
        · intro x hx; exact ih.2 ((r, d) :: p) (by rw [he]; simp) x (by simp [hx])
        · exact ih.2 p (by rw [he]; simp [hp])

theorem inProgram_words {size : Nat} (hs : size < 2 ^ 64) {τ : StatSys} (h : StatSys.InProgram size τ) :
    τ.stats.download < 2 ^ 64 ∧ τ.stats.left < 2 ^ 64 := by
  induction h with
  | init => exact ⟨by simp [newStats], hs⟩
  | call op _ _ ih => exact ih
  | @atom σ a r d rest b _ he ih => cases r <;> simp only [Stats.add] <;> constructor <;> first | exact ih.1 | exact ih.2 | exact Nat.mod_lt _ (by decide)

theorem saysTrackers_unique {line : Bytes} {a b : Nat} (h1 : SaysTrackers a line) (h2 : SaysTrackers b line) : a = b := by
  obtain ⟨p1, d1, e1, i1, n1, rfl⟩ := h1
  obtain ⟨p2, d2, e2, i2, n2, rfl⟩ := h2
  have e : p1 ++ ascii "trackers (" ++ d1 ++ ascii ")\n" = p2 ++ ascii "trackers (" ++ d2 ++ ascii ")\n" := e1.symm.trans e2
  have e := (List.append_inj' e rfl).1
  -- digits at the end, then '('
  have key : ∀ (x y : Bytes) (u v : Bytes), IsDigits u → IsDigits v → x ++ [40] ++ u = y ++ [40] ++ v → u = v := by
    intro x y u v hu hv h
    have hrev := congrArg List.reverse h
    simp only [List.reverse_append, List.reverse_cons, List.reverse_nil, List.nil_append] at hrev
    have tw : ∀ (w z : Bytes), IsDigits w → (w.reverse ++ ([40] ++ z)).takeWhile (fun c => c ≠ 40) = w.reverse := by
      intro w z hw
      rw [List.takeWhile_append_of_pos]
      · simp
      · intro c hc
        have := hw c (by simpa using hc)
        simp only [decide_eq_true_eq, ne_eq, decide_not, Bool.not_eq_true', decide_eq_false_iff_not]
        intro h40; subst h40; exact absurd this (by decide)
    have := congrArg (List.takeWhile (fun c => c ≠ 40)) hrev
    rw [tw _ _ hu, tw _ _ hv] at this
    exact List.reverse_inj.1 this
  have sp : ascii "trackers (" = ascii "trackers " ++ [40] := by decide
  rw [sp, ← List.append_assoc, ← List.append_assoc] at e
  rw [key _ _ _ _ i1 i2 e]

/-- C103, what holds of the line: it has the documented fields, the sizes and the speed are right, the number of peers is that of the
counter, and the number of trackers is always shown as 0. -/
theorem C103_line_partial {size : Nat} {τ : StatSys} (h : StatSys.InProgram size τ) (ns : Nat) (hns : 0 < ns)
    (hs : size < 2 ^ 64) :
    ∃ a b c d e, statusLine τ.stats ns = statusFields a b c d e ∧ SaysSize 1 τ.stats.download a ∧ SaysSize 1 τ.stats.left b ∧
      SaysSpeed τ.stats.download ns c ∧ IsDigits d ∧ decimal d = τ.stats.peerNum ∧ e = [48] :=
  ⟨_, _, _, _, _, rfl, C101_sizes _ (inProgram_words hs h).1, C101_sizes _ (inProgram_words hs h).2, C102_speed _ _ hns, (natDigits_spec _).1, (natDigits_spec _).2, by
    rw [(inProgram_trackers h).1]; exact natDigits_digit 0 (by omega)⟩

theorem says_zero {size : Nat} {τ : StatSys} (h : StatSys.InProgram size τ) (ns : Nat) : SaysTrackers 0 (statusLine τ.stats ns) := by
  refine ⟨ascii " downloaded (" ++ byteSize τ.stats.download ++ ascii "), left (" ++ byteSize τ.stats.left ++ ascii "), speed (" ++
    speedText τ.stats.download ns ++ ascii " MB/s), peers (" ++ natDigits τ.stats.peerNum ++ ascii "), ", natDigits τ.stats.trackerNum, ?_,
    (natDigits_spec _).1, natDigits_ne_nil _, by rw [(natDigits_spec _).2, (inProgram_trackers h).1]⟩
  unfold statusLine
  have : ascii "), trackers (" = ascii "), " ++ ascii "trackers (" := by decide
  rw [this]
  simp only [List.append_assoc]

/-- C103, exactly when the number of trackers shown is right: when no tracker is in use. -/
theorem C103_iff_partial {n limit size : Nat} {σ : Mgr} {τ : StatSys} (_ : Mgr.Reachable n limit σ) (h : StatSys.InProgram size τ) (ns : Nat) :
    SaysTrackers (trackersInUse σ) (statusLine τ.stats ns) ↔ trackersInUse σ = 0 := by
  constructor
  · intro hs; exact saysTrackers_unique hs (says_zero h ns)
  · intro hz; rw [hz]; exact says_zero h ns

theorem inProgram_call {size : Nat} {τ : StatSys} (h : StatSys.InProgram size τ) (hq : τ.quiet) (op : StatOp) (hc : op.called = true) :
    ∃ τ', StatSys.InProgram size τ' ∧ τ'.quiet ∧ τ'.calls = τ.calls ++ [op] ∧
      τ'.stats = op.atoms.foldl (fun s x => s.add x.1 x.2) τ.stats := by
  have key : ∀ (todo : List (StatReg × Nat)) (σ : StatSys), StatSys.InProgram size σ → σ.pending = τ.pending ++ [todo] →
      ∃ τ', StatSys.InProgram size τ' ∧ τ'.quiet ∧ τ'.calls = σ.calls ∧ τ'.stats = todo.foldl (fun s x => s.add x.1 x.2) σ.stats := by
    intro todo
    induction todo with
    | nil =>
      intro σ hσ hp
      refine ⟨σ, hσ, ?_, rfl, rfl⟩
      intro p hm
      rw [hp] at hm
      rcases List.mem_append.1 hm with hm | hm
      · exact hq p hm
      · simpa using hm
    | cons x todo ih =>
      intro σ hσ hp
      exact ih _ (.atom hσ hp) rfl
  exact key _ _ (.call op h hc) rfl

/-- Those calls can count anything: every number of bytes and of peers is shown in some run. (So what holds of all runs is not empty talk.) -/
theorem C103_counts (size n k : Nat) (hn : n < 2 ^ 64) (hk : k < 2 ^ 64) :
    ∃ τ, StatSys.InProgram size τ ∧ τ.quiet ∧ τ.stats.download = n ∧ τ.stats.peerNum = k := by
  have peers : ∀ k, k < 2 ^ 64 → ∃ τ, StatSys.InProgram size τ ∧ τ.quiet ∧ τ.stats.download = 0 ∧ τ.stats.peerNum = k := by
    intro k
    induction k with
    | zero => intro _; exact ⟨_, .init, (fun p hp => by cases hp), rfl, rfl⟩
    | succ k ih =>
      intro hk
      obtain ⟨τ, h1, h2, h3, h4⟩ := ih (by omega)
      obtain ⟨τ', g1, g2, _, g4⟩ := inProgram_call h1 h2 .addPeer rfl
      refine ⟨τ', g1, g2, ?_, ?_⟩
      · rw [g4]; simpa [StatOp.atoms, Stats.add] using h3
      · rw [g4]; simp only [StatOp.atoms, List.foldl_cons, List.foldl_nil, Stats.add, h4]; omega
  obtain ⟨τ, h1, h2, h3, h4⟩ := peers k hk
  obtain ⟨τ', g1, g2, _, g4⟩ := inProgram_call h1 h2 (.addDownload n) rfl
  refine ⟨τ', g1, g2, ?_, ?_⟩
  · rw [g4]; simp only [StatOp.atoms, List.foldl_cons, List.foldl_nil, Stats.add, h3]; omega
  · rw [g4]; simpa [StatOp.atoms, Stats.add] using h4

/-- A peer that goes is no longer counted. -/
theorem C103_removed {size : Nat} {τ : StatSys} (h : StatSys.InProgram size τ) (hq : τ.quiet) (hp : 0 < τ.stats.peerNum) (hb : τ.stats.peerNum < 2 ^ 64) :
    ∃ τ', StatSys.InProgram size τ' ∧ τ'.quiet ∧ τ'.stats.peerNum + 1 = τ.stats.peerNum := by
  obtain ⟨τ', g1, g2, _, g4⟩ := inProgram_call h hq .removePeer rfl
  refine ⟨τ', g1, g2, ?_⟩
  rw [g4]
  simp only [StatOp.atoms, List.foldl_cons, List.foldl_nil, Stats.add]
  omega

/-- C103 is false of the code: a download with one tracker shows none. -/
theorem C103_violated : ¬ TrackersShown := by
  intro h
  have := (C103_iff_partial (n := 1) (limit := 1) .start (StatSys.InProgram.init (size := 1)) 1).1
    (h 1 1 (Mgr.start 1) 1 _ 1 .start .init)
  exact absurd this (by decide)

/-- A line: one peer, half of 3 MB after a second. -/
example : statusLine { newStats (3 * 2 ^ 20) with download := 3 * 2 ^ 19, left := 3 * 2 ^ 19, peerNum := 1 } 1000000000 =
    ascii " downloaded (1.5M), left (1.5M), speed (1.5 MB/s), peers (1), trackers (0)\n" := by decide +kernel

end Gotit.Props
