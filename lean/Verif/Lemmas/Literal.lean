import Verif.Spec.Literal
import Verif.Lemmas.Strconv
/-
  `strconv.ParseUint` and `ParseInt` with base 0 accept exactly the integer literals of Go.
-/
namespace Gotit
open Spec

theorem byte_cases {P : UInt8 → Prop} (h : ∀ n : Nat, n < 256 → P (UInt8.ofNat n)) (c : UInt8) : P c := by
  have := h c.toNat c.toNat_lt
  rwa [UInt8.ofNat_toNat] at this

theorem digitVal_eq (c : UInt8) : digitVal c =
    if 48 ≤ c.toNat ∧ c.toNat ≤ 57 then some (c.toNat - 48)
    else if 97 ≤ c.toNat ∧ c.toNat ≤ 122 then some (c.toNat - 87)
    else if 65 ≤ c.toNat ∧ c.toNat ≤ 90 then some (c.toNat - 55) else none := by
  revert c
  apply byte_cases
  decide +kernel

theorem isDigitIn_iff {base : Nat} {c : UInt8} {d : Nat} : IsDigitIn base c d ↔ digitVal c = some d ∧ d < base := by
  rw [digitVal_eq]
  constructor
  · intro h
    cases h with
    | num h1 h2 h3 => rw [if_pos ⟨h1, h2⟩]; exact ⟨rfl, h3⟩
    | lower h1 h2 h3 => rw [if_neg (by omega), if_pos ⟨h1, h2⟩]; exact ⟨rfl, h3⟩
    | upper h1 h2 h3 => rw [if_neg (by omega), if_neg (by omega), if_pos ⟨h1, h2⟩]; exact ⟨rfl, h3⟩
  · rintro ⟨h1, h2⟩
    split at h1
    · rename_i h; injection h1 with h1; subst h1; exact .num c h.1 h.2 h2
    · split at h1
      · rename_i h; injection h1 with h1; subst h1; exact .lower c h.1 h.2 h2
      · split at h1
        · rename_i h; injection h1 with h1; subst h1; exact .upper c h.1 h.2 h2
        · simp at h1

theorem not_digit_95 {base d : Nat} : ¬ IsDigitIn base 95 d := by
  rw [isDigitIn_iff]; intro h; exact absurd h.1 (by simp [digitVal_eq])

/-- The characters of `s` other than underscores are digits. -/
def AllDig (base : Nat) (s : Bytes) : Prop := ∀ c ∈ s, c ≠ 95 → ∃ d, IsDigitIn base c d

/-- The value, underscores ignored. -/
def litVal (base : Nat) (n : Nat) (s : Bytes) : Nat :=
  s.foldl (fun n c => if c = 95 then n else n * base + (digitVal c).getD 0) n

theorem litVal_ge {base : Nat} (hb : 1 ≤ base) (s : Bytes) (n : Nat) : n ≤ litVal base n s := by
  induction s generalizing n with
  | nil => exact Nat.le_refl _
  | cons c s ih =>
    rw [litVal, List.foldl_cons]
    refine Nat.le_trans ?_ (ih _)
    split
    · exact Nat.le_refl _
    · have : n * 1 ≤ n * base := Nat.mul_le_mul_left n hb
      omega

theorem parseDigits_iff {base maxVal : Nat} (hb : 1 ≤ base) (hm : maxVal < 2 ^ 64) (s : Bytes) (n : Nat) (u : Bool)
    (m : Nat) (u' : Bool) :
    parseDigits base maxVal s n u = .ok (m, u') ↔
      AllDig base s ∧ litVal base n s = m ∧ (n ≤ maxVal → m ≤ maxVal) ∧ (s.all (· == 95) ∨ m ≤ maxVal) ∧ u' = (u || s.any (· == 95)) := by
  induction s generalizing n u with
  | nil =>
    simp only [parseDigits, Except.ok.injEq, Prod.mk.injEq, AllDig, List.not_mem_nil, false_implies, implies_true, true_and, litVal,
      List.foldl_nil, List.all_nil, true_or, List.any_nil, Bool.or_false]
    constructor
    · rintro ⟨rfl, rfl⟩; exact ⟨rfl, id, rfl⟩
    · rintro ⟨rfl, _, rfl⟩; exact ⟨rfl, rfl⟩
  | cons c s ih =>
    rw [parseDigits]
    by_cases hc : c = 95
    · subst hc
      rw [if_pos rfl, ih]
      have e : litVal base n (95 :: s) = litVal base n s := by simp [litVal]
      have e2 : AllDig base (95 :: s) ↔ AllDig base s := by
        constructor
        · intro h c hc; exact h c (List.mem_cons_of_mem _ hc)
        · intro h c hc hne
          rcases List.mem_cons.1 hc with rfl | hc
          · exact absurd rfl hne
          · exact h c hc hne
      rw [e, e2]
      simp
    · rw [if_neg hc]
      have hall : AllDig base (c :: s) ↔ (∃ d, IsDigitIn base c d) ∧ AllDig base s := by
        constructor
        · intro h
          exact ⟨h c (by simp) hc, fun x hx => h x (List.mem_cons_of_mem _ hx)⟩
        · rintro ⟨h1, h2⟩ x hx hne
          rcases List.mem_cons.1 hx with rfl | hx
          · exact h1
          · exact h2 x hx hne
      rw [hall]
      cases hd : digitVal c with
      | none =>
        simp only [reduceCtorEq, false_iff]
        rintro ⟨⟨⟨d, h1⟩, _⟩, _⟩
        rw [isDigitIn_iff, hd] at h1
        simp at h1
      | some d =>
        simp only
        have e : litVal base n (c :: s) = litVal base (n * base + d) s := by simp [litVal, hc, hd]
        rw [e]
        by_cases h1 : d ≥ base
        · rw [if_pos h1]
          simp only [reduceCtorEq, false_iff]
          rintro ⟨⟨⟨d', h2⟩, _⟩, _⟩
          rw [isDigitIn_iff, hd] at h2
          simp at h2; omega
        · rw [if_neg h1]
          have hd' : ∃ d, IsDigitIn base c d := ⟨d, isDigitIn_iff.2 ⟨hd, by omega⟩⟩
          have hge := litVal_ge hb s (n * base + d)
          have hns : (c :: s).all (· == 95) = false := by simp [hc]
          by_cases h2 : n * base ≥ 2 ^ 64
          · rw [if_pos h2]
            simp only [reduceCtorEq, false_iff, hns]
            rintro ⟨_, h3, _, h4, _⟩
            simp at h4; omega
          · rw [if_neg h2]
            by_cases h3 : n * base + d > maxVal
            · rw [if_pos h3]
              simp only [reduceCtorEq, false_iff, hns]
              rintro ⟨_, h4, _, h5, _⟩
              simp at h5; omega
            · rw [if_neg h3, ih]
              have e3 : (c :: s).any (· == 95) = s.any (· == 95) := by simp [hc]
              rw [e3, hns]
              simp only [hd', true_and]
              constructor
              · rintro ⟨a1, a2, a3, a4, a5⟩
                exact ⟨a1, a2, fun _ => a3 (by omega), .inr (a3 (by omega)), a5⟩
              · rintro ⟨a1, a2, a3, a4, a5⟩
                have := a4.resolve_left (by simp)
                exact ⟨a1, a2, fun _ => this, .inr this, a5⟩

/-! ### underscores -/

/-- The digits of the base count as digits for `underscoreOK`. -/
def Suits (base : Nat) (hex : Bool) : Prop := ∀ c d, IsDigitIn base c d →
  (48 ≤ c ∧ c ≤ 57) ∨ (hex = true ∧ 97 ≤ lowerByte c ∧ lowerByte c ≤ 102)

theorem suits_dec {base : Nat} (h : base ≤ 10) (hex : Bool) : Suits base hex := by
  intro c d hd
  left
  rw [UInt8.le_iff_toNat_le, UInt8.le_iff_toNat_le]
  cases hd with
  | num h1 h2 => exact ⟨h1, h2⟩
  | lower => omega
  | upper => omega

theorem suits_hex : Suits 16 true := by
  intro c d hd
  rw [isDigitIn_iff] at hd
  revert hd
  have : ∀ c : UInt8, (∀ d, digitVal c = some d ∧ d < 16 → (48 ≤ c ∧ c ≤ 57) ∨ (true = true ∧ 97 ≤ lowerByte c ∧ lowerByte c ≤ 102)) := by
    intro c d ⟨h1, h2⟩
    have : ∀ c : UInt8, (digitVal c).any (fun d => decide (d < 16)) = true →
        (48 ≤ c ∧ c ≤ 57) ∨ (true = true ∧ 97 ≤ lowerByte c ∧ lowerByte c ≤ 102) := by
      apply byte_cases
      decide +kernel
    exact this c (by simp [h1, h2])
  exact this c d

/-- `DigitRun` with some list of digits. -/
def Run1 (base : Nat) (s : Bytes) : Prop := ∃ ds, DigitRun base s ds

theorem run1_cons {base : Nat} {c : UInt8} {s : Bytes} (hc : c ≠ 95) (h : ∃ d, IsDigitIn base c d) :
    Run1 base (c :: s) ↔ s = [] ∨ Run1 base s ∨ ∃ s', s = 95 :: s' ∧ Run1 base s' := by
  obtain ⟨d, hd⟩ := h
  constructor
  · rintro ⟨ds, h⟩
    cases h with
    | one => exact .inl rfl
    | next _ h => exact .inr (.inl ⟨_, h⟩)
    | under _ h => exact .inr (.inr ⟨_, rfl, _, h⟩)
  · rintro (rfl | ⟨ds, h⟩ | ⟨s', rfl, ds, h⟩)
    · exact ⟨_, .one hd⟩
    · exact ⟨_, .next hd h⟩
    · exact ⟨_, .under hd h⟩

theorem not_run1_95 {base : Nat} {s : Bytes} : ¬ Run1 base (95 :: s) := by
  rintro ⟨ds, h⟩
  cases h with
  | one h => exact not_digit_95 h
  | next h => exact not_digit_95 h
  | under h => exact not_digit_95 h

theorem not_run1_nil {base : Nat} : ¬ Run1 base [] := by
  rintro ⟨ds, h⟩; cases h

theorem underscoreLoop_iff {base : Nat} {hex : Bool} (hs : Suits base hex) (s : Bytes) (h : AllDig base s) :
    (underscoreLoop hex s 48 = true ↔ s = [] ∨ Run1 base s ∨ ∃ s', s = 95 :: s' ∧ Run1 base s') ∧
    (underscoreLoop hex s 95 = true ↔ Run1 base s) ∧
    (underscoreLoop hex s 94 = true ↔ s = [] ∨ Run1 base s) := by
  induction s with
  | nil =>
    refine ⟨?_, ?_, ?_⟩
    · simp [underscoreLoop]
    · simp [underscoreLoop, not_run1_nil]
    · simp [underscoreLoop]
  | cons c s ih =>
    obtain ⟨ih1, ih2, ih3⟩ := ih (fun x hx => h x (List.mem_cons_of_mem _ hx))
    by_cases hc : c = 95
    · subst hc
      have hn : ∀ hex : Bool, ¬ ((48 ≤ (95 : UInt8) ∧ (95 : UInt8) ≤ 57) ∨ (hex = true ∧ 97 ≤ lowerByte 95 ∧ lowerByte 95 ≤ 102)) := by decide
      refine ⟨?_, ?_, ?_⟩
      · rw [underscoreLoop, if_neg (hn hex), if_pos rfl, if_neg (by decide), ih2]
        simp [not_run1_95]
      · rw [underscoreLoop, if_neg (hn hex), if_pos rfl, if_pos (by decide)]
        simp [not_run1_95]
      · rw [underscoreLoop, if_neg (hn hex), if_pos rfl, if_pos (by decide)]
        simp [not_run1_95]
    · have hd := h c (by simp) hc
      obtain ⟨d, hd'⟩ := id hd
      have hy := hs c d hd'
      refine ⟨?_, ?_, ?_⟩
      · rw [underscoreLoop, if_pos hy, ih1, run1_cons hc hd]
        simp [hc]
      · rw [underscoreLoop, if_pos hy, ih1, run1_cons hc hd]
      · rw [underscoreLoop, if_pos hy, ih1, run1_cons hc hd]
        simp

theorem underscoreLoop_none {hex : Bool} {base : Nat} (hs : Suits base hex) (s : Bytes) (h : AllDig base s) (hn : s.any (· == 95) = false) (saw : UInt8)
    (hw : saw ≠ 95) : underscoreLoop hex s saw = true := by
  induction s generalizing saw with
  | nil => simp [underscoreLoop, hw]
  | cons c s ih =>
    simp only [List.any_cons, Bool.or_eq_false_iff, beq_eq_false_iff_ne] at hn
    obtain ⟨d, hd⟩ := h c (by simp) hn.1
    rw [underscoreLoop, if_pos (hs c d hd)]
    exact ih (fun x hx => h x (List.mem_cons_of_mem _ hx)) hn.2 48 (by decide)

/-! ### values -/

theorem digitRun_val {base : Nat} {s : Bytes} {ds : List Nat} (h : DigitRun base s ds) : ∀ n, AllDig base s ∧
    litVal base n s = ds.foldl (fun n d => n * base + d) n := by
  have one : ∀ {c d} (_ : IsDigitIn base c d), c ≠ 95 ∧ digitVal c = some d := by
    intro c d h
    refine ⟨?_, (isDigitIn_iff.1 h).1⟩
    rintro rfl
    exact not_digit_95 h
  induction h with
  | one h =>
    intro n
    obtain ⟨h1, h2⟩ := one h
    refine ⟨?_, by simp [litVal, h1, h2]⟩
    intro x hx _
    rw [List.mem_singleton.1 hx]; exact ⟨_, h⟩
  | @next c d s ds h hr ih =>
    intro n
    obtain ⟨h1, h2⟩ := one h
    obtain ⟨a, b⟩ := ih (n * base + d)
    refine ⟨?_, ?_⟩
    · intro x hx hne
      rcases List.mem_cons.1 hx with rfl | hx
      · exact ⟨_, h⟩
      · exact a x hx hne
    · rw [List.foldl_cons, ← b]
      simp [litVal, h1, h2]
  | @under c d s ds h hr ih =>
    intro n
    obtain ⟨h1, h2⟩ := one h
    obtain ⟨a, b⟩ := ih (n * base + d)
    refine ⟨?_, ?_⟩
    · intro x hx hne
      rcases List.mem_cons.1 hx with rfl | hx
      · exact ⟨_, h⟩
      · rcases List.mem_cons.1 hx with rfl | hx
        · exact absurd rfl hne
        · exact a x hx hne
    · rw [List.foldl_cons, ← b]
      simp [litVal, h1, h2]

theorem digitRun_value {base : Nat} {s : Bytes} {ds : List Nat} (h : DigitRun base s ds) : litVal base 0 s = digitsValue base ds :=
  (digitRun_val h 0).2

/-! ### the whole -/

/-- What `ParseUint` checks, once base and digits are known. -/
theorem uint_core {s : Bytes} {bits : Nat} (hs : s ≠ []) (hb : bits ≤ 64) (hbase : 1 ≤ (base0 s).1) (n : Nat) :
    parseUint0 s bits = .ok n ↔ AllDig (base0 s).1 (base0 s).2 ∧ litVal (base0 s).1 0 (base0 s).2 = n ∧ n < 2 ^ bits ∧
      ((base0 s).2.any (· == 95) = true → underscoreOK s = true) := by
  have hp0 : 0 < 2 ^ bits := Nat.two_pow_pos bits
  have hm : 2 ^ bits - 1 < 2 ^ 64 := by
    have : 2 ^ bits ≤ 2 ^ 64 := Nat.pow_le_pow_right (by omega) hb
    omega
  rw [parseUint0, if_neg hs]
  constructor
  · intro h
    split at h
    · simp at h
    · rename_i m u hd
      split at h
      · simp at h
      · rename_i hu
        simp only [Except.ok.injEq] at h
        subst h
        obtain ⟨a1, a2, a3, a4, a5⟩ := (parseDigits_iff hbase hm _ _ _ _ _).1 hd
        have := a3 (Nat.zero_le _)
        refine ⟨a1, a2, by omega, ?_⟩
        intro hy
        simp only [Bool.false_or] at a5
        rw [a5, hy] at hu
        simpa using hu
  · rintro ⟨a1, a2, a3, a4⟩
    have := (parseDigits_iff hbase hm (base0 s).2 0 false n ((base0 s).2.any (· == 95))).2
      ⟨a1, a2, fun _ => by omega, .inr (by omega), by simp⟩
    rw [this]
    simp only
    split
    · rename_i hu
      simp only [Bool.and_eq_true, Bool.not_eq_true'] at hu
      rw [a4 hu.1] at hu
      simp at hu
    · rfl

/-- The letters that select a base. -/
theorem lower_letters (c : UInt8) : (lowerByte c = 98 ↔ c = 98 ∨ c = 66) ∧ (lowerByte c = 111 ↔ c = 111 ∨ c = 79) ∧
    (lowerByte c = 120 ↔ c = 120 ∨ c = 88) := by
  revert c
  apply byte_cases
  decide +kernel

theorem run1_allDig {base : Nat} {s : Bytes} (h : Run1 base s) : AllDig base s := by
  obtain ⟨ds, h⟩ := h
  exact (digitRun_val h 0).1

theorem allDig_under {base : Nat} {s : Bytes} (h : AllDig base s) : AllDig base (95 :: s) := by
  intro c hc hne
  rcases List.mem_cons.1 hc with rfl | hc
  · exact absurd rfl hne
  · exact h c hc hne

theorem shape48 {base : Nat} {hex : Bool} (hs : Suits base hex) (s : Bytes) :
    (AllDig base s ∧ (s.any (· == 95) = true → underscoreLoop hex s 48 = true)) ↔
      s = [] ∨ Run1 base s ∨ ∃ s', s = 95 :: s' ∧ Run1 base s' := by
  constructor
  · rintro ⟨h1, h2⟩
    rw [← (underscoreLoop_iff hs s h1).1]
    cases hc : s.any (· == 95) with
    | true => exact h2 hc
    | false => exact underscoreLoop_none hs s h1 hc 48 (by decide)
  · intro h
    have hd : AllDig base s := by
      rcases h with rfl | h | ⟨s', rfl, h⟩
      · intro c hc; simp at hc
      · exact run1_allDig h
      · exact allDig_under (run1_allDig h)
    exact ⟨hd, fun _ => (underscoreLoop_iff hs s hd).1.2 h⟩

theorem shape94 {base : Nat} {hex : Bool} (hs : Suits base hex) (s : Bytes) (hne : s ≠ []) :
    (AllDig base s ∧ (s.any (· == 95) = true → underscoreLoop hex s 94 = true)) ↔ Run1 base s := by
  constructor
  · rintro ⟨h1, h2⟩
    refine ((underscoreLoop_iff hs s h1).2.2.1 ?_).resolve_left hne
    cases hc : s.any (· == 95) with
    | true => exact h2 hc
    | false => exact underscoreLoop_none hs s h1 hc 94 (by decide)
  · intro h
    have hd := run1_allDig h
    exact ⟨hd, fun _ => (underscoreLoop_iff hs s hd).2.2.2 (.inr h)⟩

theorem litVal_under (base n : Nat) (s : Bytes) : litVal base n (95 :: s) = litVal base n s := by simp [litVal]

theorem run1_head {base : Nat} {c : UInt8} {s : Bytes} (h : Run1 base (c :: s)) : ∃ d, IsDigitIn base c d := by
  obtain ⟨ds, h⟩ := h
  cases h with
  | one h => exact ⟨_, h⟩
  | next h => exact ⟨_, h⟩
  | under h => exact ⟨_, h⟩

/-- A digit of base ten or less is a decimal digit. -/
theorem small_digit {base : Nat} (h : base ≤ 10) {c : UInt8} {d : Nat} (hd : IsDigitIn base c d) : 48 ≤ c.toNat ∧ c.toNat ≤ 57 := by
  cases hd with
  | num h1 h2 => exact ⟨h1, h2⟩
  | lower => omega
  | upper => omega

/-- Exactly the literals of Go are accepted, as long as the number fits. -/
theorem parseUint0_iff {bits : Nat} (hb : bits ≤ 64) (s : Bytes) (n : Nat) :
    parseUint0 s bits = .ok n ↔ Literal s n ∧ n < 2 ^ bits := by
  match s with
  | [] =>
    simp only [parseUint0, if_true, reduceCtorEq, false_iff]
    rintro ⟨h, _⟩
    cases h with
    | decimal h => cases h
  | c :: cs =>
    by_cases hc : c = 48
    · subst hc
      match cs with
      | [] =>
        rw [uint_core (by simp) hb (by simp [base0])]
        simp only [base0, AllDig, List.not_mem_nil, false_implies, implies_true, litVal, List.foldl_nil, List.any_nil, reduceCtorEq, true_and, and_true]
        constructor
        · rintro ⟨rfl, h⟩; exact ⟨.zero, h⟩
        · rintro ⟨h, h2⟩
          cases h with
          | zero => exact ⟨rfl, h2⟩
          | decimal _ h => exact absurd rfl h
          | octal h => cases h
      | c :: cs =>
        by_cases hl : isPrefixLetter c = true
        · -- a base letter
          have hll : ∃ base, BaseLetter c base ∧ Suits base (lowerByte c = 120) ∧ 1 ≤ base ∧
              (cs ≠ [] → base0 (48 :: c :: cs) = (base, cs)) := by
            obtain ⟨l1, l2, l3⟩ := lower_letters c
            unfold isPrefixLetter at hl
            simp only [Bool.or_eq_true, decide_eq_true_eq] at hl
            rcases hl with (h | h) | h
            · refine ⟨2, .inl ⟨l1.1 h, rfl⟩, suits_dec (by omega) _, by omega, ?_⟩
              intro hne
              cases cs with
              | nil => exact absurd rfl hne
              | cons => simp [base0, h]
            · refine ⟨8, .inr (.inl ⟨l2.1 h, rfl⟩), suits_dec (by omega) _, by omega, ?_⟩
              intro hne
              cases cs with
              | nil => exact absurd rfl hne
              | cons => simp [base0, h]
            · refine ⟨16, .inr (.inr ⟨l3.1 h, rfl⟩), by rw [h]; exact suits_hex, by omega, ?_⟩
              intro hne
              cases cs with
              | nil => exact absurd rfl hne
              | cons => simp [base0, h]
          obtain ⟨base, hbl, hsu, hb1, hb0⟩ := hll
          have huniq : ∀ base', BaseLetter c base' → base' = base := by
            intro base' h'
            rcases hbl with ⟨h1 | h1, rfl⟩ | ⟨h1 | h1, rfl⟩ | ⟨h1 | h1, rfl⟩ <;> subst h1 <;> simpa [BaseLetter] using h'
          have hno8 : ¬ ∃ d, IsDigitIn 8 c d := by
            rintro ⟨d, hd⟩
            have := small_digit (by omega) hd
            rcases hbl with ⟨h1 | h1, _⟩ | ⟨h1 | h1, _⟩ | ⟨h1 | h1, _⟩ <;> subst h1 <;> simp at this
          have hc95 : c ≠ 95 := by
            rcases hbl with ⟨h1 | h1, _⟩ | ⟨h1 | h1, _⟩ | ⟨h1 | h1, _⟩ <;> subst h1 <;> decide
          have hlit : Literal (48 :: c :: cs) n ↔ (∃ ds, DigitRun base cs ds ∧ digitsValue base ds = n) ∨
              ∃ s', cs = 95 :: s' ∧ ∃ ds, DigitRun base s' ds ∧ digitsValue base ds = n := by
            constructor
            · intro h
              cases h with
              | decimal _ h => exact absurd rfl h
              | octal h => exact absurd (run1_head ⟨_, h⟩) hno8
              | octalUnder h => exact absurd rfl hc95
              | based h1 h2 => rw [huniq _ h1] at h2 ⊢; exact .inl ⟨_, h2, rfl⟩
              | basedUnder h1 h2 => rw [huniq _ h1] at h2 ⊢; exact .inr ⟨_, rfl, _, h2, rfl⟩
            · rintro (⟨ds, h, rfl⟩ | ⟨s', rfl, ds, h, rfl⟩)
              · exact .based hbl h
              · exact .basedUnder hbl h
          rw [hlit]
          by_cases hcs : cs = []
          · subst hcs
            rw [uint_core (by simp) hb (by simp [base0])]
            constructor
            · rintro ⟨h, _⟩
              exact absurd (h c (by simp [base0]) hc95) hno8
            · rintro ⟨⟨ds, h, _⟩ | ⟨s', h, _⟩, _⟩
              · cases h
              · simp at h
          · rw [uint_core (by simp) hb (by rw [hb0 hcs]; exact hb1), hb0 hcs]
            have hu : underscoreOK (48 :: c :: cs) = underscoreLoop (lowerByte c = 120) cs 48 := by
              simp [underscoreOK, hl]
            rw [hu]
            have sh := shape48 hsu cs
            constructor
            · rintro ⟨a1, a2, a3, a4⟩
              refine ⟨?_, a3⟩
              rcases sh.1 ⟨a1, a4⟩ with h | ⟨ds, h⟩ | ⟨s', rfl, ds, h⟩
              · exact absurd h hcs
              · exact .inl ⟨ds, h, by rw [← digitRun_value h, a2]⟩
              · exact .inr ⟨s', rfl, ds, h, by rw [← digitRun_value h, ← litVal_under, a2]⟩
            · rintro ⟨h, a3⟩
              rcases h with ⟨ds, h, hv⟩ | ⟨s', rfl, ds, h, hv⟩
              · obtain ⟨a1, a4⟩ := sh.2 (.inr (.inl ⟨ds, h⟩))
                exact ⟨a1, by rw [digitRun_value h, hv], a3, a4⟩
              · obtain ⟨a1, a4⟩ := sh.2 (.inr (.inr ⟨s', rfl, ds, h⟩))
                exact ⟨a1, by rw [litVal_under, digitRun_value h, hv], a3, a4⟩
        · -- octal
          have hb0 : base0 (48 :: c :: cs) = (8, c :: cs) := by
            simp only [isPrefixLetter, Bool.or_eq_true, decide_eq_true_eq, not_or] at hl
            cases cs with
            | nil => simp [base0]
            | cons => simp [base0, hl]
          have hnl : ∀ base, ¬ BaseLetter c base := by
            intro base h
            apply hl
            obtain ⟨l1, l2, l3⟩ := lower_letters c
            unfold isPrefixLetter
            simp only [Bool.or_eq_true, decide_eq_true_eq]
            rcases h with ⟨h, _⟩ | ⟨h, _⟩ | ⟨h, _⟩
            · exact .inl (.inl (l1.2 h))
            · exact .inl (.inr (l2.2 h))
            · exact .inr (l3.2 h)
          have hu : underscoreOK (48 :: c :: cs) = underscoreLoop false (c :: cs) 48 := by
            simp only [underscoreOK]
            rw [if_neg (by decide)]
            simp only []
            rw [if_neg hl, underscoreLoop, if_pos (by decide)]
          rw [uint_core (by simp) hb (by rw [hb0]; simp), hb0, hu]
          have sh := shape48 (suits_dec (base := 8) (by omega) false) (c :: cs)
          constructor
          · rintro ⟨a1, a2, a3, a4⟩
            refine ⟨?_, a3⟩
            rcases sh.1 ⟨a1, a4⟩ with h | ⟨ds, h⟩ | ⟨s', hs, ds, h⟩
            · simp at h
            · rw [← a2, digitRun_value h]; exact .octal h
            · rw [← a2, hs, litVal_under, digitRun_value h]; exact .octalUnder h
          · rintro ⟨h, a3⟩
            cases h with
            | decimal _ h => exact absurd rfl h
            | octal h =>
              obtain ⟨a1, a4⟩ := sh.2 (.inr (.inl ⟨_, h⟩))
              exact ⟨a1, digitRun_value h, a3, a4⟩
            | octalUnder h =>
              obtain ⟨a1, a4⟩ := sh.2 (.inr (.inr ⟨_, rfl, _, h⟩))
              exact ⟨a1, by rw [litVal_under]; exact digitRun_value h, a3, a4⟩
            | based h => exact absurd h (hnl _)
            | basedUnder h => exact absurd h (hnl _)
    · have hb0 : base0 (c :: cs) = (10, c :: cs) := by
        unfold base0
        split
        · rename_i h; exact absurd (by simpa using (List.cons.inj h).1) hc
        · rename_i h; exact absurd (by simpa using (List.cons.inj h).1) hc
        · rfl
      have hu : AllDig 10 (c :: cs) → underscoreOK (c :: cs) = underscoreLoop false (c :: cs) 94 := by
        intro ha
        have hsgn : ¬ (c = 45 ∨ c = 43) := by
          intro h
          have hne : c ≠ 95 := by rcases h with rfl | rfl <;> decide
          obtain ⟨d, hd⟩ := ha c (by simp) hne
          have := small_digit (by omega) hd
          rcases h with rfl | rfl <;> simp at this
        simp only [underscoreOK]
        rw [if_neg hsgn]
        split
        · rename_i h; exact absurd (List.cons.inj h).1 hc
        · rfl
      rw [uint_core (by simp) hb (by rw [hb0]; simp), hb0]
      have sh := shape94 (suits_dec (base := 10) (by omega) false) (c :: cs) (by simp)
      constructor
      · rintro ⟨a1, a2, a3, a4⟩
        refine ⟨?_, a3⟩
        rw [hu a1] at a4
        obtain ⟨ds, h⟩ := sh.1 ⟨a1, a4⟩
        rw [← a2, digitRun_value h]
        exact .decimal h (by simpa using hc)
      · rintro ⟨h, a3⟩
        have fin : ∀ {ds}, DigitRun 10 (c :: cs) ds → digitsValue 10 ds = n →
            AllDig 10 (c :: cs) ∧ litVal 10 0 (c :: cs) = n ∧ n < 2 ^ bits ∧
              ((c :: cs).any (· == 95) = true → underscoreOK (c :: cs) = true) := by
          intro ds h hv
          obtain ⟨a1, a4⟩ := sh.2 ⟨_, h⟩
          exact ⟨a1, by rw [digitRun_value h, hv], a3, by rw [hu a1]; exact a4⟩
        generalize hs : c :: cs = s at h
        cases h with
        | zero => exact absurd (List.cons.inj hs).1 hc
        | decimal h _ => subst hs; exact fin h rfl
        | octal => exact absurd (List.cons.inj hs).1 hc
        | octalUnder => exact absurd (List.cons.inj hs).1 hc
        | based => exact absurd (List.cons.inj hs).1 hc
        | basedUnder => exact absurd (List.cons.inj hs).1 hc

/-- A literal begins with a decimal digit. -/
theorem literal_head {s : Bytes} {n : Nat} (h : Literal s n) : ∃ c cs, s = c :: cs ∧ 48 ≤ c.toNat ∧ c.toNat ≤ 57 := by
  cases h with
  | decimal h _ =>
    cases h with
    | one h => exact ⟨_, _, rfl, small_digit (by omega) h⟩
    | next h => exact ⟨_, _, rfl, small_digit (by omega) h⟩
    | under h => exact ⟨_, _, rfl, small_digit (by omega) h⟩
  | _ => exact ⟨48, _, rfl, by decide, by decide⟩

/-- Exactly the literals with an optional sign are accepted, as long as the number fits. -/
theorem parseInt0_iff {bits : Nat} (h1 : 1 ≤ bits) (hb : bits ≤ 64) (s : Bytes) (n : Int) :
    parseInt0 s bits = .ok n ↔ SignedLiteral s n ∧ -2 ^ (bits - 1) ≤ n ∧ n < 2 ^ (bits - 1) := by
  have hc : ((2 : Int) ^ (bits - 1)) = ((2 ^ (bits - 1) : Nat) : Int) := by simp
  have hpow : 2 ^ bits = 2 * 2 ^ (bits - 1) := by
    obtain ⟨k, rfl⟩ : ∃ k, bits = k + 1 := ⟨bits - 1, by omega⟩
    simp [Nat.pow_succ, Nat.mul_comm]
  constructor
  · intro h
    refine ⟨?_, parseInt0_range h⟩
    unfold parseInt0 at h
    split at h
    · simp at h
    · rename_i hne
      simp only at h
      split at h
      · simp at h
      · rename_i un hun
        have hl := ((parseUint0_iff hb _ _).1 hun).1
        split at h
        · simp at h
        · split at h
          · simp at h
          · simp only [Except.ok.injEq] at h
            cases s with
            | nil => exact absurd rfl hne
            | cons c cs =>
              simp only [List.head?_cons, Option.some.injEq, List.tail_cons] at h hl
              by_cases h45 : c = 45
              · subst h45
                simp at h hl
                rw [← h]; exact .minus hl
              · rw [if_neg h45] at h
                by_cases h43 : c = 43
                · subst h43
                  simp at hl
                  rw [← h]; exact .plus hl
                · rw [if_neg (by simp [h43, h45])] at hl
                  rw [← h]; exact .plain hl
  · rintro ⟨h, hlo, hhi⟩
    rw [hc] at hlo hhi
    cases h with
    | @plain s m h =>
      obtain ⟨c, cs, rfl, hd1, hd2⟩ := literal_head h
      have h45 : c ≠ 45 := by rintro rfl; simp at hd1
      have h43 : c ≠ 43 := by rintro rfl; simp at hd1
      have hu := (parseUint0_iff hb _ _).2 ⟨h, by omega⟩
      unfold parseInt0
      simp only [List.cons_ne_nil, if_false, List.head?_cons, Option.some.injEq, h45, h43, or_self, List.tail_cons, hu]
      rw [if_neg (by simp; omega), if_neg (by simp)]
    | @plus s m h =>
      have hu := (parseUint0_iff hb _ _).2 ⟨h, by omega⟩
      unfold parseInt0
      simp only [List.cons_ne_nil, if_false, List.head?_cons, Option.some.injEq, List.tail_cons, true_or, if_true, hu]
      rw [if_neg (by simp; omega), if_neg (by simp)]
      simp
    | @minus s m h =>
      have hu := (parseUint0_iff hb _ _).2 ⟨h, by omega⟩
      unfold parseInt0
      simp only [List.cons_ne_nil, if_false, List.head?_cons, Option.some.injEq, List.tail_cons, or_true, if_true, hu]
      rw [if_neg (by simp), if_neg (by simp; omega)]

end Gotit
