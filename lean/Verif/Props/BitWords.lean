import Verif.Model.BitWords
import Verif.Model.Torrent
import Verif.Spec.BitWords
import Verif.Lemmas.BitSet
/-
  C140: sets of pieces, on words.
-/
namespace Gotit.Props
open Gotit Gotit.Spec

/-- The words hold the members `m` of the numbers below `n`. -/
structure Holds (b : WordSet) (m : Nat → Bool) (n : Nat) : Prop where
  length : b.length = n
  words : b.set.length = BitSet.wordsNeeded n
  bits : ∀ w t, t < 64 → (b.wordAt w).getLsbD t = m (64 * w + t)
  above : ∀ i, n ≤ i → m i = false
  spare : ∀ x ∈ b.spare, x = 0

theorem Holds.bit {b : WordSet} {m : Nat → Bool} {n : Nat} (h : Holds b m n) (i : Nat) : (b.wordAt (i / 64)).getLsbD (i % 64) = m i := by
  rw [h.bits _ _ (Nat.mod_lt _ (by omega)), Nat.div_add_mod]

theorem holds_new (n : Nat) : Holds (.new n) (fun _ => false) n := by
  refine ⟨rfl, by simp [WordSet.new], ?_, fun _ _ => rfl, by simp [WordSet.new]⟩
  intro w t _
  simp only [WordSet.wordAt, WordSet.new, List.getD_eq_getElem?_getD, List.getElem?_replicate]
  split <;> simp

theorem holds_from (buf : List (BitVec 64)) : Holds (.fromBuf buf) (fun i => (buf.getD (i / 64) 0).getLsbD (i % 64)) (64 * buf.length) := by
  refine ⟨rfl, by simp only [WordSet.fromBuf, BitSet.wordsNeeded]; omega, ?_, ?_, by simp [WordSet.fromBuf]⟩
  · intro w t ht
    simp only [WordSet.wordAt, WordSet.fromBuf]
    rw [show (64 * w + t) / 64 = w by omega, show (64 * w + t) % 64 = t by omega]
  · intro i hi
    simp only [List.getD_eq_getElem?_getD]
    rw [List.getElem?_eq_none (by omega)]
    simp

theorem holds_test {b : WordSet} {m : Nat → Bool} {n : Nat} (h : Holds b m n) (i : Nat) : b.test i = m i := by
  unfold WordSet.test
  rw [h.length]
  split
  · rename_i hi; exact (h.above i hi).symm
  · rw [← h.bit i]
    have hb : (b.wordAt (i / 64) &&& ((1#64) <<< (i % 64))) ≠ 0 ↔ (b.wordAt (i / 64)).getLsbD (i % 64) = true := by
      constructor
      · intro hne
        cases hx : (b.wordAt (i / 64)).getLsbD (i % 64) with
        | true => rfl
        | false =>
          exfalso
          apply hne
          apply BitVec.eq_of_getLsbD_eq
          intro j hj
          simp only [BitVec.getLsbD_and, BitVec.getLsbD_shiftLeft, BitVec.getLsbD_one, BitVec.ofNat_eq_ofNat, BitVec.getLsbD_zero]
          by_cases hji : j = i % 64
          · subst hji; simp [hx]
          · have : ¬ (j ≥ i % 64 ∧ j - i % 64 = 0) := by omega
            by_cases h1 : j < i % 64
            · simp [h1]
            · have : j - i % 64 ≠ 0 := by omega
              simp [this]
      · intro hx he
        have := congrArg (fun v => v.getLsbD (i % 64)) he
        have hlt : i % 64 < 64 := Nat.mod_lt _ (by omega)
        simp only [BitVec.getLsbD_and, hx, BitVec.getLsbD_shiftLeft, BitVec.getLsbD_one, BitVec.ofNat_eq_ofNat, BitVec.getLsbD_zero] at this
        simp [hlt] at this
    cases hc : (b.wordAt (i / 64)).getLsbD (i % 64) with
    | true => exact decide_eq_true (hb.2 hc)
    | false => exact decide_eq_false (fun hne => by rw [hb.1 hne] at hc; cases hc)

theorem getD_replicate_zero (k w : Nat) : (List.replicate k (0 : BitVec 64)).getD w 0 = 0 := by
  rw [List.getD_eq_getElem?_getD, List.getElem?_replicate]
  split <;> simp

theorem getD_zeros {l : List (BitVec 64)} (h : ∀ x ∈ l, x = 0) (w : Nat) : l.getD w 0 = 0 := by
  rw [List.getD_eq_getElem?_getD]
  cases hx : l[w]? with
  | none => rfl
  | some x => exact h x (List.mem_of_getElem? hx)

theorem holds_extend {b : WordSet} {m : Nat → Bool} {n : Nat} (h : Holds b m n) (i : Nat) :
    Holds (b.extendMaybe i) m (if i ≥ n then i + 1 else n) := by
  unfold WordSet.extendMaybe
  rw [h.length]
  split
  · rename_i hi
    have hmono : BitSet.wordsNeeded n ≤ BitSet.wordsNeeded (i + 1) := by simp only [BitSet.wordsNeeded]; omega
    have hab : ∀ j, i + 1 ≤ j → m j = false := fun j hj => h.above j (by omega)
    have hzero : ∀ w, b.set.length ≤ w → b.wordAt w = 0 := by
      intro w hw
      rw [WordSet.wordAt, List.getD_eq_getElem?_getD, List.getElem?_eq_none hw]; rfl
    simp only
    split
    · rename_i hc
      refine ⟨rfl, by simp only [List.length_take, List.length_append]; omega, ?_, hab, ?_⟩
      · intro w t ht
        rw [← h.bits w t ht]
        congr 1
        simp only [WordSet.wordAt, List.getD_eq_getElem?_getD]
        by_cases hw : w < b.set.length
        · rw [List.getElem?_take_of_lt (by rw [h.words] at hw; omega), List.getElem?_append_left hw]
        · rw [List.getElem?_eq_none (l := b.set) (by omega)]
          cases hx : (List.take (BitSet.wordsNeeded (i + 1)) (b.set ++ b.spare))[w]? with
          | none => rfl
          | some x =>
            rw [List.getElem?_take] at hx
            split at hx
            · rw [List.getElem?_append_right (by omega)] at hx
              exact h.spare x (List.mem_of_getElem? hx)
            · cases hx
      · intro x hx
        rw [List.drop_append] at hx
        simp only [List.mem_append] at hx
        rcases hx with hx | hx
        · rw [List.drop_eq_nil_of_le (by rw [h.words]; exact hmono)] at hx; cases hx
        · exact h.spare x (List.mem_of_mem_drop hx)
    · split
      · rename_i hc hl
        refine ⟨rfl, by simp only [List.length_append, List.length_replicate]; omega, ?_, hab, ?_⟩
        · intro w t ht
          rw [← h.bits w t ht]
          congr 1
          simp only [WordSet.wordAt, List.getD_eq_getElem?_getD]
          by_cases hw : w < b.set.length
          · rw [List.getElem?_append_left hw]
          · rw [List.getElem?_eq_none (l := b.set) (by omega), List.getElem?_append_right (by omega), List.getElem?_replicate]
            split <;> rfl
        · intro x hx; exact (List.mem_replicate.1 hx).2
      · rename_i hc hl
        refine ⟨rfl, ?_, h.bits, hab, h.spare⟩
        have := h.words
        simp only
        omega
  · exact h

theorem holds_insert {b : WordSet} {m : Nat → Bool} {n : Nat} (h : Holds b m n) (i : Nat) :
    Holds (b.insert i) (fun j => m j || decide (j = i)) (if i ≥ n then i + 1 else n) := by
  have he := holds_extend h i
  unfold WordSet.insert
  generalize b.extendMaybe i = c at he
  generalize hn : (if i ≥ n then i + 1 else n) = n' at he ⊢
  have hin : i < n' := by subst hn; split <;> omega
  have hiw : i / 64 < c.set.length := by rw [he.words]; simp only [BitSet.wordsNeeded]; omega
  refine ⟨he.length, by simp only [List.length_set]; exact he.words, ?_, ?_, he.spare⟩
  · intro w t ht
    simp only [WordSet.wordAt, List.getD_eq_getElem?_getD, List.getElem?_set]
    by_cases hw : i / 64 = w
    · subst hw
      rw [if_pos rfl, if_pos hiw]
      simp only [Option.getD_some, BitVec.getLsbD_or]
      have h1 := he.bits (i / 64) t ht
      simp only [WordSet.wordAt, List.getD_eq_getElem?_getD] at h1
      rw [h1]
      congr 1
      simp only [BitVec.getLsbD_shiftLeft, BitVec.getLsbD_one, BitVec.ofNat_eq_ofNat]
      have hmod := Nat.div_add_mod i 64
      by_cases hti : t = i % 64
      · have : 64 * (i / 64) + t = i := by omega
        simp [hti, Nat.mod_lt]; omega
      · have : 64 * (i / 64) + t ≠ i := by omega
        have h2 : ¬ (¬ t < i % 64 ∧ t - i % 64 = 0) := by omega
        simp only [this, decide_false]
        by_cases h3 : t < i % 64
        · simp [h3]
        · have : t - i % 64 ≠ 0 := by omega
          simp [this]
    · rw [if_neg hw]
      have h1 := he.bits w t ht
      simp only [WordSet.wordAt, List.getD_eq_getElem?_getD] at h1
      rw [h1]
      have : 64 * w + t ≠ i := by omega
      simp [this]
  · intro j hj
    simp only [he.above j hj, Bool.false_or, decide_eq_false_iff_not]
    omega

/-- The least bit set. -/
theorem trailingZeros_spec {w : BitVec 64} (h : w ≠ 0) :
    WordSet.trailingZeros w < 64 ∧ w.getLsbD (WordSet.trailingZeros w) = true ∧ ∀ t, t < WordSet.trailingZeros w → w.getLsbD t = false := by
  unfold WordSet.trailingZeros
  cases hf : (List.range 64).find? (fun t => w.getLsbD t) with
  | none =>
    exfalso
    apply h
    apply BitVec.eq_of_getLsbD_eq
    intro j hj
    have := List.find?_eq_none.1 hf j (List.mem_range.2 hj)
    simpa using this
  | some t =>
    simp only [Option.getD_some]
    obtain ⟨h1, as, bs, h2, h3⟩ := List.find?_eq_some_iff_append.1 hf
    have hlt : t < 64 := List.mem_range.1 (by rw [h2]; simp)
    refine ⟨hlt, h1, ?_⟩
    intro s hs
    have hlen : as.length = t := by
      have h4 : (List.range 64)[as.length]? = some t := by rw [h2]; simp
      rw [List.getElem?_range] at h4
      · exact Option.some.inj h4
      · have : as.length < (List.range 64).length := by rw [h2]; simp
        simpa using this
    have h5 : as[s]? = some s := by
      have h4 : (List.range 64)[s]? = some s := List.getElem?_range (by omega)
      rw [h2, List.getElem?_append_left (by omega)] at h4
      exact h4
    have := h3 s (List.mem_of_getElem? h5)
    simpa using this

theorem complement_ne_zero {w : BitVec 64} (h : w ≠ BitVec.allOnes 64) : ~~~ w ≠ 0 := by
  intro he
  apply h
  have := congrArg (fun v => ~~~ v) he
  simpa using this

/-- The answer for the numbers from `i` on. -/
def ClearFrom (m : Nat → Bool) (n i : Nat) : Option Nat → Prop
  | none => ∀ k, i ≤ k → k < n → m k = true
  | some j => i ≤ j ∧ j < n ∧ m j = false ∧ ∀ k, i ≤ k → k < j → m k = true

theorem clearFrom_skip {m : Nat → Bool} {n i i' : Nat} {r : Option Nat} (hi : i ≤ i') (hm : ∀ k, i ≤ k → k < i' → m k = true)
    (h : ClearFrom m n i' r) : ClearFrom m n i r := by
  cases r with
  | none => intro k h1 h2; exact if hk : k < i' then hm k h1 hk else h k (by omega) h2
  | some j =>
    obtain ⟨h1, h2, h3, h4⟩ := h
    exact ⟨by omega, h2, h3, fun k k1 k2 => if hk : k < i' then hm k k1 hk else h4 k (by omega) k2⟩

theorem nextClearLoop_spec {b : WordSet} {m : Nat → Bool} {n : Nat} (h : Holds b m n) : ∀ k x, x + k = b.set.length →
    ClearFrom m n (64 * x) (b.nextClearLoop k x) := by
  intro k
  induction k with
  | zero =>
    intro x hx j h1 h2
    have := h.words
    simp only [BitSet.wordsNeeded] at this
    omega
  | succ k ih =>
    intro x hx
    unfold WordSet.nextClearLoop
    simp only [h.length]
    by_cases hw : b.wordAt x = BitVec.allOnes 64
    · rw [if_neg (by simp [hw])]
      refine clearFrom_skip (by omega) ?_ (ih (x + 1) (by omega))
      intro j h1 h2
      have := h.bits x (j - 64 * x) (by omega)
      rw [hw, show 64 * x + (j - 64 * x) = j by omega] at this
      rw [← this]
      rw [BitVec.getLsbD_allOnes]; exact decide_eq_true (by omega)
    · obtain ⟨t1, t2, t3⟩ := trailingZeros_spec (complement_ne_zero hw)
      generalize WordSet.trailingZeros (~~~ b.wordAt x) = t at t1 t2 t3
      have c1 : m (64 * x + t) = false := by
        rw [← h.bits x t t1]
        simpa [t1] using t2
      have c2 : ∀ j, 64 * x ≤ j → j < 64 * x + t → m j = true := by
        intro j h1 h2
        have := h.bits x (j - 64 * x) (by omega)
        rw [show 64 * x + (j - 64 * x) = j by omega] at this
        rw [← this]
        have h3 := t3 (j - 64 * x) (by omega)
        simp only [BitVec.getLsbD_not, Bool.and_eq_false_iff, decide_eq_false_iff_not] at h3
        rcases h3 with h3 | h3
        · omega
        · simpa using h3
      by_cases hn : x * 64 + t < n
      · rw [if_pos ⟨hw, hn⟩]
        rw [show x * 64 + t = 64 * x + t by omega] at hn ⊢
        exact ⟨by omega, hn, c1, c2⟩
      · rw [if_neg (by simp [hn])]
        have hr := ih (x + 1) (by omega)
        generalize b.nextClearLoop k (x + 1) = r at hr
        cases r with
        | none => intro j h1 h2; exact c2 j h1 (by omega)
        | some j => have := hr.1; have := hr.2.1; omega

theorem holds_nextClear {b : WordSet} {m : Nat → Bool} {n : Nat} (h : Holds b m n) (i : Nat) : ClearFrom m n i (b.nextClear i) := by
  unfold WordSet.nextClear
  simp only [h.length]
  have hwords := h.words
  simp only [BitSet.wordsNeeded] at hwords
  have hdm := Nat.div_add_mod i 64
  have hmod : i % 64 < 64 := Nat.mod_lt _ (by omega)
  by_cases hx : i / 64 ≥ b.set.length
  · rw [if_pos hx]
    intro k h1 h2
    omega
  · rw [if_neg hx]
    have hbit : ∀ t, t < 64 - i % 64 → (b.wordAt (i / 64) >>> (i % 64)).getLsbD t = m (i + t) := by
      intro t ht
      rw [BitVec.getLsbD_ushiftRight, h.bits _ _ (by omega)]
      congr 1
      omega
    by_cases hw : b.wordAt (i / 64) >>> (i % 64) = BitVec.allOnes 64 >>> (i % 64)
    · rw [if_neg (by simp [hw])]
      refine clearFrom_skip (i' := 64 * (i / 64 + 1)) (by omega) ?_ (nextClearLoop_spec h _ _ (by omega))
      intro k h1 h2
      have := hbit (k - i) (by omega)
      rw [hw, show i + (k - i) = k by omega] at this
      rw [← this, BitVec.getLsbD_ushiftRight]
      rw [BitVec.getLsbD_allOnes]; exact decide_eq_true (by omega)
    · have hne : ~~~ (b.wordAt (i / 64) >>> (i % 64)) ≠ 0 := by
        apply complement_ne_zero
        intro he
        apply hw
        by_cases hz : i % 64 = 0
        · rw [he, hz]; rfl
        · have := congrArg (fun v => v.getLsbD 63) he
          simp only [BitVec.getLsbD_ushiftRight] at this
          rw [BitVec.getLsbD_of_ge _ _ (by omega)] at this
          simp at this
      obtain ⟨t1, t2, t3⟩ := trailingZeros_spec hne
      have hlow : WordSet.trailingZeros (~~~ (b.wordAt (i / 64) >>> (i % 64))) < 64 - i % 64 := by
        false_or_by_contra
        rename_i hge
        apply hw
        apply BitVec.eq_of_getLsbD_eq
        intro j hj
        by_cases hj' : j < 64 - i % 64
        · have h3 := t3 j (by omega)
          simp only [BitVec.getLsbD_not, Bool.and_eq_false_iff, decide_eq_false_iff_not] at h3
          rcases h3 with h3 | h3
          · omega
          · rw [Bool.not_eq_false'] at h3
            rw [h3, BitVec.getLsbD_ushiftRight]
            rw [BitVec.getLsbD_allOnes]; exact (decide_eq_true (by omega)).symm
        · rw [BitVec.getLsbD_ushiftRight, BitVec.getLsbD_ushiftRight, BitVec.getLsbD_of_ge _ _ (by omega), BitVec.getLsbD_of_ge _ _ (by omega)]
      generalize WordSet.trailingZeros (~~~ (b.wordAt (i / 64) >>> (i % 64))) = t at t1 t2 t3 hlow
      have c1 : m (i + t) = false := by
        rw [← hbit t hlow]
        simpa only [BitVec.getLsbD_not, t1, decide_true, Bool.true_and, Bool.not_eq_true'] using t2
      have c2 : ∀ j, i ≤ j → j < i + t → m j = true := by
        intro j h1 h2
        have := hbit (j - i) (by omega)
        rw [show i + (j - i) = j by omega] at this
        rw [← this]
        have h3 := t3 (j - i) (by omega)
        simp only [BitVec.getLsbD_not, Bool.and_eq_false_iff, decide_eq_false_iff_not] at h3
        rcases h3 with h3 | h3
        · omega
        · simpa using h3
      by_cases hn : i + t < n
      · rw [if_pos ⟨hw, hn⟩]
        exact ⟨by omega, hn, c1, c2⟩
      · rw [if_neg (by simp [hn])]
        have hr := nextClearLoop_spec h (b.set.length - (i / 64 + 1)) (i / 64 + 1) (by omega)
        generalize b.nextClearLoop (b.set.length - (i / 64 + 1)) (i / 64 + 1) = r at hr
        cases r with
        | none => intro j h1 h2; exact c2 j h1 (by omega)
        | some j => have := hr.1; have := hr.2.1; omega

theorem count_words (m : Nat → Bool) : ∀ (ws : List (BitVec 64)) (x a : Nat), (∀ w t, t < 64 → (ws.getD w 0).getLsbD t = m (64 * (x + w) + t)) →
    ws.foldl (fun n w => n + WordSet.popcount w) a = a + ((List.range' (64 * x) (64 * ws.length)).filter m).length := by
  intro ws
  induction ws with
  | nil => intro x a _; simp
  | cons w ws ih =>
    intro x a h
    rw [List.foldl_cons, ih (x + 1) _ (by
      intro k t ht
      have := h (k + 1) t ht
      rw [List.getD_cons_succ] at this
      rw [this]
      congr 1; omega)]
    have hpop : WordSet.popcount w = ((List.range' (64 * x) 64).filter m).length := by
      unfold WordSet.popcount
      rw [List.range'_eq_map_range, List.filter_map, List.length_map]
      congr 1
      apply List.filter_congr
      intro t ht
      have := h 0 t (List.mem_range.1 ht)
      rw [List.getD_cons_zero] at this
      rw [this]; rfl
    rw [hpop, show 64 * (w :: ws).length = 64 + 64 * ws.length by simp only [List.length_cons]; omega, ← List.range'_append_1, List.filter_append,
      List.length_append, show 64 * x + 64 = 64 * (x + 1) by omega]
    omega

theorem holds_all {b : WordSet} {m : Nat → Bool} {n : Nat} (h : Holds b m n) : b.all = true ↔ ∀ i, i < n → m i = true := by
  have hc : b.count = ((List.range n).filter m).length := by
    unfold WordSet.count
    rw [count_words m b.set 0 0 (by intro w t ht; rw [Nat.zero_add]; exact h.bits w t ht), Nat.zero_add, Nat.mul_zero]
    have hw := h.words
    simp only [BitSet.wordsNeeded] at hw
    rw [List.range_eq_range', show 64 * b.set.length = n + (64 * b.set.length - n) by omega, ← List.range'_append_1, List.filter_append,
      List.length_append]
    have : (List.range' (0 + n) (64 * b.set.length - n)).filter m = [] := by
      rw [List.filter_eq_nil_iff]
      intro j hj
      have := (List.mem_range'_1.1 hj).1
      rw [h.above j (by omega)]
      simp
    rw [this]
    rfl
  have := BitSet.all_iff ⟨n, m⟩
  unfold BitSet.all BitSet.count at this
  unfold WordSet.all
  rw [hc, h.length]
  exact this

/-- C140, a call at a time: the result is the specified one and the words hold the new set. -/
theorem holds_call {b : WordSet} {m : Nat → Bool} {n : Nat} (h : Holds b m n) (op : BitOp) :
    Returns (fun i => m i = true) n op (b.call op).2 ∧
    Holds (b.call op).1 (fun j => m j || decide (.set j = op)) (match op with | .set i => if i ≥ n then i + 1 else n | _ => n) := by
  cases op with
  | set i =>
    refine ⟨.set, ?_⟩
    have := holds_insert h i
    simpa only [BitOp.set.injEq, WordSet.call] using this
  | test i => exact ⟨.test (by rw [holds_test h]), by simpa [WordSet.call] using h⟩
  | nextClear i =>
    refine ⟨?_, by simpa [WordSet.call] using h⟩
    have := holds_nextClear h i
    simp only [WordSet.call]
    generalize b.nextClear i = r at this
    cases r with
    | none => exact .notFound this
    | some j => exact .found this.1 this.2.1 (by rw [this.2.2.1]; simp) this.2.2.2
  | all => exact ⟨.all (holds_all h), by simpa [WordSet.call] using h⟩

theorem calls_spec {b : WordSet} {m : Nat → Bool} {n : Nat} (h : Holds b m n) (ops : List BitOp) : ∀ before op after, ops = before ++ op :: after →
    ∃ r k, (b.calls ops)[before.length]? = some r ∧ IsSize n before k ∧ Returns (Member (fun i => m i = true) before) k op r := by
  have key : ∀ (before : List BitOp) (b : WordSet) (m : Nat → Bool) (n : Nat), Holds b m n → ∀ op after,
      ∃ r k, (b.calls (before ++ op :: after))[before.length]? = some r ∧ IsSize n before k ∧ Returns (Member (fun i => m i = true) before) k op r := by
    intro before
    induction before with
    | nil =>
      intro b m n h op after
      refine ⟨_, n, rfl, ⟨Nat.le_refl _, by simp, .inl rfl⟩, ?_⟩
      have : Member (fun i => m i = true) [] = fun i => m i = true := by funext i; simp [Member]
      rw [this]
      exact (holds_call h op).1
    | cons o before ih =>
      intro b m n h op after
      obtain ⟨_, h2⟩ := holds_call h o
      obtain ⟨r, k, h3, ⟨h4, h5, h6⟩, h7⟩ := ih _ _ _ h2 op after
      refine ⟨r, k, h3, ⟨?_, ?_, ?_⟩, ?_⟩
      · refine Nat.le_trans ?_ h4
        cases o with
        | set i => simp only; split <;> omega
        | _ => exact Nat.le_refl _
      · intro i hi
        rcases List.mem_cons.1 hi with rfl | hi
        · refine Nat.lt_of_lt_of_le ?_ h4
          simp only; split <;> omega
        · exact h5 i hi
      · rcases h6 with h6 | ⟨h6, h8⟩
        · cases o with
          | set i =>
            simp only at h6
            split at h6
            · exact .inr ⟨by rw [h6, Nat.add_sub_cancel]; exact List.mem_cons_self, by omega⟩
            · exact .inl h6
          | _ => exact .inl h6
        · exact .inr ⟨List.mem_cons_of_mem _ h6, h8⟩
      · have : Member (fun i => (m i || decide (.set i = o)) = true) before = Member (fun i => m i = true) (o :: before) := by
          funext i
          simp only [Member, List.mem_cons, Bool.or_eq_true, decide_eq_true_eq, or_assoc]
        rw [this] at h7
        exact h7
  intro before op after he
  subst he
  exact key before b m n h op after

/-- C140: on a new set for `n` pieces, after any calls, `Test` says whether the piece was set, `NextClear` finds the least piece that was not,
and `All` says whether all were. -/
theorem C140_new (n : Nat) (before : List BitOp) (op : BitOp) (after : List BitOp) :
    ∃ r k, ((WordSet.new n).calls (before ++ op :: after))[before.length]? = some r ∧ IsSize n before k ∧ Returns (Member (fun _ => False) before) k op r := by
  obtain ⟨r, k, h1, h2, h3⟩ := calls_spec (holds_new n) _ before op after rfl
  refine ⟨r, k, h1, h2, ?_⟩
  have : (fun i : Nat => (fun _ : Nat => false) i = true) = fun _ => False := by funext i; simp
  rw [this] at h3
  exact h3

/-- C140: the same for a set made of words, whose members are the bits of the words. -/
theorem C140_from (buf : List (BitVec 64)) (before : List BitOp) (op : BitOp) (after : List BitOp) :
    ∃ r k, ((WordSet.fromBuf buf).calls (before ++ op :: after))[before.length]? = some r ∧ IsSize (64 * buf.length) before k ∧
      Returns (Member (fun i => ∃ w, buf[i / 64]? = some w ∧ w.getLsbD (i % 64) = true) before) k op r := by
  obtain ⟨r, k, h1, h2, h3⟩ := calls_spec (holds_from buf) _ before op after rfl
  refine ⟨r, k, h1, h2, ?_⟩
  have : (fun i : Nat => (buf.getD (i / 64) 0).getLsbD (i % 64) = true) = fun i => ∃ w, buf[i / 64]? = some w ∧ w.getLsbD (i % 64) = true := by
    funext i
    rw [List.getD_eq_getElem?_getD]
    cases buf[i / 64]? <;> simp
  rw [this] at h3
  exact h3

theorem clearFrom_unique {m : Nat → Bool} {n i : Nat} {r r' : Option Nat} (h : ClearFrom m n i r) (h' : ClearFrom m n i r') : r = r' := by
  cases r with
  | none =>
    cases r' with
    | none => rfl
    | some j => exact absurd (h j h'.1 h'.2.1) (by rw [h'.2.2.1]; simp)
  | some k =>
    cases r' with
    | none => exact absurd (h' k h.1 h.2.1) (by rw [h.2.2.1]; simp)
    | some j =>
      rcases Nat.lt_trichotomy k j with hk | hk | hk
      · exact absurd (h'.2.2.2 k h.1 hk) (by rw [h.2.2.1]; simp)
      · rw [hk]
      · exact absurd (h.2.2.2 j h'.1 hk) (by rw [h'.2.2.1]; simp)

theorem abstract_nextClear (b : BitSet) (i : Nat) : ClearFrom b.bit b.len i (b.nextClear i) := by
  cases hf : b.nextClear i with
  | none => exact BitSet.nextClear_none hf
  | some j => exact BitSet.nextClear_some hf

/-- C140: the words do what the sets do that all other properties are stated with (Model/BitSet.lean). -/
theorem C140_model {b : WordSet} {s : BitSet} (h : Holds b s.bit s.len) (ops : List BitOp) : b.calls ops = s.calls ops := by
  induction ops generalizing b s with
  | nil => rfl
  | cons op ops ih =>
    cases op with
    | set i =>
      have := holds_insert h i
      have hs : (fun j => s.bit j || decide (j = i)) = (s.set i).bit := by
        funext j
        simp only [BitSet.set]
        by_cases hj : j = i <;> simp [hj]
      rw [hs] at this
      show BitResult.done :: (b.insert i).calls ops = BitResult.done :: (s.set i).calls ops
      rw [ih (s := s.set i) this]
    | test i =>
      show BitResult.bool (b.test i) :: b.calls ops = BitResult.bool (s.test i) :: s.calls ops
      have : s.test i = s.bit i := by
        unfold BitSet.test
        split
        · rename_i hi; exact (h.above i hi).symm
        · rfl
      rw [ih h, holds_test h, this]
    | nextClear i =>
      show BitResult.index (b.nextClear i) :: b.calls ops = BitResult.index (s.nextClear i) :: s.calls ops
      rw [ih h, clearFrom_unique (holds_nextClear h i) (abstract_nextClear s i)]
    | all =>
      show BitResult.bool b.all :: b.calls ops = BitResult.bool s.all :: s.calls ops
      rw [ih h]
      have h1 := holds_all h
      rw [← BitSet.all_iff] at h1
      rw [show b.all = s.all by cases hb : b.all <;> cases hs : s.all <;> simp_all]

theorem C140_model_new (n : Nat) (ops : List BitOp) : (WordSet.new n).calls ops = (BitSet.new n).calls ops :=
  C140_model (s := BitSet.new n) (holds_new n) ops

theorem C140_model_from (buf : List (BitVec 64)) (ops : List BitOp) :
    (WordSet.fromBuf buf).calls ops = (BitSet.fromWords (buf.map BitVec.toNat)).calls ops := by
  refine C140_model (s := BitSet.fromWords (buf.map BitVec.toNat)) ?_ ops
  have h := holds_from buf
  have e : (BitSet.fromWords (buf.map BitVec.toNat)).bit = fun i => (buf.getD (i / 64) 0).getLsbD (i % 64) := by
    funext i
    simp only [BitSet.fromWords, List.getD_eq_getElem?_getD, List.getElem?_map]
    cases buf[i / 64]? <;> simp [BitVec.testBit_toNat]
  rw [e, show (BitSet.fromWords (buf.map BitVec.toNat)).len = 64 * buf.length by simp [BitSet.fromWords]]
  exact h

/-- 70 pieces in two words; then piece 130, for which the words do not suffice. -/
example : (WordSet.new 70).calls ([.set 0, .set 69, .nextClear 0, .test 69, .test 68, .all] ++ [.set 130, .test 130, .test 129, .nextClear 69]) =
    [.done, .done, .index (some 1), .bool true, .bool false, .bool false, .done, .bool true, .bool false, .index (some 70)] := by
  decide +kernel

example : ∃ r k, ((WordSet.new 2).calls ([.set 0, .set 1] ++ .all :: []))[2]? = some r ∧ IsSize 2 [.set 0, .set 1] k ∧
    Returns (Member (fun _ => False) [.set 0, .set 1]) k .all r := C140_new 2 [.set 0, .set 1] .all []

/-- **C140.** The sets of a torrent (torrent.go:103-104, 261) have room for exactly its pieces, up to 2^51 pieces; for more the set is empty, since its
words would need more than 2^48 bytes. -/
theorem C140_room (n : Int) (h0 : 0 ≤ n) (h1 : n < 2 ^ 63) :
    (bitsetNew n).len = if n ≤ 2 ^ 51 then n.toNat else 0 := by
  have hm : n % 2 ^ 64 = n := Int.emod_eq_of_lt h0 (by omega)
  unfold bitsetNew
  simp only [hm, BitSet.wordsNeeded, gt_iff_lt]
  by_cases h : n ≤ 2 ^ 51
  · rw [if_pos h, if_neg (by omega)]; rfl
  · rw [if_neg h, if_pos (by omega)]; rfl

example : (bitsetNew 70).len = 70 := C140_room 70 (by omega) (by omega)

end Gotit.Props
