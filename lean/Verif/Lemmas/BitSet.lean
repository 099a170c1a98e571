import Verif.Model.BitSet
namespace Gotit.BitSet

theorem nextClear_some {b : BitSet} {i j : Nat} (h : b.nextClear i = some j) :
    i ≤ j ∧ j < b.len ∧ b.bit j = false ∧ ∀ k, i ≤ k → k < j → b.bit k = true := by
  unfold nextClear at h
  rw [List.find?_eq_some_iff_append] at h
  obtain ⟨hb, as, bs, hl, has⟩ := h
  have hj : j ∈ List.range' i (b.len - i) := by rw [hl]; simp
  rw [List.mem_range'_1] at hj
  refine ⟨hj.1, by omega, by simpa using hb, ?_⟩
  intro k hik hkj
  have hk : k ∈ List.range' i (b.len - i) := by rw [List.mem_range'_1]; omega
  rw [hl] at hk
  rcases List.mem_append.1 hk with hk | hk
  · simpa using has k hk
  · exfalso
    have hs := List.pairwise_lt_range' (s := i) (n := b.len - i)
    rw [hl, List.pairwise_append] at hs
    rcases List.mem_cons.1 hk with rfl | hk
    · omega
    · have := List.rel_of_pairwise_cons hs.2.1 hk
      omega

theorem nextClear_none {b : BitSet} {i : Nat} (h : b.nextClear i = none) : ∀ k, i ≤ k → k < b.len → b.bit k = true := by
  unfold nextClear at h
  rw [List.find?_eq_none] at h
  intro k h1 h2
  have := h k (by rw [List.mem_range'_1]; omega)
  simpa using this

theorem all_iff (b : BitSet) : b.all = true ↔ ∀ i, i < b.len → b.bit i = true := by
  unfold all count
  rw [decide_eq_true_iff]
  constructor
  · intro h
    have := List.filter_sublist (l := List.range b.len) (p := b.bit)
    have e := this.eq_of_length (by rw [h, List.length_range])
    rw [List.filter_eq_self] at e
    intro i hi
    exact e i (List.mem_range.2 hi)
  · intro h
    rw [List.filter_eq_self.2]
    · simp
    · intro a ha; exact h a (List.mem_range.1 ha)

end Gotit.BitSet
