import Verif.Spec.HttpTracker
/-
  Lemmas about numbers in text, the compact peer form and query strings.
-/
namespace Gotit
open Spec

/-! ### Port numbers -/

theorem digitVal_lt_ten10 (c : UInt8) : (∃ d, digitVal c = some d ∧ d < 10) ↔ (48 ≤ c ∧ c ≤ 57) := by
  constructor
  · rintro ⟨d, h, hd⟩
    simp only [digitVal] at h
    split at h
    · assumption
    · split at h
      · simp only [Option.some.injEq] at h; omega
      · simp at h
  · rintro ⟨h1, h2⟩
    refine ⟨(c - 48).toNat, by simp [digitVal, h1, h2], ?_⟩
    simp only [UInt8.le_iff_toNat_le] at h1 h2
    rw [UInt8.toNat_sub_of_le _ _ (by rw [UInt8.le_iff_toNat_le]; exact h1)]
    have : (48 : UInt8).toNat = 48 := rfl
    have : (57 : UInt8).toNat = 57 := rfl
    omega

theorem digitVal_digit10 {c : UInt8} (h : 48 ≤ c ∧ c ≤ 57) : digitVal c = some (c.toNat - 48) := by
  simp only [digitVal, h, and_self, if_true]
  rw [UInt8.toNat_sub_of_le _ _ h.1]; rfl

theorem fold_mono (s : Bytes) : ∀ n, n ≤ s.foldl (fun a c => a * 10 + (c.toNat - 48)) n := by
  induction s with
  | nil => intro n; exact Nat.le_refl _
  | cons c s ih =>
    intro n
    simp only [List.foldl_cons]
    exact Nat.le_trans (by omega) (ih _)

theorem parseDigits10_iff (M : Nat) (s : Bytes) : ∀ n m, n ≤ M →
    (parseDigits10 M s n = .ok m ↔
      (s.all (fun c => 48 ≤ c && c ≤ 57) = true ∧ s.foldl (fun a c => a * 10 + (c.toNat - 48)) n = m ∧ m ≤ M)) := by
  induction s with
  | nil =>
    intro n m hn
    simp only [parseDigits10, List.all_nil, List.foldl_nil, true_and, Except.ok.injEq]
    constructor
    · rintro rfl; exact ⟨rfl, hn⟩
    · exact fun h => h.1
  | cons c s ih =>
    intro n m hn
    rw [parseDigits10]
    by_cases hc : 48 ≤ c ∧ c ≤ 57
    · have hd := digitVal_digit10 hc
      have hlt : c.toNat - 48 < 10 := by
        have := hc.2; rw [UInt8.le_iff_toNat_le] at this
        have : (57 : UInt8).toNat = 57 := rfl
        omega
      rw [hd]
      simp only [show ¬ (c.toNat - 48 ≥ 10) from by omega, if_false]
      have hall : (c :: s).all (fun c => 48 ≤ c && c ≤ 57) = s.all (fun c => 48 ≤ c && c ≤ 57) := by
        simp [List.all_cons, hc.1, hc.2]
      rw [hall]
      simp only [List.foldl_cons]
      by_cases hr : n * 10 + (c.toNat - 48) > M
      · rw [if_pos hr]
        constructor
        · intro h; simp at h
        · rintro ⟨_, h2, h3⟩
          have := fold_mono s (n * 10 + (c.toNat - 48))
          omega
      · rw [if_neg hr]
        exact ih _ _ (by omega)
    · have hall : (c :: s).all (fun c => 48 ≤ c && c ≤ 57) = false := by
        rw [List.all_cons]
        have : (decide (48 ≤ c) && decide (c ≤ 57)) = false := by
          rw [Bool.eq_false_iff]; simp only [ne_eq, Bool.and_eq_true, decide_eq_true_eq]; exact hc
        rw [this]; rfl
      rw [hall]
      simp only [Bool.false_eq_true, false_and, iff_false]
      cases hv : digitVal c with
      | none => simp
      | some d =>
        by_cases hd : d ≥ 10
        · simp [hd]
        · exact absurd ((digitVal_lt_ten10 c).1 ⟨d, hv, by omega⟩) hc

theorem parseUint10_port (s : Bytes) (n : Nat) : parseUint10 s 16 = .ok n ↔ portNumber s = some n := by
  unfold parseUint10 portNumber
  by_cases hs : s = []
  · simp [hs]
  · rw [if_neg hs, parseDigits10_iff _ _ _ _ (by omega)]
    split
    · rename_i h
      simp only [Option.some.injEq]
      constructor
      · exact fun h' => h'.2.1
      · intro h'; exact ⟨h.2.1, h', by omega⟩
    · rename_i h
      simp only [reduceCtorEq, iff_false]
      rintro ⟨h1, h2, h3⟩
      exact h ⟨hs, h1, by omega⟩

/-! ### Compact peers -/

theorem compact_cons (a b c d p q : UInt8) (rest : Bytes) :
    parseCompactPeers (a :: b :: c :: d :: p :: q :: rest) =
      ⟨some (.v4 a b c d), p.toNat * 256 + q.toNat⟩ :: parseCompactPeers rest := by
  have hl : (a :: b :: c :: d :: p :: q :: rest).length / 6 = rest.length / 6 + 1 := by
    simp only [List.length_cons]; omega
  unfold parseCompactPeers
  rw [hl, List.range_succ_eq_map, List.map_cons, List.map_map]
  refine List.cons_eq_cons.2 ⟨?_, ?_⟩
  · simp [compactPeer, byteAt, getBE]
  · apply List.map_congr_left
    intro i _
    have e : ∀ k, 6 * (i + 1) + k = (6 * i + k) + 6 := by omega
    have e0 : 6 * (i + 1) = (6 * i) + 6 := by omega
    simp only [Function.comp, compactPeer, byteAt, Nat.succ_eq_add_one, e, e0, List.getD_cons_succ, List.drop_succ_cons]

theorem compact_short (tail : Bytes) (h : tail.length < 6) : parseCompactPeers tail = [] := by
  unfold parseCompactPeers
  rw [Nat.div_eq_of_lt h]; rfl

/-! ### Query strings -/

theorem queryEscape_mem (s : Bytes) : ∀ c ∈ queryEscape s, unreserved c = true ∨ c = 43 ∨ c = 37 := by
  have hhex : ∀ d, d < 16 → unreserved (upperHex d) = true := by decide
  induction s with
  | nil => intro c h; simp [queryEscape] at h
  | cons x s ih =>
    intro c h
    rw [queryEscape] at h
    split at h
    · rename_i hx
      rcases List.mem_cons.1 h with rfl | h
      · exact .inl hx
      · exact ih c h
    · split at h
      · rcases List.mem_cons.1 h with rfl | h
        · exact .inr (.inl rfl)
        · exact ih c h
      · rcases List.mem_cons.1 h with rfl | h
        · exact .inr (.inr rfl)
        rcases List.mem_cons.1 h with rfl | h
        · exact .inl (hhex _ (by have := UInt8.toNat_lt x; omega))
        rcases List.mem_cons.1 h with rfl | h
        · exact .inl (hhex _ (by omega))
        · exact ih c h

theorem queryEscape_clean (s : Bytes) (c : UInt8) (hc : c ∈ queryEscape s) : c ≠ 38 ∧ c ≠ 61 ∧ c ≠ 35 ∧ c ≠ 63 := by
  rcases queryEscape_mem s c hc with h | rfl | rfl
  · refine ⟨?_, ?_, ?_, ?_⟩ <;> rintro rfl <;> simp [unreserved] at h
  · decide
  · decide

theorem hexVal_upperHex : ∀ d, d < 16 → hexVal (upperHex d) = some d := by decide

theorem formDecode_plain (c : UInt8) (cs : Bytes) (h : c ≠ 37) :
    formDecode (c :: cs) = (formDecode cs).map (fun r => (if c = 43 then 32 else c) :: r) := by
  rw [formDecode.eq_def]
  split
  · rename_i h'; cases h'
  · rename_i h'; injection h' with h1 _; exact absurd h1 h
  · rename_i c' cs' _ h'
    injection h' with h1 h2
    subst h1; subst h2
    rw [if_neg h]
    cases formDecode cs <;> rfl

theorem formDecode_queryEscape (s : Bytes) : formDecode (queryEscape s) = some s := by
  induction s with
  | nil => simp [queryEscape, formDecode]
  | cons x s ih =>
    rw [queryEscape]
    split
    · rename_i hx
      have h1 : x ≠ 37 := by rintro rfl; simp [unreserved] at hx
      have h2 : x ≠ 43 := by rintro rfl; simp [unreserved] at hx
      rw [formDecode_plain _ _ h1, ih]; simp [h2]
    · split
      · rename_i _ hx
        subst hx
        rw [formDecode_plain _ _ (by decide), ih]; rfl
      · have hx := UInt8.toNat_lt x
        rw [formDecode, hexVal_upperHex _ (by omega), hexVal_upperHex _ (by omega), ih]
        simp only [Option.some.injEq, List.cons.injEq, and_true]
        rw [Nat.div_add_mod]; simp

theorem takeWhile_append_stop {p : UInt8 → Bool} (a b : Bytes) (x : UInt8) (ha : ∀ c ∈ a, p c = true) (hx : p x = false) :
    (a ++ x :: b).takeWhile p = a ∧ (a ++ x :: b).dropWhile p = x :: b := by
  induction a with
  | nil => simp [hx]
  | cons c a ih =>
    have h1 := ha c List.mem_cons_self
    have h2 := ih (fun c h => ha c (List.mem_cons_of_mem _ h))
    simp [h1, h2.1, h2.2]

theorem takeWhile_all {p : UInt8 → Bool} (a : Bytes) (ha : ∀ c ∈ a, p c = true) :
    a.takeWhile p = a ∧ a.dropWhile p = [] := by
  induction a with
  | nil => simp
  | cons c a ih =>
    have h1 := ha c List.mem_cons_self
    have h2 := ih (fun c h => ha c (List.mem_cons_of_mem _ h))
    simp [h1, h2.1, h2.2]

theorem formPair_encodePair (e : Bytes × Bytes) : formPair (encodePair e) = some e := by
  have h := takeWhile_append_stop (p := fun c => decide (c ≠ 61)) (queryEscape e.1) (queryEscape e.2) 61
    (fun c hc => by simp [(queryEscape_clean _ c hc).2.1]) (by simp)
  unfold formPair encodePair
  rw [h.1, h.2]
  simp [formDecode_queryEscape]

theorem splitAt_ne_nil (sep : UInt8) (s : Bytes) : splitAt sep s ≠ [] := by
  cases s with
  | nil => simp [splitAt]
  | cons c s => rw [splitAt]; split; · simp
                split <;> simp

theorem splitAt_clean (sep : UInt8) (a : Bytes) (ha : ∀ c ∈ a, c ≠ sep) : splitAt sep a = [a] := by
  induction a with
  | nil => rfl
  | cons c a ih =>
    rw [splitAt, if_neg (ha c List.mem_cons_self), ih (fun c h => ha c (List.mem_cons_of_mem _ h))]

theorem splitAt_append (sep : UInt8) (a b : Bytes) (ha : ∀ c ∈ a, c ≠ sep) :
    splitAt sep (a ++ sep :: b) = a :: splitAt sep b := by
  induction a with
  | nil => simp [splitAt]
  | cons c a ih =>
    rw [List.cons_append, splitAt, if_neg (ha c List.mem_cons_self), ih (fun c h => ha c (List.mem_cons_of_mem _ h))]

theorem encodePair_clean (e : Bytes × Bytes) (c : UInt8) (hc : c ∈ encodePair e) : c ≠ 38 ∧ c ≠ 35 ∧ c ≠ 63 := by
  unfold encodePair at hc
  rcases List.mem_append.1 hc with h | h
  · have := queryEscape_clean _ c h; exact ⟨this.1, this.2.2⟩
  · rcases List.mem_cons.1 h with rfl | h
    · decide
    · have := queryEscape_clean _ c h; exact ⟨this.1, this.2.2⟩

theorem joinPairs_clean : ∀ (es : List (Bytes × Bytes)) (c : UInt8), c ∈ joinPairs es → c ≠ 35 ∧ c ≠ 63
  | [], c, h => by simp [joinPairs] at h
  | [e], c, h => by rw [joinPairs] at h; exact (encodePair_clean e c h).2
  | e :: e' :: es, c, h => by
    rw [joinPairs] at h
    rcases List.mem_append.1 h with h | h
    · exact (encodePair_clean e c h).2
    · rcases List.mem_cons.1 h with rfl | h
      · decide
      · exact joinPairs_clean (e' :: es) c h

theorem splitAt_joinPairs : ∀ (es : List (Bytes × Bytes)), es ≠ [] → splitAt 38 (joinPairs es) = es.map encodePair
  | [], h => absurd rfl h
  | [e], _ => by rw [joinPairs, splitAt_clean _ _ (fun c hc => (encodePair_clean e c hc).1)]; rfl
  | e :: e' :: es, _ => by
    rw [joinPairs, splitAt_append _ _ _ (fun c hc => (encodePair_clean e c hc).1),
      splitAt_joinPairs (e' :: es) (by simp)]; rfl

theorem mapM_formPair (es : List (Bytes × Bytes)) : (es.map encodePair).mapM formPair = some es := by
  induction es with
  | nil => rfl
  | cons e es ih => simp [formPair_encodePair, ih]

theorem formParams_joinPairs (es : List (Bytes × Bytes)) (h : es ≠ []) : formParams (joinPairs es) = some es := by
  unfold formParams
  rw [splitAt_joinPairs es h, mapM_formPair]

theorem insertKey_perm (e : Bytes × Bytes) (es : List (Bytes × Bytes)) : (insertKey e es).Perm (e :: es) := by
  induction es with
  | nil => exact .refl _
  | cons x es ih =>
    rw [insertKey]
    split
    · exact .refl _
    · exact (List.Perm.cons x ih).trans (List.Perm.swap e x es)

theorem sortKeys_perm (es : List (Bytes × Bytes)) : (sortKeys es).Perm es := by
  induction es with
  | nil => exact .refl _
  | cons e es ih => exact (insertKey_perm e _).trans (ih.cons e)

end Gotit
