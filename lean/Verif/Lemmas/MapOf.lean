import Verif.Spec.Bencode
/-
  Inserting pairs one by one into a map gives the map of the pairs.
-/
namespace Gotit
open Spec

theorem distinct_mem {k : Bytes} : ∀ {ks : List Bytes}, k ∈ distinct ks ↔ k ∈ ks := by
  intro ks
  induction ks with
  | nil => simp [distinct]
  | cons k' ks ih =>
    simp only [distinct, List.mem_cons, List.mem_filter, ih, decide_eq_true_eq]
    constructor
    · rintro (h | ⟨h, _⟩)
      · exact .inl h
      · exact .inr h
    · rintro (h | h)
      · exact .inl h
      · by_cases hk : k = k'
        · exact .inl hk
        · exact .inr ⟨h, hk⟩

theorem distinct_nodup : ∀ ks : List Bytes, (distinct ks).Nodup := by
  intro ks
  induction ks with
  | nil => simp [distinct]
  | cons k ks ih =>
    simp only [distinct, List.nodup_cons, List.mem_filter, decide_eq_true_eq, ne_eq, not_true, and_false, not_false_eq_true, true_and]
    exact ih.sublist List.filter_sublist

theorem distinct_snoc (k : Bytes) : ∀ ks : List Bytes, distinct (ks ++ [k]) = if k ∈ ks then distinct ks else distinct ks ++ [k] := by
  intro ks
  induction ks with
  | nil => simp [distinct]
  | cons k' ks ih =>
    simp only [List.cons_append, distinct, ih, List.mem_cons]
    by_cases h : k ∈ ks
    · simp [h]
    · simp only [h, or_false, if_false]
      by_cases hk : k = k'
      · subst hk; simp [List.filter_append]
      · simp [hk, List.filter_append]

theorem upsert_map (k : Bytes) (v : Bencode) (g : Bytes → Bencode) : ∀ ks : List Bytes, ks.Nodup →
    upsert k v (ks.map fun x => (x, g x)) =
      (if k ∈ ks then ks else ks ++ [k]).map fun x => (x, if x = k then v else g x) := by
  intro ks
  induction ks with
  | nil => intro _; simp [upsert]
  | cons a ks ih =>
    intro hn
    simp only [List.nodup_cons] at hn
    simp only [List.map_cons, upsert, List.mem_cons]
    by_cases h : a = k
    · subst h
      simp only [if_true, true_or, List.map_cons]
      congr 1
      apply List.map_congr_left
      intro x hx
      rw [if_neg]
      intro e; subst e; exact hn.1 hx
    · rw [if_neg h, ih hn.2]
      have : ¬ k = a := fun e => h e.symm
      simp only [this, false_or]
      split <;> simp [h]

theorem lastValue_snoc (k : Bytes) (es : List (Bytes × Bencode)) (e : Bytes × Bencode) :
    lastValue k (es ++ [e]) = if k = e.1 then e.2 else lastValue k es := by
  unfold lastValue
  rw [List.reverse_append]
  simp only [List.reverse_cons, List.reverse_nil, List.nil_append, List.cons_append, List.find?_cons]
  by_cases h : e.1 = k
  · simp [h]
  · have : ¬ k = e.1 := fun e' => h e'.symm
    simp [h, this]

theorem mapOf_snoc (es : List (Bytes × Bencode)) (e : Bytes × Bencode) : mapOf (es ++ [e]) = upsert e.1 e.2 (mapOf es) := by
  unfold mapOf
  rw [upsert_map _ _ _ _ (distinct_nodup _), List.map_append, List.map_cons, List.map_nil, distinct_snoc]
  simp only [distinct_mem, lastValue_snoc]

theorem foldl_upsert (es : List (Bytes × Bencode)) : es.foldl (fun m e => upsert e.1 e.2 m) [] = mapOf es := by
  have : ∀ l : List (Bytes × Bencode), l.reverse.foldl (fun m e => upsert e.1 e.2 m) [] = mapOf l.reverse := by
    intro l
    induction l with
    | nil => rfl
    | cons e l ih => rw [List.reverse_cons, List.foldl_append, ih, mapOf_snoc]; rfl
  have := this es.reverse
  rwa [List.reverse_reverse] at this

end Gotit
