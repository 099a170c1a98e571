import Verif.Lemmas.ParseTop
namespace Gotit
open Spec

theorem upsert_new {k : Bytes} {v : Bencode} {m : List (Bytes × Bencode)} (h : k ∉ m.map Prod.fst) :
    upsert k v m = m ++ [(k, v)] := by
  induction m with
  | nil => rfl
  | cons e m ih =>
    obtain ⟨k', v'⟩ := e
    simp only [List.map_cons, List.mem_cons, not_or] at h
    rw [upsert, if_neg (fun e => h.1 e.symm), ih h.2]; rfl

theorem foldl_upsert_nodup (es m : List (Bytes × Bencode)) (h : ((m ++ es).map Prod.fst).Nodup) :
    es.foldl (fun m e => upsert e.1 e.2 m) m = m ++ es := by
  induction es generalizing m with
  | nil => simp
  | cons e es ih =>
    simp only [List.foldl_cons]
    have hn : e.1 ∉ m.map Prod.fst := by
      simp only [List.map_append, List.map_cons, List.nodup_append] at h
      intro hm
      exact h.2.2 _ hm _ (List.mem_cons_self) rfl
    rw [upsert_new hn, ih]
    · simp
    · simpa using h

theorem mapOf_nodup {es : List (Bytes × Bencode)} (h : (es.map Prod.fst).Nodup) : mapOf es = es := by
  have := foldl_upsert_nodup es [] (by simpa using h)
  rw [foldl_upsert] at this
  simpa using this

theorem denotes_encodeStr (s : Bytes) (h : s.length ≤ maxNumber) : Denotes (encodeStr s) (.str s) := by
  have hi : itoa (s.length : Int) = natDigits s.length := by
    rw [itoa_nonneg _ (by omega)]; simp
  unfold encodeStr
  rw [hi]
  obtain ⟨h1, h2⟩ := natDigits_spec s.length
  exact .str _ _ h1 (by rw [machineNumber_of_le _ (by omega), h2])

theorem Spec.Same.ne_nil {v w : Bencode} (h : Same v w) : v ≠ .nil := by cases h <;> simp

theorem sameEntries_keys {kvs es} (h : SameEntries kvs es) : (es.map Prod.fst).Sublist (kvs.map Prod.fst) := by
  induction es generalizing kvs with
  | nil => simp
  | cons e es ih =>
    induction kvs with
    | nil => cases h
    | cons e' kvs ihk =>
      cases h with
      | skip h => exact (ihk h).trans (List.sublist_cons_self _ _)
      | cons _ h => exact (ih h).cons_cons _

mutual
theorem encode_denotes : ∀ (v : Bencode), v ≠ .nil → Encodable v → ∃ w, Denotes v.encode w ∧ Same v w
  | .nil, h, _ => absurd rfl h
  | .int n, _, he => by
    have hn := he _ (.refl _)
    simp only [EncodableHead] at hn
    refine ⟨.int n, ?_, .int n⟩
    obtain ⟨h1, h2⟩ := natDigits_spec n.toNat
    have hm : machineNumber (natDigits n.toNat) = n := by
      rw [machineNumber_of_le _ (by omega), h2]; omega
    simp only [Bencode.encode, itoa_nonneg n hn.1]
    have := Denotes.int _ h1
    rwa [hm] at this
  | .str s, _, he => ⟨.str s, denotes_encodeStr s (he _ (.refl _)), .str s⟩
  | .list p vs r, _, he => by
    obtain ⟨ws, h1, h2⟩ := encodeList_denotes vs (fun v hv x hx => he x (.list p r hv hx))
    exact ⟨_, .list _ _ h1, .list h2⟩
  | .dict p kvs r, _, he => by
    have hh := he _ (.refl _)
    simp only [EncodableHead] at hh
    obtain ⟨es, h1, h2⟩ := encodeEntries_denotes kvs (fun e hv x hx => he x (.dict p r hv hx)) hh.2
    refine ⟨_, .dict _ _ h1, ?_⟩
    rw [mapOf_nodup (List.Nodup.sublist (sameEntries_keys h2) hh.1)]
    exact .dict h2
theorem encodeList_denotes : ∀ (vs : List Bencode), (∀ v ∈ vs, Encodable v) →
    ∃ ws, DenotesSeq (encodeList vs) ws ∧ SameSeq vs ws
  | [], _ => ⟨[], by rw [encodeList]; exact .nil, .nil⟩
  | v :: vs, he => by
    obtain ⟨ws, h1, h2⟩ := encodeList_denotes vs (fun v hv => he v (List.mem_cons_of_mem _ hv))
    by_cases hv : v = .nil
    · subst hv
      exact ⟨ws, by rw [encodeList]; exact h1, .skip h2⟩
    · obtain ⟨w, h3, h4⟩ := encode_denotes v hv (he v List.mem_cons_self)
      refine ⟨w :: ws, ?_, .cons h4 h2⟩
      rw [encodeList]
      · exact .cons _ _ _ _ h3 h1
      · exact hv
theorem encodeEntries_denotes : ∀ (kvs : List (Bytes × Bencode)), (∀ e ∈ kvs, Encodable e.2) →
    (∀ e ∈ kvs, e.1.length ≤ maxNumber) → ∃ es, DenotesEntries (encodeEntries kvs) es ∧ SameEntries kvs es
  | [], _, _ => ⟨[], by rw [encodeEntries]; exact .nil, .nil⟩
  | (k, v) :: kvs, he, hk => by
    obtain ⟨ws, h1, h2⟩ := encodeEntries_denotes kvs (fun v hv => he v (List.mem_cons_of_mem _ hv))
      (fun v hv => hk v (List.mem_cons_of_mem _ hv))
    by_cases hv : v = .nil
    · subst hv
      exact ⟨ws, by rw [encodeEntries]; exact h1, .skip h2⟩
    · obtain ⟨w, h3, h4⟩ := encode_denotes v hv (he (k, v) List.mem_cons_self)
      refine ⟨(k, w) :: ws, ?_, .cons h4 h2⟩
      rw [encodeEntries]
      · rw [List.append_assoc]
        exact .cons _ _ _ _ _ _ (denotes_encodeStr k (hk (k, v) List.mem_cons_self)) h3 h1
      · exact hv
end

/-! ### dictionaries -/

theorem lookup_upsert (k k' : Bytes) (v : Bencode) (m : List (Bytes × Bencode)) :
    lookupKey k (upsert k' v m) = if k' = k then v else lookupKey k m := by
  induction m with
  | nil => simp [upsert, lookupKey]
  | cons e m ih =>
    obtain ⟨k2, v2⟩ := e
    simp only [upsert, lookupKey]
    split
    · rename_i h; subst h; simp only [lookupKey]; split <;> rfl
    · simp only [lookupKey, ih]
      split
      · rename_i h1 h2; subst h2; rw [if_neg (fun e => h1 e.symm)]
      · rfl

theorem lookup_foldl (k : Bytes) (es m : List (Bytes × Bencode)) :
    lookupKey k (es.foldl (fun m e => upsert e.1 e.2 m) m) =
      match es.reverse.find? (fun e => decide (e.1 = k)) with
      | some e => e.2
      | none => lookupKey k m := by
  induction es generalizing m with
  | nil => rfl
  | cons e es ih =>
    simp only [List.foldl_cons, List.reverse_cons, List.find?_append]
    rw [ih]
    cases List.find? (fun e => decide (e.fst = k)) es.reverse with
    | some e' => rfl
    | none =>
      simp only [Option.none_or, lookup_upsert, List.find?_cons, List.find?_nil]
      split
      · simp [*]
      · simp [*]

theorem lookup_mapOf (k : Bytes) (es : List (Bytes × Bencode)) : lookupKey k (mapOf es) = lastValue k es := by
  rw [← foldl_upsert]
  unfold lastValue
  rw [lookup_foldl]; rfl

theorem upsert_mem {k : Bytes} {v : Bencode} {m : List (Bytes × Bencode)} {e} (h : e ∈ upsert k v m) :
    e = (k, v) ∨ e ∈ m := by
  induction m with
  | nil => simp [upsert] at h; exact .inl h
  | cons e' m ih =>
    obtain ⟨k', v'⟩ := e'
    simp only [upsert] at h
    split at h
    · rcases List.mem_cons.1 h with h | h
      · exact .inl h
      · exact .inr (List.mem_cons_of_mem _ h)
    · rcases List.mem_cons.1 h with h | h
      · exact .inr (h ▸ List.mem_cons_self)
      · rcases ih h with h | h
        · exact .inl h
        · exact .inr (List.mem_cons_of_mem _ h)

theorem foldl_upsert_mem {es m : List (Bytes × Bencode)} {e}
    (h : e ∈ es.foldl (fun m e => upsert e.1 e.2 m) m) : e ∈ es ∨ e ∈ m := by
  induction es generalizing m with
  | nil => exact .inr h
  | cons e' es ih =>
    rcases ih h with h | h
    · exact .inl (List.mem_cons_of_mem _ h)
    · rcases upsert_mem h with h | h
      · exact .inl (h ▸ List.mem_cons_self)
      · exact .inr h

theorem mapOf_mem {es : List (Bytes × Bencode)} {e} (h : e ∈ mapOf es) : e ∈ es := by
  rw [← foldl_upsert] at h
  rcases foldl_upsert_mem h with h | h
  · exact h
  · simp at h

theorem upsert_keys {k : Bytes} {v : Bencode} {m : List (Bytes × Bencode)} (h : (m.map Prod.fst).Nodup) :
    ((upsert k v m).map Prod.fst).Nodup := by
  induction m with
  | nil => simp [upsert]
  | cons e' m ih =>
    obtain ⟨k', v'⟩ := e'
    simp only [List.map_cons, List.nodup_cons] at h
    simp only [upsert]
    split
    · rename_i hk; subst hk; simpa using h
    · rename_i hk
      simp only [List.map_cons, List.nodup_cons]
      refine ⟨?_, ih h.2⟩
      intro hm
      obtain ⟨e, he, hek⟩ := List.mem_map.1 hm
      rcases upsert_mem he with he | he
      · subst he; exact hk hek.symm
      · exact h.1 (List.mem_map.2 ⟨e, he, hek⟩)

theorem mapOf_keys (es : List (Bytes × Bencode)) : ((mapOf es).map Prod.fst).Nodup := by
  rw [← foldl_upsert]
  suffices ∀ m : List (Bytes × Bencode), (m.map Prod.fst).Nodup →
      ((es.foldl (fun m e => upsert e.1 e.2 m) m).map Prod.fst).Nodup from this [] (by simp)
  intro m hm
  induction es generalizing m with
  | nil => exact hm
  | cons e es ih => exact ih _ (upsert_keys hm)

theorem Spec.Denotes.val_ne_nil {b : Bytes} {v : Bencode} (h : Denotes b v) : v ≠ .nil := by
  cases h <;> simp

theorem denotesEntries_mem {b : Bytes} {es} (h : DenotesEntries b es) {e} (he : e ∈ es) :
    ∃ pre vb post, b = pre ++ (vb ++ post) ∧ Denotes vb e.2 := by
  induction es generalizing b with
  | nil => simp at he
  | cons e' es ih =>
    cases h with
    | cons kb vb bs k v _ hk hv hs =>
      rcases List.mem_cons.1 he with rfl | he
      · exact ⟨kb, vb, bs, rfl, hv⟩
      · obtain ⟨pre, vb', post, rfl, h⟩ := ih hs he
        exact ⟨kb ++ (vb ++ pre), vb', post, by simp, h⟩

theorem denotesSeq_mem {b : Bytes} {vs} (h : DenotesSeq b vs) {v} (he : v ∈ vs) :
    ∃ pre vb post, b = pre ++ (vb ++ post) ∧ Denotes vb v := by
  induction vs generalizing b with
  | nil => simp at he
  | cons e' es ih =>
    cases h with
    | cons vb bs v' _ hv hs =>
      rcases List.mem_cons.1 he with rfl | he
      · exact ⟨[], vb, bs, rfl, hv⟩
      · obtain ⟨pre, vb', post, rfl, h⟩ := ih hs he
        exact ⟨vb ++ pre, vb', post, by simp, h⟩

/-- Every element inside a parsed value has its own text inside the document. -/
theorem sub_denotes {x v : Bencode} (hs : Sub x v) : ∀ {b : Bytes}, Denotes b v →
    ∃ pre xb post, b = pre ++ (xb ++ post) ∧ Denotes xb x := by
  induction hs with
  | refl => intro b h; exact ⟨[], b, [], by simp, h⟩
  | list ptr raw hm _ ih =>
    intro b h
    cases h with
    | list body vs hv =>
      obtain ⟨p1, vb, q1, rfl, h1⟩ := denotesSeq_mem hv hm
      obtain ⟨p2, xb, q2, rfl, h2⟩ := ih h1
      exact ⟨108 :: p1 ++ p2, xb, q2 ++ q1 ++ [101], by simp, h2⟩
  | dict ptr raw hm _ ih =>
    intro b h
    cases h with
    | dict body vs hv =>
      obtain ⟨p1, vb, q1, rfl, h1⟩ := denotesEntries_mem hv (mapOf_mem hm)
      obtain ⟨p2, xb, q2, rfl, h2⟩ := ih h1
      exact ⟨100 :: p1 ++ p2, xb, q2 ++ q1 ++ [101], by simp, h2⟩

theorem lastValue_nil_iff {b : Bytes} {es} (h : DenotesEntries b es) (k : Bytes) :
    lastValue k es = .nil ↔ k ∉ es.map Prod.fst := by
  unfold lastValue
  constructor
  · intro hn hm
    obtain ⟨e, he, rfl⟩ := List.mem_map.1 hm
    split at hn
    · rename_i e' he'
      have := List.mem_of_find?_eq_some he'
      obtain ⟨_, _, _, _, hd⟩ := denotesEntries_mem h (List.mem_reverse.1 this)
      exact hd.val_ne_nil hn
    · rename_i hnone
      have := List.find?_eq_none.1 hnone e (List.mem_reverse.2 he)
      simp at this
  · intro hn
    split
    · rename_i e' he'
      have h1 := List.mem_of_find?_eq_some he'
      have h2 := List.find?_some he'
      simp at h2
      exact absurd (List.mem_map.2 ⟨e', List.mem_reverse.1 h1, h2⟩) hn
    · rfl

/-! ### fuel does not matter -/
theorem mono_aux : ∀ f : Nat,
    (∀ bs, pNext f bs ≠ .outOfFuel → pNext (f+1) bs = pNext f bs) ∧
    (∀ bs, pList f bs ≠ .outOfFuel → pList (f+1) bs = pList f bs) ∧
    (∀ bs, pSeq f bs ≠ .outOfFuel → pSeq (f+1) bs = pSeq f bs) ∧
    (∀ bs, pDict f bs ≠ .outOfFuel → pDict (f+1) bs = pDict f bs) ∧
    (∀ m bs, pEntries f m bs ≠ .outOfFuel → pEntries (f+1) m bs = pEntries f m bs) := by
  have bindne : ∀ {α β : Type} {x : PRes α} {g : α → PRes β}, x.bind g ≠ .outOfFuel → x ≠ .outOfFuel := by
    intro α β x g h e; subst e; simp [PRes.bind] at h
  have bindcong : ∀ {α β : Type} {x y : PRes α} {g g' : α → PRes β}, y.bind g ≠ .outOfFuel → x = y →
      (∀ a, y = .ok a → g a ≠ .outOfFuel → g' a = g a) → x.bind g' = y.bind g := by
    intro α β x y g g' h e hg
    subst e
    cases x <;> simp_all [PRes.bind]
  intro f
  induction f with
  | zero => simp [pNext, pList, pSeq, pDict, pEntries]
  | succ f ih =>
    obtain ⟨ihN, ihL, ihS, ihD, ihE⟩ := ih
    refine ⟨?_, ?_, ?_, ?_, ?_⟩
    · intro bs h
      rw [pNext] at h ⊢
      rw [pNext]
      split
      · rename_i h1; rw [if_pos h1] at h; exact ihL _ h
      · rename_i h1; rw [if_neg h1] at h
        split
        · rename_i h2; rw [if_pos h2] at h; exact ihD _ h
        · rfl
    · intro bs h
      rw [pList] at h ⊢
      rw [pList]
      exact bindcong h (ihS _ (bindne h)) (fun a _ _ => rfl)
    · intro bs h
      rw [pSeq] at h ⊢
      rw [pSeq]
      split
      · rfl
      · rename_i h1; rw [if_neg h1] at h
        refine bindcong h (ihN _ (bindne h)) ?_
        rintro ⟨v, r⟩ _ h2
        exact bindcong h2 (ihS _ (bindne h2)) (fun a _ _ => rfl)
    · intro bs h
      rw [pDict] at h ⊢
      rw [pDict]
      exact bindcong h (ihE _ _ (bindne h)) (fun a _ _ => rfl)
    · intro m bs h
      rw [pEntries] at h ⊢
      rw [pEntries]
      split
      · rfl
      · rename_i h1; rw [if_neg h1] at h
        refine bindcong h rfl ?_
        rintro ⟨v, r⟩ _ h2
        refine bindcong h2 (ihN _ (bindne h2)) ?_
        rintro ⟨v', r'⟩ _ h3
        exact ihE _ _ h3

theorem pNext_mono {f g : Nat} {bs : Bytes} (h : pNext f bs ≠ .outOfFuel) (hg : f ≤ g) :
    pNext g bs = pNext f bs := by
  induction hg with
  | refl => rfl
  | step _ ih =>
    rw [← ih]
    exact (mono_aux _).1 _ (by rw [ih]; exact h)

end Gotit
