import Verif.Spec.Canonical
import Verif.Lemmas.Encode
import Verif.Lemmas.Num
/-
  C80: encodings and the order of keys.
-/
namespace Gotit.Props
open Gotit Spec

theorem encodeList_append (a b : List Bencode) : encodeList (a ++ b) = encodeList a ++ encodeList b := by
  induction a with
  | nil => rfl
  | cons v a ih => cases v <;> simp [encodeList, ih]

theorem encodeEntries_append (a b : List (Bytes × Bencode)) : encodeEntries (a ++ b) = encodeEntries a ++ encodeEntries b := by
  induction a with
  | nil => rfl
  | cons v a ih =>
    obtain ⟨k, v⟩ := v
    cases v <;> simp [encodeEntries, ih]

theorem encodeList_one (v : Bencode) : encodeList [v] = v.encode := by cases v <;> simp [encodeList, Bencode.encode]

theorem encodeEntries_one (k : Bytes) (v : Bencode) : encodeEntries [(k, v)] = if v.isNil then [] else encodeStr k ++ v.encode := by
  cases v <;> simp [encodeEntries, Bencode.isNil]

/-- Entries without a value do not matter. -/
theorem encodeEntries_live (kvs : List (Bytes × Bencode)) : encodeEntries kvs = encodeEntries (kvs.filter (fun e => !e.2.isNil)) := by
  induction kvs with
  | nil => rfl
  | cons e kvs ih =>
    obtain ⟨k, v⟩ := e
    cases v <;> simp [encodeEntries, Bencode.isNil, ih]

/-- The text of a key determines the key. -/
theorem encodeStr_prefix {k k' x y : Bytes} (h : encodeStr k ++ x = encodeStr k' ++ y) : k = k' := by
  have split : ∀ (a b : Bytes), IsDigits a → IsDigits b → ∀ r r', a ++ 58 :: r = b ++ 58 :: r' → a = b ∧ r = r' := by
    intro a
    induction a with
    | nil =>
      intro b _ hb r r' he
      cases b with
      | nil => simpa using he
      | cons c b =>
        have h1 := hb c (by simp)
        simp only [List.nil_append, List.cons_append, List.cons.injEq] at he
        rw [← he.1] at h1
        exact absurd h1 (by decide)
    | cons c a ih =>
      intro b ha hb r r' he
      cases b with
      | nil =>
        have h1 := ha c (by simp)
        simp only [List.nil_append, List.cons_append, List.cons.injEq] at he
        rw [he.1] at h1
        exact absurd h1 (by decide)
      | cons d b =>
        simp only [List.cons_append, List.cons.injEq] at he
        obtain ⟨h1, h2⟩ := ih b (fun d hd => ha d (by simp [hd])) (fun d hd => hb d (by simp [hd])) r r' he.2
        exact ⟨by rw [he.1, h1], h2⟩
  have hi : ∀ s : Bytes, itoa (s.length : Int) = natDigits s.length := by
    intro s; rw [itoa_nonneg _ (by omega)]; simp
  unfold encodeStr at h
  rw [hi, hi, List.append_assoc, List.append_assoc, List.cons_append, List.cons_append] at h
  obtain ⟨d1, d2⟩ := natDigits_spec k.length
  obtain ⟨e1, e2⟩ := natDigits_spec k'.length
  obtain ⟨g1, g2⟩ := split _ _ d1 e1 _ _ h
  have hl : k.length = k'.length := by rw [← d2, ← e2, g1]
  exact (List.append_inj g2 hl).1

theorem reorder_nil {v w : Bencode} (h : Reorder v w) : v.isNil = w.isNil := by
  induction h with
  | refl => rfl
  | trans _ _ h1 h2 => exact h1.trans h2
  | dict => rfl
  | inList => rfl
  | inDict => rfl

theorem noTwoKeys_perm {a b : List (Bytes × Bencode)} (h : a.Perm b) (ha : (liveKeys a).length ≤ 1) :
    encodeEntries a = encodeEntries b ∧ (liveKeys b).length ≤ 1 := by
  have hp := h.filter (fun e => !e.2.isNil)
  have hl := hp.length_eq
  simp only [liveKeys, List.length_map] at ha ⊢
  refine ⟨?_, hl ▸ ha⟩
  rw [encodeEntries_live a, encodeEntries_live b]
  cases hf : a.filter (fun e => !e.2.isNil) with
  | nil => rw [hf] at hp; rw [List.nil_perm.1 hp]
  | cons x l =>
    rw [hf] at hp ha
    have : l = [] := List.length_eq_zero_iff.1 (by simp only [List.length_cons] at ha; omega)
    subst this
    rw [List.singleton_perm.1 hp]

theorem liveKeys_replace {a b : List (Bytes × Bencode)} {k : Bytes} {v v' : Bencode} (h : v.isNil = v'.isNil) :
    liveKeys (a ++ (k, v) :: b) = liveKeys (a ++ (k, v') :: b) := by
  simp only [liveKeys, List.filter_append, List.filter_cons, h]
  split <;> simp

/-- If there are never two keys, the order does not matter. -/
theorem reorder_same {v w : Bencode} (h : Reorder v w) : NoTwoKeys v → w.encode = v.encode ∧ NoTwoKeys w := by
  induction h with
  | refl => exact fun h => ⟨rfl, h⟩
  | trans _ _ h1 h2 =>
    intro h
    obtain ⟨a, b⟩ := h1 h
    obtain ⟨c, d⟩ := h2 b
    exact ⟨c.trans a, d⟩
  | dict ptr raw hp =>
    intro h
    obtain ⟨a, b⟩ := noTwoKeys_perm hp (h _ _ _ (.refl _))
    refine ⟨by simp only [Bencode.encode, a], ?_⟩
    intro ptr' kvs'' raw' hs
    cases hs with
    | refl => exact b
    | dict _ _ hm hs => exact h _ _ _ (.dict _ _ (hp.mem_iff.2 hm) hs)
  | @inList v v' ptr a b raw hr ih =>
    intro h
    obtain ⟨c, d⟩ := ih (fun p k r hs => h p k r (.list _ _ (by simp) hs))
    refine ⟨?_, ?_⟩
    · have e : ∀ x : Bencode, a ++ x :: b = a ++ ([x] ++ b) := fun _ => rfl
      simp only [Bencode.encode]
      rw [e v, e v', encodeList_append, encodeList_append, encodeList_append, encodeList_append, encodeList_one, encodeList_one, c]
    · intro ptr' kvs raw' hs
      cases hs with
      | list _ _ hm hs =>
        rcases List.mem_append.1 hm with hm | hm
        · exact h _ _ _ (.list _ _ (by simp [hm]) hs)
        · rcases List.mem_cons.1 hm with hm | hm
          · subst hm; exact d _ _ _ hs
          · exact h _ _ _ (.list _ _ (by simp [hm]) hs)
  | @inDict v v' ptr a b k raw hr ih =>
    intro h
    obtain ⟨c, d⟩ := ih (fun p k' r hs => h p k' r (.dict (k := k) _ _ (List.mem_append_right _ (List.mem_cons_self)) hs))
    have hn := reorder_nil hr
    refine ⟨?_, ?_⟩
    · have e : ∀ x : Bencode, a ++ (k, x) :: b = a ++ ([(k, x)] ++ b) := fun _ => rfl
      simp only [Bencode.encode]
      rw [e v, e v', encodeEntries_append, encodeEntries_append, encodeEntries_append, encodeEntries_append, encodeEntries_one,
        encodeEntries_one, c, hn]
    · intro ptr' kvs raw' hs
      cases hs with
      | refl =>
        rw [← liveKeys_replace hn]
        exact h _ _ _ (.refl _)
      | dict _ _ hm hs =>
        rcases List.mem_append.1 hm with hm | hm
        · exact h _ _ _ (.dict _ _ (List.mem_append_left _ hm) hs)
        · rcases List.mem_cons.1 hm with hm | hm
          · cases hm; exact d _ _ _ hs
          · exact h _ _ _ (.dict _ _ (List.mem_append_right _ (List.mem_cons_of_mem _ hm)) hs)

/-- A dictionary with two keys has two texts. -/
theorem two_keys_differ (ptr : Bool) (kvs : List (Bytes × Bencode)) (raw : Bytes) (hn : (kvs.map Prod.fst).Nodup)
    (h2 : 2 ≤ (liveKeys kvs).length) : ∃ kvs', kvs.Perm kvs' ∧ encodeEntries kvs' ≠ encodeEntries kvs := by
  obtain ⟨l, hl⟩ : ∃ l, l = kvs.filter (fun e => !e.2.isNil) := ⟨_, rfl⟩
  simp only [liveKeys, List.length_map, ← hl] at h2
  match l, hl, h2 with
  | x :: y :: l, hl, _ =>
    obtain ⟨dead, hd⟩ : ∃ d, d = kvs.filter (fun e => !(!e.2.isNil)) := ⟨_, rfl⟩
    have hp : kvs.Perm ((x :: y :: l) ++ dead) := by
      rw [hl, hd]; exact (List.filter_append_perm _ _).symm
    have hp2 : ((x :: y :: l) ++ dead).Perm ((y :: x :: l) ++ dead) := (List.Perm.swap y x l).append_right dead
    have hx : x.2.isNil = false := by
      have : x ∈ kvs.filter (fun e => !e.2.isNil) := by rw [← hl]; simp
      simpa using (List.mem_filter.1 this).2
    have hy : y.2.isNil = false := by
      have : y ∈ kvs.filter (fun e => !e.2.isNil) := by rw [← hl]; simp
      simpa using (List.mem_filter.1 this).2
    have hk : x.1 ≠ y.1 := by
      have hs : ((x :: y :: l).map Prod.fst).Nodup := by
        rw [hl]; exact List.Nodup.sublist (List.filter_sublist.map _) hn
      simp only [List.map_cons, List.nodup_cons, List.mem_cons, not_or] at hs
      exact hs.1.1
    have hne : encodeEntries ((x :: y :: l) ++ dead) ≠ encodeEntries ((y :: x :: l) ++ dead) := by
      intro he
      have e : ∀ (a : Bytes × Bencode) r, encodeEntries (a :: r) = encodeEntries [a] ++ encodeEntries r := fun a r => encodeEntries_append [a] r
      rw [List.cons_append, List.cons_append, List.cons_append, List.cons_append, e x, e y (x :: _), encodeEntries_one, encodeEntries_one, hx, hy] at he
      simp only [Bool.false_eq_true, if_false, List.append_assoc] at he
      exact hk (encodeStr_prefix he)
    by_cases h1 : encodeEntries ((x :: y :: l) ++ dead) = encodeEntries kvs
    · exact ⟨_, hp.trans hp2, fun h => hne (h1.trans h.symm)⟩
    · exact ⟨_, hp, h1⟩

/-- A difference inside is a difference. -/
theorem sub_differ {x v : Bencode} (hs : Sub x v) : ∀ x', Reorder x x' → x'.encode ≠ x.encode →
    ∃ v', Reorder v v' ∧ v'.encode ≠ v.encode := by
  induction hs with
  | refl => exact fun x' h1 h2 => ⟨x', h1, h2⟩
  | @list v vs ptr raw hm _ ih =>
    intro x' h1 h2
    obtain ⟨v', g1, g2⟩ := ih x' h1 h2
    obtain ⟨a, b, rfl⟩ := List.append_of_mem hm
    refine ⟨_, .inList ptr a b raw g1, ?_⟩
    intro h
    simp only [Bencode.encode] at h
    have e : ∀ x : Bencode, a ++ x :: b = a ++ ([x] ++ b) := fun _ => rfl
    rw [e v, e v', encodeList_append, encodeList_append, encodeList_append, encodeList_append, encodeList_one, encodeList_one] at h
    simp at h
    exact g2 h
  | @dict v kvs k ptr raw hm _ ih =>
    intro x' h1 h2
    obtain ⟨v', g1, g2⟩ := ih x' h1 h2
    obtain ⟨a, b, rfl⟩ := List.append_of_mem hm
    refine ⟨_, .inDict ptr a b k raw g1, ?_⟩
    intro h
    have hn := reorder_nil g1
    simp only [Bencode.encode] at h
    have e : ∀ x : Bencode, a ++ (k, x) :: b = a ++ ([(k, x)] ++ b) := fun _ => rfl
    rw [e v, e v', encodeEntries_append, encodeEntries_append, encodeEntries_append, encodeEntries_append, encodeEntries_one,
      encodeEntries_one, hn] at h
    cases hv : v'.isNil with
    | true =>
      have e1 : v' = .nil := by cases v' <;> simp_all [Bencode.isNil]
      have e2 : v = .nil := by rw [hv] at hn; cases v <;> simp_all [Bencode.isNil]
      exact g2 (by rw [e1, e2])
    | false =>
      rw [hv] at h
      simp at h
      exact g2 h

/-- C80, exact: the text of an element is determined exactly if no dictionary in it has two keys. -/
theorem C80_determined_partial (v : Bencode) (hv : OneEntryPerKey v) : (∀ w, Reorder v w → w.encode = v.encode) ↔ NoTwoKeys v := by
  constructor
  · intro h ptr kvs raw hs
    rcases Nat.lt_or_ge (liveKeys kvs).length 2 with h2 | h2
    · omega
    · exfalso
      obtain ⟨kvs', p1, p2⟩ := two_keys_differ ptr kvs raw (hv _ _ _ hs) h2
      obtain ⟨v', g1, g2⟩ := sub_differ hs _ (.dict ptr raw p1) (by
        intro e
        simp only [Bencode.encode] at e
        simp at e
        exact p2 e)
      exact g2 (h v' g1)
  · exact fun h w hw => (reorder_same hw h).1

/-- C80 is false of the code: every element with a dictionary of two or more keys in it has two texts. -/
theorem C80_violated (v : Bencode) (hv : OneEntryPerKey v) (ptr : Bool) (kvs : List (Bytes × Bencode)) (raw : Bytes)
    (hs : Sub (.dict ptr kvs raw) v) (h2 : 2 ≤ (liveKeys kvs).length) : ∃ w, Reorder v w ∧ w.encode ≠ v.encode := by
  apply Classical.byContradiction
  intro h
  have := (C80_determined_partial v hv).1 (by
    intro w hw
    apply Classical.byContradiction
    intro hne
    exact h ⟨w, hw, hne⟩) ptr kvs raw hs
  omega

theorem bytesLt_asymm : ∀ {a b : Bytes}, bytesLt a b = true → bytesLt b a = false := by
  intro a
  induction a with
  | nil => intro b _; cases b <;> rfl
  | cons x a ih =>
    intro b h
    cases b with
    | nil => cases h
    | cons y b =>
      simp only [bytesLt, Bool.or_eq_true, Bool.and_eq_true, decide_eq_true_eq, beq_iff_eq] at h
      simp only [bytesLt, Bool.or_eq_false_iff, Bool.and_eq_false_iff, decide_eq_false_iff_not, beq_eq_false_iff_ne]
      rcases h with h | ⟨h1, h2⟩
      · exact ⟨UInt8.lt_asymm h, .inl (fun e => by rw [e] at h; exact UInt8.lt_irrefl _ h)⟩
      · subst h1
        exact ⟨UInt8.lt_irrefl _, .inr (ih h2)⟩

/-- C80, the order: every dictionary of two or more keys is also written with its keys out of order. -/
theorem C80_order_violated (kvs : List (Bytes × Bencode)) (h2 : 2 ≤ (liveKeys kvs).length) : ∃ kvs', kvs.Perm kvs' ∧ ¬ SortedKeys kvs' := by
  by_cases hs : SortedKeys kvs
  · refine ⟨kvs.reverse, (List.reverse_perm kvs).symm, ?_⟩
    intro hr
    unfold SortedKeys liveKeys at hs hr
    rw [List.filter_reverse, List.map_reverse, List.pairwise_reverse] at hr
    have he : liveKeys kvs = (kvs.filter (fun e => !e.2.isNil)).map Prod.fst := rfl
    rw [← he] at hs hr
    match h : liveKeys kvs with
    | [] => rw [h] at h2; simp at h2
    | [x] => rw [h] at h2; simp at h2
    | x :: y :: l =>
      rw [h] at hs hr
      have h1 := (List.pairwise_cons.1 hs).1 y (by simp)
      have h2 := (List.pairwise_cons.1 hr).1 y (by simp)
      rw [bytesLt_asymm h1] at h2
      cases h2
  · exact ⟨kvs, .refl _, hs⟩

/-- Two texts of one dictionary: `d1:ai1e1:bi2ee` and `d1:bi2e1:ai1ee`. -/
example : OneEntryPerKey (.dict false [([97], .int 1), ([98], .int 2)] []) ∧
    Reorder (.dict false [([97], .int 1), ([98], .int 2)] []) (.dict false [([98], .int 2), ([97], .int 1)] []) ∧
    2 ≤ (liveKeys [([97], .int 1), ([98], .int 2)]).length := by
  refine ⟨?_, .dict _ _ (.swap _ _ _), by decide⟩
  intro p kvs raw hs
  cases hs with
  | refl => decide
  | dict _ _ hm hs =>
    simp at hm
    rcases hm with ⟨-, rfl⟩ | ⟨-, rfl⟩ <;> cases hs

/-- A list of dictionaries with one key each has one text. -/
example : NoTwoKeys (.list false [.dict false [([97], .int 1), ([98], .nil)] [], .int 3] []) := by
  intro p kvs raw hs
  cases hs with
  | list _ _ hm hs =>
    simp at hm
    rcases hm with rfl | rfl
    · cases hs with
      | refl => decide
      | dict _ _ hm hs =>
        simp at hm
        rcases hm with ⟨-, rfl⟩ | ⟨-, rfl⟩ <;> cases hs
    · cases hs

end Gotit.Props
