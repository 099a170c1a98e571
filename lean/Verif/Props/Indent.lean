import Verif.Spec.Indent
import Verif.Props.Shown
import Verif.Props.Unmarshal
/-
  C95: the layout of printed values.
-/
namespace Gotit.Props
open Gotit Gotit.Spec

/-! ## Lines -/

theorem pageOf_append (n : Nat) : ∀ (a b : List Line), a ≠ [] → b ≠ [] → pageOf n (a ++ b) = pageOf n a ++ 10 :: pageOf n b
  | [], _, h, _ => absurd rfl h
  | [l], b, _, hb => by
    match b, hb with
    | m :: b, _ => simp [pageOf]
  | l :: l' :: a, b, _, hb => by
    have ih := pageOf_append n (l' :: a) b (by simp) hb
    simp only [List.cons_append] at ih ⊢
    simp only [pageOf, ih, List.append_assoc, List.cons_append]

theorem comma_ne {ls : List Line} (h : ls ≠ []) : comma ls ≠ [] := by
  match ls, h with
  | [l], _ => simp [comma]
  | l :: l' :: ls, _ => simp [comma]

theorem comma_cons (l : Line) (ls : List Line) : ∃ s rest, comma (l :: ls) = (l.1, s) :: rest := by
  cases ls with
  | nil => exact ⟨_, _, rfl⟩
  | cons l' ls => exact ⟨l.2, comma (l' :: ls), rfl⟩

theorem pageOf_comma (n : Nat) : ∀ ls : List Line, ls ≠ [] → pageOf n (comma ls) = pageOf n ls ++ [44]
  | [], h => absurd rfl h
  | [l], _ => by simp [comma, pageOf]
  | l :: l' :: ls, _ => by
    have ih := pageOf_comma n (l' :: ls) (by simp)
    obtain ⟨s, rest, e⟩ := comma_cons l' ls
    rw [e] at ih
    simp only [comma]
    rw [e]
    simp only [pageOf, ih, List.append_assoc, List.cons_append]

theorem pageOf_deeper (n : Nat) : ∀ ls : List Line, pageOf n (deeper ls) = pageOf (n + 1) ls
  | [] => rfl
  | [l] => by simp [deeper, pageOf]; omega
  | l :: l' :: ls => by
    have ih := pageOf_deeper n (l' :: ls)
    simp only [deeper, List.map_cons] at ih ⊢
    simp only [pageOf, ih]
    rw [show n + (l.1 + 1) = n + 1 + l.1 by omega]

theorem pageOf_labelled (n : Nat) (k : Bytes) (s : Bytes) (ls : List Line) (x : Bytes)
    (h : pageOf n ((0, s) :: ls) = List.replicate n 9 ++ x) :
    pageOf n (labelled k ((0, s) :: ls)) = List.replicate n 9 ++ (k ++ [58, 32] ++ x) := by
  cases ls with
  | nil =>
    simp only [pageOf, labelled, Nat.add_zero, List.append_cancel_left_eq] at h ⊢
    rw [h]
  | cons l ls =>
    simp only [pageOf, labelled, Nat.add_zero, List.append_assoc, List.append_cancel_left_eq] at h ⊢
    rw [← h]

theorem bracket_head (o c : UInt8) (ls : List Line) : ∃ s rest, bracket o c ls = (0, s) :: rest := by
  unfold bracket
  split
  · exact ⟨_, _, rfl⟩
  · exact ⟨_, _, rfl⟩

theorem linesOf_head : ∀ v : Bencode, ∃ s rest, linesOf v = (0, s) :: rest
  | .nil => ⟨_, _, by rw [linesOf]⟩
  | .int _ => ⟨_, _, by rw [linesOf]⟩
  | .str _ => ⟨_, _, by rw [linesOf]⟩
  | .list _ vs _ => by rw [linesOf]; exact bracket_head _ _ _
  | .dict _ vs _ => by rw [linesOf]; exact bracket_head _ _ _

/-! ## The same value as the program would have built it -/

mutual
def unptr : Bencode → Bencode
  | .nil => .nil
  | .int n => .int n
  | .str s => .str s
  | .list _ vs r => .list false (unptrs vs) r
  | .dict _ kvs r => .dict false (unptrEntries kvs) r
def unptrs : List Bencode → List Bencode
  | [] => []
  | v :: vs => unptr v :: unptrs vs
def unptrEntries : List (Bytes × Bencode) → List (Bytes × Bencode)
  | [] => []
  | (k, v) :: kvs => (k, unptr v) :: unptrEntries kvs
end

theorem unptr_nil {v : Bencode} : unptr v = .nil ↔ v = .nil := by
  cases v <;> simp [unptr]

theorem take_snoc (l : Bytes) (x : UInt8) : (l ++ [x]).take ((l ++ [x]).length - 1) = l := by
  simp

theorem boxed_lines (o c : UInt8) (n : Nat) (ls : List Line) (body : Bytes)
    (h : List.replicate (n + 1) 9 ++ body = if ls = [] then List.replicate (n + 1) 9 else
      pageOf (n + 1) ls ++ 10 :: List.replicate (n + 1) 9) :
    pageOf n (bracket o c (deeper ls)) = List.replicate n 9 ++ boxed o c (List.replicate (n + 1) 9) body := by
  by_cases hl : ls = []
  · subst hl
    rw [if_pos rfl] at h
    have hb : body = [] := by
      have := congrArg List.length h
      simp only [List.length_append] at this
      exact List.length_eq_zero_iff.1 (by omega)
    subst hb
    rw [boxed_empty]
    simp [deeper, bracket, pageOf]
  · rw [if_neg hl] at h
    have hd : deeper ls ≠ [] := by simpa [deeper] using hl
    rw [bracket, if_neg hd, List.cons_append]
    have e1 : pageOf n ((0, [o]) :: (deeper ls ++ [(0, [c])])) =
        pageOf n ([(0, [o])] ++ (deeper ls ++ [(0, [c])])) := rfl
    rw [e1, pageOf_append n _ _ (by simp) (by simp), pageOf_append n _ _ hd (by simp), pageOf_deeper]
    have hlen : body.length = (pageOf (n + 1) ls).length + 1 + (n + 1) - (n + 1) := by
      have := congrArg List.length h
      simp only [List.length_append, List.length_replicate, List.length_cons] at this
      omega
    have hb : body ≠ [] := by intro e; rw [e] at hlen; simp at hlen
    unfold boxed
    have hdata : o :: newLine (List.replicate (n + 1) 9) ++ body =
        (o :: 10 :: (pageOf (n + 1) ls ++ 10 :: List.replicate n 9)) ++ [9] := by
      simp only [newLine, List.cons_append, h, List.append_assoc]
      rw [List.replicate_succ']
    rw [if_neg ?_, hdata, take_snoc]
    · simp [pageOf]
    · simp [newLine]; omega

mutual
theorem page_unptr : ∀ (v : Bencode) (n : Nat), pageOf n (linesOf v) = List.replicate n 9 ++ prettyPrint (unptr v) (List.replicate n 9)
  | .nil, n => by simp [linesOf, pageOf, unptr, prettyPrint]
  | .int _, n => by simp [linesOf, pageOf, unptr, prettyPrint]
  | .str _, n => by simp [linesOf, pageOf, unptr, prettyPrint]
  | .list p vs r, n => by
    rw [linesOf, unptr, pretty_list]
    simp only [if_neg (by simp : ¬ (false = true)), ← List.replicate_succ']
    exact boxed_lines _ _ n _ _ (page_unptrs vs (n + 1))
  | .dict p vs r, n => by
    rw [linesOf, unptr, pretty_dict]
    simp only [if_neg (by simp : ¬ (false = true)), ← List.replicate_succ']
    exact boxed_lines _ _ n _ _ (page_unptrEntries vs (n + 1))
theorem page_unptrs : ∀ (vs : List Bencode) (n : Nat), List.replicate n 9 ++ prettyList (unptrs vs) (List.replicate n 9) =
    if itemLines vs = [] then List.replicate n 9 else pageOf n (itemLines vs) ++ 10 :: List.replicate n 9
  | [], n => by simp [unptrs, prettyList, itemLines]
  | v :: vs, n => by
    have ih := page_unptrs vs n
    by_cases hv : v = .nil
    · subst hv
      simp only [unptrs, unptr, prettyList, itemLines]
      exact ih
    · obtain ⟨s, rest, e⟩ := linesOf_head v
      have h1 := page_unptr v n
      have hne : comma (linesOf v) ≠ [] := comma_ne (by rw [e]; simp)
      rw [unptrs, prettyList.eq_3 _ _ _ (fun h => hv (unptr_nil.1 h)), itemLines.eq_3 _ _ hv]
      rw [if_neg (by simp [hne])]
      simp only [newLine, List.append_assoc, List.cons_append]
      rw [← List.append_assoc, ← h1, ih]
      by_cases hi : itemLines vs = []
      · rw [if_pos hi, hi, List.append_nil, pageOf_comma _ _ (by rw [e]; simp)]
        simp
      · rw [if_neg hi, pageOf_append _ _ _ hne hi, pageOf_comma _ _ (by rw [e]; simp)]
        simp
theorem page_unptrEntries : ∀ (vs : List (Bytes × Bencode)) (n : Nat),
    List.replicate n 9 ++ prettyEntries (unptrEntries vs) (List.replicate n 9) =
    if entryLines vs = [] then List.replicate n 9 else pageOf n (entryLines vs) ++ 10 :: List.replicate n 9
  | [], n => by simp [unptrEntries, prettyEntries, entryLines]
  | (k, v) :: vs, n => by
    have ih := page_unptrEntries vs n
    by_cases hv : v = .nil
    · subst hv
      simp only [unptrEntries, unptr, prettyEntries, entryLines]
      exact ih
    · obtain ⟨s, rest, e⟩ := linesOf_head v
      have h1 := page_unptr v n
      rw [e] at h1
      have h2 := pageOf_labelled n k s rest _ h1
      rw [← e] at h2
      have hl : labelled k (linesOf v) ≠ [] := by rw [e]; simp [labelled]
      have hne : comma (labelled k (linesOf v)) ≠ [] := comma_ne hl
      rw [unptrEntries, prettyEntries.eq_3 _ _ _ _ (fun h => hv (unptr_nil.1 h)), entryLines.eq_3 _ _ _ hv]
      rw [if_neg (by simp [hne])]
      have e3 : List.replicate n 9 ++ (k ++ [58, 32] ++ prettyPrint (unptr v) (List.replicate n 9) ++
          44 :: newLine (List.replicate n 9) ++ prettyEntries (unptrEntries vs) (List.replicate n 9)) =
          pageOf n (labelled k (linesOf v)) ++ 44 :: 10 :: (List.replicate n 9 ++ prettyEntries (unptrEntries vs) (List.replicate n 9)) := by
        rw [h2]; simp [newLine]
      rw [e3, ih]
      by_cases hi : entryLines vs = []
      · rw [if_pos hi, hi, List.append_nil, pageOf_comma _ _ hl]
        simp
      · rw [if_neg hi, pageOf_append _ _ _ hne hi, pageOf_comma _ _ hl]
        simp
end

/-! ## How the text of a value relates to that -/

theorem unptrs_nil (vs : List Bencode) : (∀ v ∈ unptrs vs, v = .nil) ↔ ∀ v ∈ vs, v = .nil := by
  induction vs with
  | nil => simp [unptrs]
  | cons v vs ih => simp [unptrs, ih, unptr_nil]

theorem unptrEntries_nil (vs : List (Bytes × Bencode)) : (∀ e ∈ unptrEntries vs, e.2 = .nil) ↔ ∀ e ∈ vs, e.2 = .nil := by
  induction vs with
  | nil => simp [unptrEntries]
  | cons e vs ih => obtain ⟨k, v⟩ := e; simp only [unptrEntries, List.forall_mem_cons, ih, unptr_nil]

theorem boxed_le (o c : UInt8) {t t' b b' : Bytes} (ht : t'.length ≤ t.length) (hb : b'.length ≤ b.length) (he : b' = [] ↔ b = []) :
    (boxed o c t' b').length ≤ (boxed o c t b).length := by
  rw [boxed_length, boxed_length]
  by_cases h : b = []
  · rw [if_pos h, if_pos (he.2 h)]; omega
  · rw [if_neg h, if_neg (fun e => h (he.1 e))]; omega

theorem boxed_lt (o c : UInt8) {t t' b b' : Bytes} (ht : t'.length ≤ t.length) (hb : b'.length ≤ b.length) (he : b' = [] ↔ b = [])
    (hne : b ≠ []) (hs : t'.length < t.length ∨ b'.length < b.length) :
    (boxed o c t' b').length < (boxed o c t b).length := by
  rw [boxed_length, boxed_length, if_neg hne, if_neg (fun e => hne (he.1 e))]
  omega

mutual
theorem pretty_shrink : ∀ (v : Bencode) (t' t : Bytes), t'.length ≤ t.length →
    (prettyPrint v t').length ≤ (prettyPrint (unptr v) t).length ∧
    (1 ≤ t.length → (∃ c, Sub c v ∧ ParsedNonEmpty c) → (prettyPrint v t').length < (prettyPrint (unptr v) t).length)
  | .nil, _, _, _ => by
    refine ⟨by simp [unptr, prettyPrint], ?_⟩
    rintro _ ⟨c, hc, h⟩; cases hc; exact h.elim
  | .int _, _, _, _ => by
    refine ⟨by simp [unptr, prettyPrint], ?_⟩
    rintro _ ⟨c, hc, h⟩; cases hc; exact h.elim
  | .str _, _, _, _ => by
    refine ⟨by simp [unptr, prettyPrint], ?_⟩
    rintro _ ⟨c, hc, h⟩; cases hc; exact h.elim
  | .list p vs r, t', t, hl => by
    rw [unptr, pretty_list, pretty_list]
    have ht : ((if p = true then [] else t') ++ [9] : Bytes).length ≤ ((if false = true then [] else t) ++ [9] : Bytes).length := by
      cases p <;> simp <;> omega
    have ⟨h1, h2⟩ := prettys_shrink vs _ _ ht
    have he : ∀ a b, prettyList vs a = [] ↔ prettyList (unptrs vs) b = [] := by
      intro a b; rw [prettyList_empty, prettyList_empty, unptrs_nil]
    refine ⟨boxed_le _ _ ht h1 (he _ _), ?_⟩
    rintro ht1 ⟨c, hc, h⟩
    cases hc with
    | refl =>
      obtain ⟨rfl, v, hv, hn⟩ := h
      refine boxed_lt _ _ ht h1 (he _ _) ?_ (.inl ?_)
      · rw [ne_eq, ← he [], prettyList_empty]; exact fun h => hn (h v hv)
      · simp; omega
    | list _ _ hv hc =>
      rename_i v
      refine boxed_lt _ _ ht h1 (he _ _) ?_ (.inr (h2 (by simp) ⟨v, hv, c, hc, h⟩))
      rw [ne_eq, ← he [], prettyList_empty]
      intro hn
      rw [hn v hv] at hc
      cases hc; exact h
  | .dict p vs r, t', t, hl => by
    rw [unptr, pretty_dict, pretty_dict]
    have ht : ((if p = true then [] else t') ++ [9] : Bytes).length ≤ ((if false = true then [] else t) ++ [9] : Bytes).length := by
      cases p <;> simp <;> omega
    have ⟨h1, h2⟩ := prettyEntries_shrink vs _ _ ht
    have he : ∀ a b, prettyEntries vs a = [] ↔ prettyEntries (unptrEntries vs) b = [] := by
      intro a b; rw [prettyEntries_empty, prettyEntries_empty, unptrEntries_nil]
    refine ⟨boxed_le _ _ ht h1 (he _ _), ?_⟩
    rintro ht1 ⟨c, hc, h⟩
    cases hc with
    | refl =>
      obtain ⟨rfl, v, hv, hn⟩ := h
      refine boxed_lt _ _ ht h1 (he _ _) ?_ (.inl ?_)
      · rw [ne_eq, ← he [], prettyEntries_empty]; exact fun h => hn (h v hv)
      · simp; omega
    | dict _ _ hv hc =>
      rename_i v k
      refine boxed_lt _ _ ht h1 (he _ _) ?_ (.inr (h2 (by simp) ⟨(k, v), hv, c, hc, h⟩))
      rw [ne_eq, ← he [], prettyEntries_empty]
      intro hn
      have := hn _ hv
      simp only at this
      rw [this] at hc
      cases hc; exact h
theorem prettys_shrink : ∀ (vs : List Bencode) (t' t : Bytes), t'.length ≤ t.length →
    (prettyList vs t').length ≤ (prettyList (unptrs vs) t).length ∧
    (1 ≤ t.length → (∃ v ∈ vs, ∃ c, Sub c v ∧ ParsedNonEmpty c) → (prettyList vs t').length < (prettyList (unptrs vs) t).length)
  | [], _, _, _ => by
    refine ⟨by simp [unptrs, prettyList], ?_⟩
    rintro _ ⟨v, hv, _⟩; cases hv
  | v :: vs, t', t, hl => by
    have ⟨i1, i2⟩ := prettys_shrink vs t' t hl
    by_cases hv : v = .nil
    · subst hv
      simp only [unptrs, unptr, prettyList]
      refine ⟨i1, fun h => ?_⟩
      rintro ⟨w, hw, c, hc, hp⟩
      cases hw with
      | head => cases hc; exact hp.elim
      | tail _ hw => exact i2 h ⟨w, hw, c, hc, hp⟩
    · have ⟨j1, j2⟩ := pretty_shrink v t' t hl
      rw [unptrs, prettyList.eq_3 _ _ _ hv, prettyList.eq_3 _ _ _ (fun h => hv (unptr_nil.1 h))]
      simp only [List.length_append, List.length_cons, newLine]
      refine ⟨by omega, fun h => ?_⟩
      rintro ⟨w, hw, c, hc, hp⟩
      cases hw with
      | head => have := j2 h ⟨c, hc, hp⟩; omega
      | tail _ hw => have := i2 h ⟨w, hw, c, hc, hp⟩; omega
theorem prettyEntries_shrink : ∀ (vs : List (Bytes × Bencode)) (t' t : Bytes), t'.length ≤ t.length →
    (prettyEntries vs t').length ≤ (prettyEntries (unptrEntries vs) t).length ∧
    (1 ≤ t.length → (∃ e ∈ vs, ∃ c, Sub c e.2 ∧ ParsedNonEmpty c) →
      (prettyEntries vs t').length < (prettyEntries (unptrEntries vs) t).length)
  | [], _, _, _ => by
    refine ⟨by simp [unptrEntries, prettyEntries], ?_⟩
    rintro _ ⟨v, hv, _⟩; cases hv
  | (k, v) :: vs, t', t, hl => by
    have ⟨i1, i2⟩ := prettyEntries_shrink vs t' t hl
    by_cases hv : v = .nil
    · subst hv
      simp only [unptrEntries, unptr, prettyEntries]
      refine ⟨i1, fun h => ?_⟩
      rintro ⟨w, hw, c, hc, hp⟩
      cases hw with
      | head => cases hc; exact hp.elim
      | tail _ hw => exact i2 h ⟨w, hw, c, hc, hp⟩
    · have ⟨j1, j2⟩ := pretty_shrink v t' t hl
      rw [unptrEntries, prettyEntries.eq_3 _ _ _ _ hv, prettyEntries.eq_3 _ _ _ _ (fun h => hv (unptr_nil.1 h))]
      simp only [List.length_append, List.length_cons, newLine]
      refine ⟨by omega, fun h => ?_⟩
      rintro ⟨w, hw, c, hc, hp⟩
      cases hw with
      | head => have := j2 h ⟨c, hc, hp⟩; omega
      | tail _ hw => have := i2 h ⟨w, hw, c, hc, hp⟩; omega
end

mutual
theorem pretty_unptr : ∀ (v : Bencode) (t : Bytes), (∀ c, Sub c v → ¬ ParsedNonEmpty c) → prettyPrint v t = prettyPrint (unptr v) t
  | .nil, _, _ => rfl
  | .int _, _, _ => rfl
  | .str _, _, _ => rfl
  | .list p vs r, t, h => by
    rw [unptr, pretty_list, pretty_list]
    by_cases hn : ∀ v ∈ vs, v = .nil
    · rw [(prettyList_empty vs _).2 hn, (prettyList_empty _ _).2 ((unptrs_nil vs).2 hn), boxed_empty, boxed_empty]
    · have hp : p = false := by
        cases p with
        | false => rfl
        | true =>
          refine absurd ⟨rfl, ?_⟩ (h _ (.refl _))
          refine Classical.byContradiction fun hx => hn fun v hv => Classical.byContradiction fun hq => hx ⟨v, hv, hq⟩
      subst hp
      rw [prettys_unptr vs _ (fun v hv c hc => h c (.list _ _ hv hc))]
  | .dict p vs r, t, h => by
    rw [unptr, pretty_dict, pretty_dict]
    by_cases hn : ∀ v ∈ vs, v.2 = .nil
    · rw [(prettyEntries_empty vs _).2 hn, (prettyEntries_empty _ _).2 ((unptrEntries_nil vs).2 hn), boxed_empty, boxed_empty]
    · have hp : p = false := by
        cases p with
        | false => rfl
        | true =>
          refine absurd ⟨rfl, ?_⟩ (h _ (.refl _))
          refine Classical.byContradiction fun hx => hn fun v hv => Classical.byContradiction fun hq => hx ⟨v, hv, hq⟩
      subst hp
      rw [prettyEntries_unptr vs _ (fun v hv c hc => h c (.dict (k := v.1) _ _ hv hc))]
theorem prettys_unptr : ∀ (vs : List Bencode) (t : Bytes), (∀ v ∈ vs, ∀ c, Sub c v → ¬ ParsedNonEmpty c) →
    prettyList vs t = prettyList (unptrs vs) t
  | [], _, _ => rfl
  | v :: vs, t, h => by
    have ih := prettys_unptr vs t (fun w hw => h w (List.mem_cons_of_mem _ hw))
    by_cases hv : v = .nil
    · subst hv; simp only [unptrs, unptr, prettyList]; exact ih
    · rw [unptrs, prettyList.eq_3 _ _ _ hv, prettyList.eq_3 _ _ _ (fun h => hv (unptr_nil.1 h)), ih,
        pretty_unptr v t (h v List.mem_cons_self)]
theorem prettyEntries_unptr : ∀ (vs : List (Bytes × Bencode)) (t : Bytes), (∀ e ∈ vs, ∀ c, Sub c e.2 → ¬ ParsedNonEmpty c) →
    prettyEntries vs t = prettyEntries (unptrEntries vs) t
  | [], _, _ => rfl
  | (k, v) :: vs, t, h => by
    have ih := prettyEntries_unptr vs t (fun w hw => h w (List.mem_cons_of_mem _ hw))
    by_cases hv : v = .nil
    · subst hv; simp only [unptrEntries, unptr, prettyEntries]; exact ih
    · rw [unptrEntries, prettyEntries.eq_3 _ _ _ _ hv, prettyEntries.eq_3 _ _ _ _ (fun h => hv (unptr_nil.1 h)), ih,
        pretty_unptr v t (h _ List.mem_cons_self)]
end

/-- C95, exactly: the text of a value is laid out by depth if and only if no non-empty list or dictionary that came from Parse lies
inside another one. -/
theorem C95_iff_partial (v : Bencode) : v.toText = pageOf 0 (linesOf v) ↔ ¬ ParsedInside v := by
  have hpage := page_unptr v 0
  simp only [List.replicate_zero, List.nil_append] at hpage
  rw [hpage, Bencode.toText]
  have tabs : ∀ p : Bool, ((if p = true then [] else []) ++ [9] : Bytes) = [9] := by intro p; cases p <;> rfl
  cases v with
  | nil => simp [unptr, ParsedInside]
  | int n => simp [unptr, ParsedInside, prettyPrint]
  | str s => simp [unptr, ParsedInside, prettyPrint]
  | list p vs r =>
    rw [unptr, pretty_list, pretty_list, tabs, tabs]
    constructor
    · rintro h hi
      have ⟨h1, h2⟩ := prettys_shrink vs [9] [9] (Nat.le_refl _)
      have hlt := h2 (by simp) hi
      have hb : prettyList (unptrs vs) [9] ≠ [] := by intro e; rw [e] at hlt; simp at hlt
      have := boxed_lt 91 93 (t := [9]) (t' := [9]) (Nat.le_refl _) h1 (by rw [prettyList_empty, prettyList_empty, unptrs_nil]) hb (.inr hlt)
      rw [h] at this
      omega
    · intro h
      rw [prettys_unptr vs [9] (fun v hv c hc hp => h ⟨v, hv, c, hc, hp⟩)]
  | dict p vs r =>
    rw [unptr, pretty_dict, pretty_dict, tabs, tabs]
    constructor
    · rintro h hi
      have ⟨h1, h2⟩ := prettyEntries_shrink vs [9] [9] (Nat.le_refl _)
      have hlt := h2 (by simp) hi
      have hb : prettyEntries (unptrEntries vs) [9] ≠ [] := by intro e; rw [e] at hlt; simp at hlt
      have := boxed_lt 123 125 (t := [9]) (t' := [9]) (Nat.le_refl _) h1 (by rw [prettyEntries_empty, prettyEntries_empty, unptrEntries_nil]) hb (.inr hlt)
      rw [h] at this
      omega
    · intro h
      rw [prettyEntries_unptr vs [9] (fun v hv c hc hp => h ⟨v, hv, c, hc, hp⟩)]

/-! ## Parsed documents -/

theorem pageOf_firstDeeper : ∀ ls : List Line, ls ≠ [] → pageOf 0 (firstDeeper ls) = 9 :: pageOf 0 ls
  | [], h => absurd rfl h
  | [l], _ => by simp [firstDeeper, pageOf, List.replicate_succ]
  | l :: l' :: ls, _ => by simp [firstDeeper, pageOf, List.replicate_succ]

theorem flatLines_head : ∀ v : Bencode, ∃ s rest, flatLines v = (0, s) :: rest
  | .nil => ⟨_, _, by rw [flatLines]⟩
  | .int _ => ⟨_, _, by rw [flatLines]⟩
  | .str _ => ⟨_, _, by rw [flatLines]⟩
  | .list _ vs _ => by rw [flatLines]; exact bracket_head _ _ _
  | .dict _ vs _ => by rw [flatLines]; exact bracket_head _ _ _

theorem boxed_flat (o c : UInt8) (ls : List Line) (body : Bytes)
    (h : 9 :: body = if ls = [] then [9] else pageOf 0 ls ++ [10, 9]) :
    boxed o c [9] body = pageOf 0 (bracket o c ls) := by
  by_cases hl : ls = []
  · subst hl
    rw [if_pos rfl] at h
    have hb : body = [] := by simpa using h
    subst hb
    rw [boxed_empty]
    simp [bracket, pageOf]
  · rw [if_neg hl] at h
    rw [bracket, if_neg hl, List.cons_append]
    have e1 : pageOf 0 ((0, [o]) :: (ls ++ [(0, [c])])) = pageOf 0 ([(0, [o])] ++ (ls ++ [(0, [c])])) := rfl
    rw [e1, pageOf_append 0 _ _ (by simp) (by simp), pageOf_append 0 _ _ hl (by simp)]
    have hlen : body.length = (pageOf 0 ls).length + 1 := by
      have := congrArg List.length h
      simp only [List.length_append, List.length_cons, List.length_nil] at this
      omega
    unfold boxed
    have hdata : o :: newLine [9] ++ body = (o :: 10 :: (pageOf 0 ls ++ [10])) ++ [9] := by
      simp [newLine, h]
    rw [if_neg ?_, hdata, take_snoc]
    · simp [pageOf]
    · simp only [newLine, List.length_append, List.length_cons, List.length_nil]
      have hp : pageOf 0 ls ≠ [] := by
        intro e; rw [e] at h; simp at h
      have := List.length_pos_iff.2 hp
      omega

mutual
theorem pretty_flat : ∀ (v : Bencode) (t : Bytes), AllParsed v → prettyPrint v t = pageOf 0 (flatLines v)
  | .nil, _, _ => by simp [prettyPrint, flatLines, pageOf]
  | .int _, _, _ => by simp [prettyPrint, flatLines, pageOf]
  | .str _, _, _ => by simp [prettyPrint, flatLines, pageOf]
  | .list p vs r, t, h => by
    obtain ⟨rfl, h'⟩ := allParsed_list h
    rw [pretty_list, flatLines]
    exact boxed_flat _ _ _ _ (prettys_flat vs h')
  | .dict p vs r, t, h => by
    obtain ⟨rfl, h'⟩ := allParsed_dict h
    rw [pretty_dict, flatLines]
    exact boxed_flat _ _ _ _ (prettyEntries_flat vs h')
theorem prettys_flat : ∀ (vs : List Bencode), (∀ v ∈ vs, AllParsed v) →
    9 :: prettyList vs [9] = if flatItems vs = [] then [9] else pageOf 0 (flatItems vs) ++ [10, 9]
  | [], _ => by simp [prettyList, flatItems]
  | v :: vs, h => by
    have ih := prettys_flat vs (fun w hw => h w (List.mem_cons_of_mem _ hw))
    by_cases hv : v = .nil
    · subst hv; simp only [prettyList, flatItems]; exact ih
    · obtain ⟨s, rest, e⟩ := flatLines_head v
      have hc : comma (flatLines v) ≠ [] := comma_ne (by rw [e]; simp)
      have hf : firstDeeper (comma (flatLines v)) ≠ [] := by
        match hx : comma (flatLines v), hc with
        | l :: ls, _ => simp [firstDeeper]
      rw [prettyList.eq_3 _ _ _ hv, flatItems.eq_3 _ _ hv, if_neg (by simp [hf]), pretty_flat v [9] (h v List.mem_cons_self)]
      have e3 : 9 :: (pageOf 0 (flatLines v) ++ 44 :: newLine [9] ++ prettyList vs [9]) =
          pageOf 0 (firstDeeper (comma (flatLines v))) ++ 10 :: (9 :: prettyList vs [9]) := by
        rw [pageOf_firstDeeper _ hc, pageOf_comma _ _ (by rw [e]; simp)]; simp [newLine]
      rw [e3, ih]
      by_cases hi : flatItems vs = []
      · rw [if_pos hi, hi, List.append_nil]
      · rw [if_neg hi, pageOf_append _ _ _ hf hi]
        simp
theorem prettyEntries_flat : ∀ (vs : List (Bytes × Bencode)), (∀ e ∈ vs, AllParsed e.2) →
    9 :: prettyEntries vs [9] = if flatEntries vs = [] then [9] else pageOf 0 (flatEntries vs) ++ [10, 9]
  | [], _ => by simp [prettyEntries, flatEntries]
  | (k, v) :: vs, h => by
    have ih := prettyEntries_flat vs (fun w hw => h w (List.mem_cons_of_mem _ hw))
    by_cases hv : v = .nil
    · subst hv; simp only [prettyEntries, flatEntries]; exact ih
    · obtain ⟨s, rest, e⟩ := flatLines_head v
      have hl : labelled k (flatLines v) ≠ [] := by rw [e]; simp [labelled]
      have hc : comma (labelled k (flatLines v)) ≠ [] := comma_ne hl
      have hf : firstDeeper (comma (labelled k (flatLines v))) ≠ [] := by
        match hx : comma (labelled k (flatLines v)), hc with
        | l :: ls, _ => simp [firstDeeper]
      have h2 := pageOf_labelled 0 k s rest (pageOf 0 (flatLines v)) (by rw [e]; rfl)
      rw [← e] at h2
      rw [prettyEntries.eq_3 _ _ _ _ hv, flatEntries.eq_3 _ _ _ hv, if_neg (by simp [hf]), pretty_flat v [9] (h _ List.mem_cons_self)]
      have e3 : 9 :: (k ++ [58, 32] ++ pageOf 0 (flatLines v) ++ 44 :: newLine [9] ++ prettyEntries vs [9]) =
          pageOf 0 (firstDeeper (comma (labelled k (flatLines v)))) ++ 10 :: (9 :: prettyEntries vs [9]) := by
        rw [pageOf_firstDeeper _ hc, pageOf_comma _ _ hl, h2]; simp [newLine]
      rw [e3, ih]
      by_cases hi : flatEntries vs = []
      · rw [if_pos hi, hi, List.append_nil]
      · rw [if_neg hi, pageOf_append _ _ _ hf hi]
        simp
end

theorem comma_depth {ls : List Line} : ∀ l ∈ comma ls, ∃ m ∈ ls, m.1 = l.1 := by
  match ls with
  | [] => intro l h; cases h
  | [x] => intro l h; simp only [comma, List.mem_singleton] at h; exact ⟨x, by simp, by rw [h]⟩
  | x :: y :: ls =>
    intro l h
    rw [comma] at h
    cases h with
    | head => exact ⟨x, by simp, rfl⟩
    | tail _ h =>
      obtain ⟨m, hm, e⟩ := comma_depth l h
      exact ⟨m, List.mem_cons_of_mem _ hm, e⟩

theorem firstDeeper_depth {ls : List Line} (h0 : ∀ l ∈ ls.head?, l.1 = 0) (h : ∀ l ∈ ls, l.1 ≤ 1) : ∀ l ∈ firstDeeper ls, l.1 ≤ 1 := by
  match ls with
  | [] => intro l h; cases h
  | x :: ls =>
    intro l hl
    cases hl with
    | head => have := h0 x (by simp); simp only; omega
    | tail _ hl => exact h l (List.mem_cons_of_mem _ hl)

theorem bracket_depth {o c : UInt8} {ls : List Line} (h : ∀ l ∈ ls, l.1 ≤ 1) : ∀ l ∈ bracket o c ls, l.1 ≤ 1 := by
  intro l hl
  unfold bracket at hl
  split at hl
  · simp only [List.mem_singleton] at hl; subst hl; simp
  · simp only [List.cons_append, List.mem_cons, List.mem_append, List.not_mem_nil, or_false] at hl
    rcases hl with rfl | hl | rfl
    · simp
    · exact h l hl
    · simp

mutual
theorem flat_depth : ∀ (v : Bencode), ∀ l ∈ flatLines v, l.1 ≤ 1
  | .nil => by intro l h; simp only [flatLines, List.mem_singleton] at h; subst h; simp
  | .int _ => by intro l h; simp only [flatLines, List.mem_singleton] at h; subst h; simp
  | .str _ => by intro l h; simp only [flatLines, List.mem_singleton] at h; subst h; simp
  | .list p vs r => by rw [flatLines]; exact bracket_depth (flats_depth vs)
  | .dict p vs r => by rw [flatLines]; exact bracket_depth (flatEntries_depth vs)
theorem flats_depth : ∀ (vs : List Bencode), ∀ l ∈ flatItems vs, l.1 ≤ 1
  | [] => by intro l h; simp [flatItems] at h
  | v :: vs => by
    have ih := flats_depth vs
    by_cases hv : v = .nil
    · subst hv; rw [flatItems]; exact ih
    · rw [flatItems.eq_3 _ _ hv]
      intro l hl
      rcases List.mem_append.1 hl with hl | hl
      · refine firstDeeper_depth ?_ ?_ l hl
        · obtain ⟨s, rest, e⟩ := flatLines_head v
          obtain ⟨s', rest', e'⟩ := comma_cons (0, s) rest
          rw [e, e']; intro l h; simp only [List.head?_cons, Option.mem_some_iff] at h; rw [← h]
        · intro l hl
          obtain ⟨m, hm, e⟩ := comma_depth l hl
          have := flat_depth v m hm
          omega
      · exact ih l hl
theorem flatEntries_depth : ∀ (vs : List (Bytes × Bencode)), ∀ l ∈ flatEntries vs, l.1 ≤ 1
  | [] => by intro l h; simp [flatEntries] at h
  | (k, v) :: vs => by
    have ih := flatEntries_depth vs
    by_cases hv : v = .nil
    · subst hv; rw [flatEntries]; exact ih
    · rw [flatEntries.eq_3 _ _ _ hv]
      intro l hl
      rcases List.mem_append.1 hl with hl | hl
      · obtain ⟨s, rest, e⟩ := flatLines_head v
        refine firstDeeper_depth ?_ ?_ l hl
        · rw [e, labelled]
          obtain ⟨s', rest', e'⟩ := comma_cons (0, k ++ [58, 32] ++ s) rest
          rw [e']; intro l h; simp only [List.head?_cons, Option.mem_some_iff] at h; rw [← h]
        · intro l hl
          obtain ⟨m, hm, e2⟩ := comma_depth l hl
          have hd := flat_depth v
          rw [e] at hm hd
          rw [labelled] at hm
          cases hm with
          | head => simp at e2; omega
          | tail _ hm => have := hd m (List.mem_cons_of_mem _ hm); omega
      · exact ih l hl
end

/-- C95, what happens to a document instead: its text is that of lines none of which stands deeper than one tab — every nested list or
dictionary starts again at the margin. -/
theorem C95_parsed_partial (b : Bytes) (v : Bencode) (h : Denotes b v) :
    v.toText = pageOf 0 (flatLines v) ∧ ∀ l ∈ flatLines v, l.1 ≤ 1 :=
  ⟨pretty_flat v [] (allParsed_of_denotes h), flat_depth v⟩

/-- C95, what the program builds itself is laid out by depth. -/
theorem C95_built_partial (v : Bencode) (h : ∀ c, Sub c v → ¬ ParsedNonEmpty c) : v.toText = pageOf 0 (linesOf v) := by
  rw [C95_iff_partial]
  intro hi
  cases v with
  | nil => exact hi
  | int n => exact hi
  | str s => exact hi
  | list p vs r => obtain ⟨v, hv, c, hc, hp⟩ := hi; exact h c (.list _ _ hv hc) hp
  | dict p vs r => obtain ⟨e, he, c, hc, hp⟩ := hi; exact h c (.dict (k := e.1) _ _ he hc) hp

/-- C95 is false of the code: a list of a list of a string. -/
theorem C95_violated : ∃ v, parse (ascii "ll1:xee") = .ok v ∧ v.toText = ascii "[\n\t[\n\tx,\n],\n]" ∧
    pageOf 0 (linesOf v) = ascii "[\n\t[\n\t\tx,\n\t],\n]" := by
  have h1 : Denotes (ascii "1:x") (.str (ascii "x")) := denotes_a (ascii "x") (by decide)
  have h2 : Denotes (ascii "l1:xe") (.list true [.str (ascii "x")] (ascii "l1:xe")) := .list _ _ (.cons _ _ _ _ h1 .nil)
  have h3 : Denotes (ascii "ll1:xee") (.list true [.list true [.str (ascii "x")] (ascii "l1:xe")] (ascii "ll1:xee")) :=
    .list _ _ (.cons _ _ _ _ h2 .nil)
  exact ⟨_, parse_complete h3 [], by decide, by decide⟩

example : (Bencode.dict false [(ascii "a", .list false [.str (ascii "y"), .str (ascii "x")] [])] []).toText =
    ascii "{\n\ta: [\n\t\ty,\n\t\tx,\n\t],\n}" := by decide

end Gotit.Props
