import Verif.Spec.Shown
import Verif.Props.Bencode
/-
  C11: exactly which elements print differently after encoding and parsing.
-/
namespace Gotit.Props
open Gotit Spec

/-- Only elements made by Parse. -/
def AllParsed (v : Bencode) : Prop := ∀ c, Sub c v → ¬ (match c with | .list p _ _ => p = false | .dict p _ _ => p = false | _ => False)

theorem allParsed_of_denotes {b : Bytes} {v : Bencode} (h : Denotes b v) : AllParsed v := by
  intro c hc
  obtain ⟨_, xb, _, _, hx⟩ := sub_denotes hc h
  cases hx <;> simp

theorem allParsed_list {p vs r} (h : AllParsed (.list p vs r)) : p = true ∧ ∀ v ∈ vs, AllParsed v := by
  refine ⟨by have := h _ (.refl _); simpa using this, fun v hv c hc => h c (.list _ _ hv hc)⟩

theorem allParsed_dict {p kvs r} (h : AllParsed (.dict p kvs r)) : p = true ∧ ∀ e ∈ kvs, AllParsed e.2 := by
  refine ⟨by have := h _ (.refl _); simpa using this, fun e he c hc => h c (.dict (k := e.1) _ _ he hc)⟩

/-- The text between brackets. -/
def boxed (o c : UInt8) (tabs body : Bytes) : Bytes :=
  if (o :: newLine tabs ++ body).length = 2 + tabs.length then [o, c]
  else (o :: newLine tabs ++ body).take ((o :: newLine tabs ++ body).length - 1) ++ [c]

theorem boxed_length (o c : UInt8) (tabs body : Bytes) :
    (boxed o c tabs body).length = if body = [] then 2 else 2 + tabs.length + body.length := by
  unfold boxed
  by_cases hb : body = []
  · rw [if_pos (by simp [hb, newLine]; omega), if_pos hb]; rfl
  · have : body.length ≠ 0 := fun e => hb (List.length_eq_zero_iff.1 e)
    rw [if_neg (by simp [newLine]; omega), if_neg hb]
    simp [newLine]; omega

theorem boxed_empty (o c : UInt8) (tabs : Bytes) : boxed o c tabs [] = [o, c] := by
  unfold boxed
  rw [if_pos (by simp [newLine]; omega)]

theorem pretty_list (p : Bool) (vs : List Bencode) (r t : Bytes) :
    prettyPrint (.list p vs r) t = boxed 91 93 ((if p then [] else t) ++ [9]) (prettyList vs ((if p then [] else t) ++ [9])) := by
  simp only [prettyPrint, boxed]

theorem pretty_dict (p : Bool) (vs : List (Bytes × Bencode)) (r t : Bytes) :
    prettyPrint (.dict p vs r) t = boxed 123 125 ((if p then [] else t) ++ [9]) (prettyEntries vs ((if p then [] else t) ++ [9])) := by
  simp only [prettyPrint, boxed]

theorem prettyList_empty (vs : List Bencode) (t : Bytes) : prettyList vs t = [] ↔ ∀ v ∈ vs, v = .nil := by
  induction vs with
  | nil => simp [prettyList]
  | cons v vs ih =>
    by_cases h : v = .nil
    · subst h; simp [prettyList, ih]
    · rw [prettyList.eq_3 _ _ _ h]
      simp [h]

theorem prettyEntries_empty (vs : List (Bytes × Bencode)) (t : Bytes) : prettyEntries vs t = [] ↔ ∀ e ∈ vs, e.2 = .nil := by
  induction vs with
  | nil => simp [prettyEntries]
  | cons e vs ih =>
    obtain ⟨k, v⟩ := e
    by_cases h : v = .nil
    · subst h; simp [prettyEntries, ih]
    · rw [prettyEntries.eq_3 _ _ _ _ h]
      simp [h]

theorem sameSeq_empty {vs ws : List Bencode} (h : SameSeq vs ws) (hv : ∀ v ∈ vs, v = .nil) : ws = [] := by
  induction vs generalizing ws with
  | nil => cases h; rfl
  | cons v vs ih =>
    cases h with
    | skip h => exact ih h (fun v hm => hv v (by simp [hm]))
    | cons h1 h2 => exact absurd (hv _ (by simp)) h1.ne_nil

theorem sameEntries_empty {vs ws : List (Bytes × Bencode)} (h : SameEntries vs ws) (hv : ∀ v ∈ vs, v.2 = .nil) : ws = [] := by
  induction vs generalizing ws with
  | nil => cases h; rfl
  | cons v vs ih =>
    cases h with
    | skip h => exact ih h (fun v hm => hv v (by simp [hm]))
    | cons h1 h2 => exact absurd (hv _ (List.mem_cons_self)) h1.ne_nil

mutual
/-- Without built containers the indentation is the same. -/
theorem shown_same : ∀ (v w : Bencode) (t : Bytes), Same v w → AllParsed w → (∀ c, Sub c v → ¬ BuiltNonEmpty c) → prettyPrint v t = prettyPrint w t
  | .nil, _, _, h, _, _ => by cases h
  | .int n, _, t, h, _, _ => by cases h; rfl
  | .str s, _, t, h, _, _ => by cases h; rfl
  | .list p vs r, w, t, h, hw, hb => by
    cases h with
    | @list _ q _ r' _ ws h =>
      obtain ⟨rfl, hws⟩ := allParsed_list hw
      rw [pretty_list, pretty_list]
      by_cases hp : p = true
      · subst hp
        rw [shown_sameSeq vs ws _ h hws (fun v hv c hc => hb c (.list _ _ hv hc))]
      · have hall : ∀ v ∈ vs, v = .nil := by
          intro v hv
          apply Classical.byContradiction
          intro hne
          exact hb _ (.refl _) ⟨by simpa using hp, v, hv, hne⟩
        have := sameSeq_empty h hall
        subst this
        rw [(prettyList_empty vs _).2 hall, boxed_empty, (prettyList_empty [] _).2 (by simp), boxed_empty]
  | .dict p vs r, w, t, h, hw, hb => by
    cases h with
    | @dict _ q _ r' _ ws h =>
      obtain ⟨rfl, hws⟩ := allParsed_dict hw
      rw [pretty_dict, pretty_dict]
      by_cases hp : p = true
      · subst hp
        rw [shown_sameEntries vs ws _ h hws (fun e he c hc => hb c (.dict (k := e.1) _ _ he hc))]
      · have hall : ∀ v ∈ vs, v.2 = .nil := by
          intro v hv
          apply Classical.byContradiction
          intro hne
          exact hb _ (.refl _) ⟨by simpa using hp, v, hv, hne⟩
        have := sameEntries_empty h hall
        subst this
        rw [(prettyEntries_empty vs _).2 hall, boxed_empty, (prettyEntries_empty [] _).2 (by simp), boxed_empty]
theorem shown_sameSeq : ∀ (vs ws : List Bencode) (t : Bytes), SameSeq vs ws → (∀ w ∈ ws, AllParsed w) →
    (∀ v ∈ vs, ∀ c, Sub c v → ¬ BuiltNonEmpty c) → prettyList vs t = prettyList ws t
  | [], _, _, h, _, _ => by cases h; rfl
  | v :: vs, ws, t, h, hw, hb => by
    cases h with
    | skip h => simp only [prettyList]; exact shown_sameSeq vs ws t h hw (fun v hv => hb v (by simp [hv]))
    | @cons _ w _ ws h1 h2 =>
      have hn : w ≠ .nil := by cases h1 <;> simp
      rw [prettyList.eq_3 _ _ _ h1.ne_nil, prettyList.eq_3 _ _ _ hn, shown_same v w t h1 (hw w (by simp)) (hb v (by simp)),
        shown_sameSeq vs ws t h2 (fun w hm => hw w (by simp [hm])) (fun v hv => hb v (by simp [hv]))]
theorem shown_sameEntries : ∀ (vs ws : List (Bytes × Bencode)) (t : Bytes), SameEntries vs ws → (∀ w ∈ ws, AllParsed w.2) →
    (∀ v ∈ vs, ∀ c, Sub c v.2 → ¬ BuiltNonEmpty c) → prettyEntries vs t = prettyEntries ws t
  | [], _, _, h, _, _ => by cases h; rfl
  | (k, v) :: vs, ws, t, h, hw, hb => by
    cases h with
    | skip h => simp only [prettyEntries]; exact shown_sameEntries vs ws t h hw (fun v hv => hb v (List.mem_cons_of_mem _ hv))
    | @cons _ _ w _ ws h1 h2 =>
      have hn : w ≠ .nil := by cases h1 <;> simp
      rw [prettyEntries.eq_3 _ _ _ _ h1.ne_nil, prettyEntries.eq_3 _ _ _ _ hn, shown_same v w t h1 (hw (k, w) (List.mem_cons_self)) (hb (k, v) List.mem_cons_self),
        shown_sameEntries vs ws t h2 (fun w hm => hw w (List.mem_cons_of_mem _ hm)) (fun v hv => hb v (List.mem_cons_of_mem _ hv))]
end

mutual
/-- Lengths: never shorter, and longer if a built container is inside. -/
theorem shown_len : ∀ (v w : Bencode) (t t' : Bytes), Same v w → AllParsed w → 1 ≤ t.length → t'.length ≤ t.length →
    (prettyPrint w t').length ≤ (prettyPrint v t).length ∧
    ((∃ c, Sub c v ∧ BuiltNonEmpty c) → (prettyPrint w t').length < (prettyPrint v t).length)
  | .nil, _, _, _, h, _, _, _ => by cases h
  | .int n, _, t, _, h, _, _, _ => by
    cases h
    refine ⟨Nat.le_refl _, ?_⟩
    rintro ⟨c, hc, hb⟩
    cases hc; exact hb.elim
  | .str s, _, t, _, h, _, _, _ => by
    cases h
    refine ⟨Nat.le_refl _, ?_⟩
    rintro ⟨c, hc, hb⟩
    cases hc; exact hb.elim
  | .list p vs r, w, t, t', h, hw, ht, hl => by
    cases h with
    | @list _ q _ r' _ ws h =>
      obtain ⟨rfl, hws⟩ := allParsed_list hw
      rw [pretty_list, pretty_list, boxed_length, boxed_length]
      simp only [if_true, List.nil_append]
      by_cases hall : ∀ v ∈ vs, v = .nil
      · have := sameSeq_empty h hall
        subst this
        rw [if_pos ((prettyList_empty vs _).2 hall), if_pos (by rfl)]
        refine ⟨Nat.le_refl _, ?_⟩
        rintro ⟨c, hc, hb⟩
        cases hc with
        | refl =>
          obtain ⟨_, v, hv, hne⟩ := hb
          exact absurd (hall v hv) hne
        | list _ _ hv hc => rw [hall _ hv] at hc; cases hc; exact hb.elim
      · have hne : ∀ tt, prettyList vs tt ≠ [] := fun tt e => hall ((prettyList_empty vs tt).1 e)
        rw [if_neg (hne _)]
        have htabs : ([9] : Bytes).length ≤ ((if p = true then [] else t) ++ [9]).length := by simp
        obtain ⟨g1, g2⟩ := shown_lenSeq vs ws ((if p = true then [] else t) ++ [9]) [9] h hws (by simp) htabs
        simp only [List.length_cons, List.length_nil] at htabs g1 g2 ⊢
        refine ⟨by split <;> omega, ?_⟩
        rintro ⟨c, hc, hb⟩
        cases hc with
        | refl =>
          obtain ⟨rfl, _⟩ := hb
          simp only [Bool.false_eq_true, if_false, List.length_append, List.length_cons, List.length_nil] at htabs g1 g2 ⊢
          split <;> omega
        | list _ _ hv hc =>
          have := g2 ⟨_, hv, c, hc, hb⟩
          split <;> omega
  | .dict p vs r, w, t, t', h, hw, ht, hl => by
    cases h with
    | @dict _ q _ r' _ ws h =>
      obtain ⟨rfl, hws⟩ := allParsed_dict hw
      rw [pretty_dict, pretty_dict, boxed_length, boxed_length]
      simp only [if_true, List.nil_append]
      by_cases hall : ∀ v ∈ vs, v.2 = .nil
      · have := sameEntries_empty h hall
        subst this
        rw [if_pos ((prettyEntries_empty vs _).2 hall), if_pos (by rfl)]
        refine ⟨Nat.le_refl _, ?_⟩
        rintro ⟨c, hc, hb⟩
        cases hc with
        | refl =>
          obtain ⟨_, v, hv, hne⟩ := hb
          exact absurd (hall v hv) hne
        | dict _ _ hv hc =>
          have hn := hall _ hv
          simp only at hn
          rw [hn] at hc; cases hc; exact hb.elim
      · have hne : ∀ tt, prettyEntries vs tt ≠ [] := fun tt e => hall ((prettyEntries_empty vs tt).1 e)
        rw [if_neg (hne _)]
        have htabs : ([9] : Bytes).length ≤ ((if p = true then [] else t) ++ [9]).length := by simp
        obtain ⟨g1, g2⟩ := shown_lenEntries vs ws ((if p = true then [] else t) ++ [9]) [9] h hws (by simp) htabs
        simp only [List.length_cons, List.length_nil] at htabs g1 g2 ⊢
        refine ⟨by split <;> omega, ?_⟩
        rintro ⟨c, hc, hb⟩
        cases hc with
        | refl =>
          obtain ⟨rfl, _⟩ := hb
          simp only [Bool.false_eq_true, if_false, List.length_append, List.length_cons, List.length_nil] at htabs g1 g2 ⊢
          split <;> omega
        | dict _ _ hv hc =>
          have := g2 ⟨_, hv, c, hc, hb⟩
          split <;> omega
theorem shown_lenSeq : ∀ (vs ws : List Bencode) (t t' : Bytes), SameSeq vs ws → (∀ w ∈ ws, AllParsed w) → 1 ≤ t.length → t'.length ≤ t.length →
    (prettyList ws t').length ≤ (prettyList vs t).length ∧
    ((∃ v ∈ vs, ∃ c, Sub c v ∧ BuiltNonEmpty c) → (prettyList ws t').length < (prettyList vs t).length)
  | [], _, _, _, h, _, _, _ => by
    cases h
    exact ⟨Nat.le_refl _, by rintro ⟨v, hv, _⟩; cases hv⟩
  | v :: vs, ws, t, t', h, hw, ht, hl => by
    cases h with
    | skip h =>
      obtain ⟨g1, g2⟩ := shown_lenSeq vs ws t t' h hw ht hl
      simp only [prettyList]
      refine ⟨g1, ?_⟩
      rintro ⟨v, hv, c, hc, hb⟩
      rcases List.mem_cons.1 hv with rfl | hv
      · cases hc; exact hb.elim
      · exact g2 ⟨v, hv, c, hc, hb⟩
    | @cons _ w _ ws h1 h2 =>
      have hn : w ≠ .nil := by cases h1 <;> simp
      obtain ⟨g1, g2⟩ := shown_lenSeq vs ws t t' h2 (fun w hm => hw w (by simp [hm])) ht hl
      obtain ⟨g3, g4⟩ := shown_len v w t t' h1 (hw w (by simp)) ht hl
      rw [prettyList.eq_3 _ _ _ h1.ne_nil, prettyList.eq_3 _ _ _ hn]
      simp only [List.length_append, List.length_cons, newLine]
      refine ⟨by omega, ?_⟩
      rintro ⟨u, hu, c, hc, hb⟩
      rcases List.mem_cons.1 hu with rfl | hu
      · have := g4 ⟨c, hc, hb⟩; omega
      · have := g2 ⟨u, hu, c, hc, hb⟩; omega
theorem shown_lenEntries : ∀ (vs ws : List (Bytes × Bencode)) (t t' : Bytes), SameEntries vs ws → (∀ w ∈ ws, AllParsed w.2) → 1 ≤ t.length →
    t'.length ≤ t.length → (prettyEntries ws t').length ≤ (prettyEntries vs t).length ∧
    ((∃ v ∈ vs, ∃ c, Sub c v.2 ∧ BuiltNonEmpty c) → (prettyEntries ws t').length < (prettyEntries vs t).length)
  | [], _, _, _, h, _, _, _ => by
    cases h
    exact ⟨Nat.le_refl _, by rintro ⟨v, hv, _⟩; cases hv⟩
  | (k, v) :: vs, ws, t, t', h, hw, ht, hl => by
    cases h with
    | skip h =>
      obtain ⟨g1, g2⟩ := shown_lenEntries vs ws t t' h hw ht hl
      simp only [prettyEntries]
      refine ⟨g1, ?_⟩
      rintro ⟨v, hv, c, hc, hb⟩
      rcases List.mem_cons.1 hv with rfl | hv
      · cases hc; exact hb.elim
      · exact g2 ⟨v, hv, c, hc, hb⟩
    | @cons _ _ w _ ws h1 h2 =>
      have hn : w ≠ .nil := by cases h1 <;> simp
      obtain ⟨g1, g2⟩ := shown_lenEntries vs ws t t' h2 (fun w hm => hw w (List.mem_cons_of_mem _ hm)) ht hl
      obtain ⟨g3, g4⟩ := shown_len v w t t' h1 (hw (k, w) List.mem_cons_self) ht hl
      rw [prettyEntries.eq_3 _ _ _ _ h1.ne_nil, prettyEntries.eq_3 _ _ _ _ hn]
      simp only [List.length_append, List.length_cons, newLine]
      refine ⟨by omega, ?_⟩
      rintro ⟨u, hu, c, hc, hb⟩
      rcases List.mem_cons.1 hu with rfl | hu
      · have := g4 ⟨c, hc, hb⟩; omega
      · have := g2 ⟨u, hu, c, hc, hb⟩; omega
end

/-- C11, exact: an element prints the same after encoding and parsing exactly if no non-empty list or dictionary built by the program
is inside another list or dictionary. Missing: those elements. -/
theorem C11_iff_partial (v w : Bencode) (hv : v ≠ .nil) (he : Encodable v) (h : parse v.encode = .ok w) :
    w.toText = v.toText ↔ ¬ BuiltInside v := by
  obtain ⟨w', h1, h2, h3⟩ := C01_encode_parse v hv he
  rw [h] at h1; cases h1
  have hw := allParsed_of_denotes h3
  have tabs : ∀ p : Bool, ((if p = true then [] else []) ++ [9] : Bytes) = [9] := by intro p; cases p <;> rfl
  cases h2 with
  | int n => simp [BuiltInside]
  | str s => simp [BuiltInside]
  | @list p q r r' vs ws hs =>
    obtain ⟨rfl, hws⟩ := allParsed_list hw
    unfold Bencode.toText
    rw [pretty_list, pretty_list, tabs, tabs]
    constructor
    · intro heq hb
      have := (shown_lenSeq vs ws [9] [9] hs hws (by simp) (by simp)).2 hb
      have hne : prettyList vs [9] ≠ [] := by intro e; rw [e] at this; cases this
      have hl := congrArg List.length heq
      rw [boxed_length, boxed_length, if_neg hne] at hl
      simp only [List.length_cons, List.length_nil] at hl
      split at hl <;> omega
    · intro hb
      rw [shown_sameSeq vs ws _ hs hws (fun v hv c hc hcb => hb ⟨v, hv, c, hc, hcb⟩)]
  | @dict p q r r' vs ws hs =>
    obtain ⟨rfl, hws⟩ := allParsed_dict hw
    unfold Bencode.toText
    rw [pretty_dict, pretty_dict, tabs, tabs]
    constructor
    · intro heq hb
      have := (shown_lenEntries vs ws [9] [9] hs hws (by simp) (by simp)).2 hb
      have hne : prettyEntries vs [9] ≠ [] := by intro e; rw [e] at this; cases this
      have hl := congrArg List.length heq
      rw [boxed_length, boxed_length, if_neg hne] at hl
      simp only [List.length_cons, List.length_nil] at hl
      split at hl <;> omega
    · intro hb
      rw [shown_sameEntries vs ws _ hs hws (fun v hv c hc hcb => hb ⟨v, hv, c, hc, hcb⟩)]

example : BuiltInside (.list false [.list false [.int 1] []] []) := ⟨_, List.mem_cons_self, _, .refl _, rfl, .int 1, by simp, by simp⟩
example : ¬ BuiltInside (.list false [.list false [] [], .int 1] []) := by
  rintro ⟨v, hv, c, hc, hb⟩
  simp only [List.mem_cons, List.not_mem_nil, or_false] at hv
  rcases hv with rfl | rfl
  · cases hc with
    | refl => obtain ⟨_, v, hv, _⟩ := hb; cases hv
    | list _ _ hm _ => cases hm
  · cases hc; exact hb.elim

end Gotit.Props
