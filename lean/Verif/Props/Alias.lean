import Verif.Lemmas.ViewIn
/-
  Property C10: aliasing between the parsed value and the caller's buffer.
-/
namespace Gotit.Props
open Gotit Gotit.Spec

/-- The in-memory representation agrees with the value-level parser: `Parse` as modelled in `Model/Parse.lean`
is what one sees through the windows as long as the buffer is not modified. -/
theorem C10_view_faithful (data : Bytes) :
    parse data = (parseView data).bind fun v => .ok (v.resolve data) := parseView_eq data

/-- C10 as stated is false: after `Parse("1:a")`, writing `1:b` into the same buffer changes the string in the
returned value. -/
theorem C10_no_alias_violated :
    ¬ ∀ (data data' : Bytes) (v : View), parseView data = .ok v → data'.length = data.length →
        v.resolve data' = v.resolve data := by
  intro h
  have hd : Denotes (ascii "1:a") (.str (ascii "a")) :=
    .str (ascii "1") (ascii "a") (isDigits_of_all (by decide)) (by decide)
  have hp := parse_complete hd []
  rw [List.append_nil, parseView_eq] at hp
  obtain ⟨v, h1, h2⟩ := PRes.bind_ok hp
  simp only [PRes.ok.injEq] at h2
  have h3 := h _ (ascii "1:b") v h1 rfl
  rw [h2] at h3
  -- the window must be exactly the last byte
  match v, h2, h3 with
  | .str o l, h2, h3 =>
    simp only [View.resolve, Bencode.str.injEq, window, ascii] at h2 h3
    match o, l with
    | 0, 0 => simp at h2
    | 0, l + 1 => simp at h2
    | 1, 0 => simp at h2
    | 1, l + 1 => simp at h2
    | 2, 0 => simp at h2
    | 2, l + 1 => simp at h3
    | o + 3, l => simp at h2
  | .int _, h2, _ => simp [View.resolve] at h2
  | .list _ _ _, h2, _ => simp [View.resolve] at h2
  | .dict _ _ _, h2, _ => simp [View.resolve] at h2

mutual
/-- What cannot change: the tree with all string contents forgotten. -/
def shape : Bencode → Bencode
  | .nil => .nil
  | .int n => .int n
  | .str s => .str (List.replicate s.length 0)
  | .list p vs r => .list p (shapeList vs) (List.replicate r.length 0)
  | .dict p kvs r => .dict p (shapeEntries kvs) (List.replicate r.length 0)
def shapeList : List Bencode → List Bencode
  | [] => []
  | v :: vs => shape v :: shapeList vs
def shapeEntries : List (Bytes × Bencode) → List (Bytes × Bencode)
  | [] => []
  | (k, v) :: kvs => (List.replicate k.length 0, shape v) :: shapeEntries kvs
end

theorem window_length {b b' : Bytes} (h : b'.length = b.length) (o l : Nat) :
    (window b' o l).length = (window b o l).length := by
  simp [window, h]

mutual
theorem shape_resolve {b b' : Bytes} (h : b'.length = b.length) :
    ∀ v : View, shape (v.resolve b') = shape (v.resolve b)
  | .int _ => rfl
  | .str o l => by simp only [View.resolve, shape, window_length h]
  | .list vs o l => by simp only [View.resolve, shape, window_length h, shapeList_resolve h vs]
  | .dict vs o l => by simp only [View.resolve, shape, window_length h, shapeEntries_resolve h vs]
theorem shapeList_resolve {b b' : Bytes} (h : b'.length = b.length) :
    ∀ v : List View, shapeList (resolveList b' v) = shapeList (resolveList b v)
  | [] => rfl
  | v :: vs => by simp only [resolveList, shapeList, shape_resolve h v, shapeList_resolve h vs]
theorem shapeEntries_resolve {b b' : Bytes} (h : b'.length = b.length) :
    ∀ v : List ((Nat × Nat) × View), shapeEntries (resolveEntries b' v) = shapeEntries (resolveEntries b v)
  | [] => rfl
  | ((o, l), v) :: vs => by
    simp only [resolveEntries, shapeEntries, shape_resolve h v, shapeEntries_resolve h vs, window_length h]
end

/-- C10, what does hold: overwriting the buffer changes neither the tree structure, nor the integers, nor the
lengths of strings, keys and raw parts; and nothing at all changes if the buffer is left alone. -/
theorem C10_shape_partial (data data' : Bytes) (v : View) (hl : data'.length = data.length)
    (h : parseView data = .ok v) :
    shape (v.resolve data') = shape (v.resolve data) ∧ parse data = .ok (v.resolve data) := by
  refine ⟨shape_resolve hl v, ?_⟩
  rw [parseView_eq, h]; rfl

theorem take_eq_iff {b data' : Bytes} : data'.take b.length = b ↔ ∃ r', data' = b ++ r' := by
  constructor
  · intro h
    exact ⟨data'.drop b.length, by
      have e := List.take_append_drop b.length data'
      rw [h] at e; exact e.symm⟩
  · rintro ⟨r', rfl⟩
    simp

/-- C10, exactly: which later contents `data'` of the buffer leave the value `x`, parsed from the text `b`, as it was. An integer
is never changed; a string is unchanged just if its own bytes (the end of `b`) are; a list or dictionary just if all of its text
is, because it keeps that text. Bytes after `b` never matter. -/
theorem C10_exact_partial (b r data' : Bytes) (x : Bencode) (v : View) (hd : Denotes b x)
    (hl : data'.length = (b ++ r).length) (h : parseView (b ++ r) = .ok v) :
    v.resolve data' = x ↔
      match x with
      | .int _ => True
      | .str s => ∃ a c, data' = a ++ s ++ c ∧ a.length + s.length = b.length
      | _ => ∃ c, data' = b ++ c := by
  obtain ⟨b', r', hb, hd', hin, hw⟩ := parseView_in h
  obtain ⟨rfl, hx⟩ := Denotes_unique hd hd' hb
  have hlen : b.length ≤ data'.length := by rw [hl]; simp
  have htake : v.resolve data' = v.resolve (data'.take b.length) := (resolve_take data' _ v hin).symm
  have hsame : ∀ c, data' = b ++ c → v.resolve data' = x := by
    intro c hc
    rw [htake, hc, List.take_left', hx, ← resolve_take (b ++ r) _ v hin, List.take_left']
    · rfl
    · rfl
  match v, hin, hw, hx, hsame with
  | .int n, _, _, hx, _ => subst hx; simp [View.resolve]
  | .str o l, hin, hw, hx, _ =>
    subst hx
    simp only [View.resolve, Bencode.str.injEq, View.Whole] at *
    have hbl : (b ++ r).length ≥ b.length := by simp
    have h1 : (window (b ++ r) o l).length = l := by simp only [window, List.length_take, List.length_drop]; omega
    have h2 : (window data' o l).length = l := by simp only [window, List.length_take, List.length_drop]; omega
    constructor
    · intro e
      refine ⟨data'.take o, data'.drop (o + l), ?_, ?_⟩
      · rw [← e, window, ← List.drop_drop, List.append_assoc, List.take_append_drop, List.take_append_drop]
      · rw [h1, List.length_take]; omega
    · rintro ⟨a, c, e, hac⟩
      rw [h1] at hac
      have ha : a.length = o := by omega
      rw [e]
      generalize hwd : window (b ++ r) o l = w at *
      rw [window, ← ha, List.append_assoc, List.drop_left, ← h1, List.take_left]
  | .list vs o l, hin, hw, hx, hsame =>
    subst hx
    simp only [View.resolve, View.Whole] at *
    obtain ⟨rfl, hw⟩ := hw
    have hw : l = b.length := by omega
    subst hw
    constructor
    · intro e
      simp only [Bencode.list.injEq] at e
      have e2 := e.2.2
      simp only [window, List.drop_zero, List.take_left] at e2
      exact take_eq_iff.1 e2
    · rintro ⟨c, hc⟩
      exact hsame c hc
  | .dict vs o l, hin, hw, hx, hsame =>
    subst hx
    simp only [View.resolve, View.Whole] at *
    obtain ⟨rfl, hw⟩ := hw
    have hw : l = b.length := by omega
    subst hw
    constructor
    · intro e
      simp only [Bencode.dict.injEq] at e
      have e2 := e.2.2
      simp only [window, List.drop_zero, List.take_left] at e2
      exact take_eq_iff.1 e2
    · rintro ⟨c, hc⟩
      exact hsame c hc

/-- The text `2:ab` followed by `x`: writing `3:abx` over it leaves the string, writing `2:acx` does not. -/
example : ∃ v, parseView (ascii "2:ab" ++ ascii "x") = .ok v ∧ v.resolve (ascii "3:abx") = .str (ascii "ab") ∧
    v.resolve (ascii "2:acx") ≠ .str (ascii "ab") := by
  have hd : Denotes (ascii "2:ab") (.str (ascii "ab")) :=
    .str (ascii "2") (ascii "ab") (isDigits_of_all (by decide)) (by decide)
  have hp := parse_complete hd (ascii "x")
  rw [parseView_eq] at hp
  obtain ⟨v, h1, h2⟩ := PRes.bind_ok hp
  refine ⟨v, h1, (C10_exact_partial _ _ _ _ v hd (by decide) h1).2 ⟨ascii "3:", ascii "x", by decide, by decide⟩, ?_⟩
  intro hne
  obtain ⟨a, c, e, hl⟩ := (C10_exact_partial _ _ _ _ v hd (by decide) h1).1 hne
  have ha : a.length = 2 := by simp [ascii] at hl; omega
  match a, ha with
  | [x, y], _ => simp [ascii] at e

end Gotit.Props
