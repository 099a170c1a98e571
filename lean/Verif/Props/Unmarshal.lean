import Verif.Lemmas.Unmarshal
import Verif.Model.Metainfo
import Verif.Props.Bencode
/-
  Properties C12–C16: Unmarshal.
-/
namespace Gotit.Props
open Gotit Gotit.Spec

/-- `struct { A string `ben:"a"`; B int64 `ben:"b"` }` used in the witnesses. -/
def abFields : List ((Bytes × Bytes × Bool) × Ty) := [fld "A" "a" .string, fld "B" "b" (.int 64)]

/-! ## C12 -/

theorem setFields_nonDict (fs : List ((Bytes × Bytes × Bool) × Ty)) (v : Bencode)
    (hv : ∀ p kvs raw, v ≠ .dict p kvs raw) :
    ∀ olds, (setFields fs olds v).2.isPanic = true ↔ ∃ f ∈ fs, Active f := by
  induction fs with
  | nil => intro olds; simp [setFields, Outcome.isPanic]
  | cons f fs ih =>
    intro olds
    obtain ⟨⟨nm, tag, c⟩, t⟩ := f
    by_cases hact : Active ((nm, tag, c), t)
    · have hp := hact
      obtain ⟨hc, ht⟩ := hact
      simp only at hc ht
      subst hc
      refine ⟨fun _ => ⟨_, List.mem_cons_self, hp⟩, fun _ => ?_⟩
      rw [setFields.eq_def]
      simp only
      rw [if_neg (by simp [ht])]
      cases v with
      | dict p kvs raw => exact absurd rfl (hv p kvs raw)
      | _ => rfl
    · rw [setFields_cons_inactive _ _ _ _ _ hact]
      simp only
      rw [ih]
      simp only [List.mem_cons, exists_eq_or_imp, hact, false_or]

/-- C12, exact: on a pointer-to-struct target (whose maps have string keys) `Unmarshal` panics if and only if `Parse`
panics, or the document is not a dictionary and the struct has a tagged exported field. -/
theorem C12_panic_iff_partial (fs : List ((Bytes × Bytes × Bool) × Ty)) (hfs : StringKeyedAll fs)
    (olds : List GoVal) (data : Bytes) :
    (unmarshal (.ptr (.struct fs)) (.ptr (some (.struct olds))) data).2.isPanic = true ↔
      Crashes data ∨ ∃ v, parse data = .ok v ∧ (∀ p kvs raw, v ≠ .dict p kvs raw) ∧ ∃ f ∈ fs, Active f := by
  unfold unmarshal
  split
  · rename_i v hv
    have hnc : ¬ Crashes data := by
      intro h; rw [crash_parse h] at hv; simp at hv
    simp only [hnc, false_or, hv, PRes.ok.injEq, exists_eq_left', processTarget]
    cases v with
    | dict p kvs raw =>
      simp only [setFields_noPanic fs hfs]
      constructor
      · intro h; simp at h
      · rintro ⟨h, _⟩; exact absurd rfl (h p kvs raw)
    | nil => rw [setFields_nonDict _ _ (by simp)]; simp
    | int => rw [setFields_nonDict _ _ (by simp)]; simp
    | str => rw [setFields_nonDict _ _ (by simp)]; simp
    | list => rw [setFields_nonDict _ _ (by simp)]; simp
  · rename_i e he
    have hnc : ¬ Crashes data := by
      intro h; rw [crash_parse h] at he; simp at he
    simp [Outcome.isPanic, hnc, he]
  · rename_i w hw
    simp [Outcome.isPanic, parse_panic hw]
  · rename_i h; exact absurd h (parse_not_fuel data)

/-- C12 as stated is false: `Unmarshal("le", &s)` panics. -/
theorem C12_no_panic_violated :
    ¬ ∀ fs olds data, (unmarshal (.ptr (.struct fs)) (.ptr (some (.struct olds))) data).2.isPanic = false := by
  intro h
  have h1 := h abFields (zeros abFields) (ascii "le")
  have h2 := (C12_panic_iff_partial abFields (by simp [abFields, fld, StringKeyedAll, StringKeyed])
    (zeros abFields) (ascii "le")).2 (.inr ⟨_, parse_complete (.list [] [] .nil) [], by simp, fld "A" "a" .string,
      by simp [abFields], by simp [Active, fld, ascii]⟩)
  rw [h1] at h2; simp at h2

/-- Targets that are not pointers to structs are rejected with an error, not a panic. -/
theorem C12_wrong_target (t : Ty) (old : GoVal) (ht : ∀ fs, t ≠ .ptr (.struct fs)) (data : Bytes) (v : Bencode)
    (h : parse data = .ok v) :
    unmarshal t old data = (old, .err "bencode: pointer to struct expected as target") := by
  unfold unmarshal
  rw [h]
  simp only
  unfold processTarget
  split
  · exact absurd rfl (ht _)
  · rfl

/-! ## C13 -/

/-- The top-level dictionary of a document. -/
def TopDict (data : Bytes) (kvs : List (Bytes × Bencode)) : Prop := ∃ p raw, parse data = .ok (.dict p kvs raw)

theorem unmarshal_dict {fs olds data kvs} (h : TopDict data kvs) :
    ∃ p raw, unmarshal (.ptr (.struct fs)) (.ptr (some (.struct olds))) data =
      (.ptr (some (.struct (setFields fs olds (.dict p kvs raw)).1)), (setFields fs olds (.dict p kvs raw)).2) := by
  obtain ⟨p, raw, h⟩ := h
  exact ⟨p, raw, by simp [unmarshal, h, processTarget]⟩

theorem required_key (fs : List ((Bytes × Bytes × Bool) × Ty)) (olds : List GoVal) (data : Bytes)
    (h : (unmarshal (.ptr (.struct fs)) (.ptr (some (.struct olds))) data).2 = .ok)
    (f : (Bytes × Bytes × Bool) × Ty) (hf : f ∈ fs) (ha : Active f) (hr : tagOptional f.1.2.1 = false) :
    ∃ kvs, TopDict data kvs ∧ lookupKey (tagKey f.1.2.1) kvs ≠ .nil := by
  match hp : parse data with
  | .ok v =>
    have hdict : ∃ p kvs raw, v = .dict p kvs raw := by
      refine Classical.byContradiction fun hv => ?_
      have hv' : ∀ p kvs raw, v ≠ .dict p kvs raw := fun p kvs raw e => hv ⟨p, kvs, raw, e⟩
      have : (setFields fs olds v).2.isPanic = true := (setFields_nonDict fs v hv' olds).2 ⟨f, hf, ha⟩
      simp only [unmarshal, hp, processTarget] at h
      rw [h] at this; simp [Outcome.isPanic] at this
    obtain ⟨p, kvs, raw, rfl⟩ := hdict
    refine ⟨kvs, ⟨p, raw, hp⟩, ?_⟩
    simp only [unmarshal, hp, processTarget] at h
    obtain ⟨i, hi⟩ := List.mem_iff_getElem?.1 hf
    obtain ⟨⟨nm, tag, c⟩, t⟩ := f
    obtain ⟨hc, ht⟩ := ha
    simp only at hc ht hr
    subst hc
    rcases setFields_ok fs olds _ p kvs raw (Prod.ext rfl h) i nm tag t hi ht with h1 | h1
    · exact h1.1
    · rw [h1.2.1] at hr; simp at hr
  | .err e => simp [unmarshal, hp] at h
  | .panic w => simp [unmarshal, hp] at h
  | .outOfFuel => exact absurd hp (parse_not_fuel data)

theorem missing_key (fs : List ((Bytes × Bytes × Bool) × Ty)) (hfs : StringKeyedAll fs) (olds : List GoVal)
    (data : Bytes) (kvs : List (Bytes × Bencode)) (hd : TopDict data kvs)
    (f : (Bytes × Bytes × Bool) × Ty) (hf : f ∈ fs) (ha : Active f) (hr : tagOptional f.1.2.1 = false)
    (hm : lookupKey (tagKey f.1.2.1) kvs = .nil) :
    ∃ e, (unmarshal (.ptr (.struct fs)) (.ptr (some (.struct olds))) data).2 = .err e := by
  match ho : (unmarshal (.ptr (.struct fs)) (.ptr (some (.struct olds))) data).2 with
  | .err e => exact ⟨e, rfl⟩
  | .ok =>
    obtain ⟨kvs', ⟨p', raw', h1⟩, h2⟩ := required_key fs olds data ho f hf ha hr
    obtain ⟨p, raw, h3⟩ := hd
    rw [h1] at h3
    simp only [PRes.ok.injEq, Bencode.dict.injEq] at h3
    rw [h3.2.1] at h2
    exact absurd hm h2
  | .panic w =>
    have : (unmarshal (.ptr (.struct fs)) (.ptr (some (.struct olds))) data).2.isPanic = true := by
      rw [ho]; rfl
    rw [C12_panic_iff_partial fs hfs] at this
    obtain ⟨p, raw, h3⟩ := hd
    rcases this with h | ⟨v, h1, h2, _⟩
    · rw [crash_parse h] at h3; simp at h3
    · rw [h1] at h3; simp only [PRes.ok.injEq] at h3; exact absurd h3 (h2 _ _ _)

theorem absent_untouched (fs : List ((Bytes × Bytes × Bool) × Ty)) (olds : List GoVal)
    (hl : olds.length = fs.length) (data : Bytes) (kvs : List (Bytes × Bencode)) (hd : TopDict data kvs)
    (i : Nat) (f : (Bytes × Bytes × Bool) × Ty) (hi : fs[i]? = some f)
    (hf : Active f → lookupKey (tagKey f.1.2.1) kvs = .nil) :
    (unmarshal (.ptr (.struct fs)) (.ptr (some (.struct olds))) data).1.field i =
      (GoVal.ptr (some (.struct olds))).field i := by
  obtain ⟨p, raw, h⟩ := unmarshal_dict (fs := fs) (olds := olds) hd
  rw [h]
  simp only [GoVal.field]
  rw [setFields_untouched fs olds p kvs raw hl i f hi hf]

theorem splitComma_ne (tag : Bytes) : splitComma tag ≠ [] := by
  cases tag with
  | nil => simp [splitComma]
  | cons c cs =>
    rw [splitComma]
    split
    · simp
    · split <;> simp

theorem splitComma_plain {k : Bytes} (h : (44 : UInt8) ∉ k) : splitComma k = [k] := by
  induction k with
  | nil => rfl
  | cons c k ih =>
    have hc : c ≠ 44 := fun e => h (by simp [e])
    rw [splitComma, if_neg hc, ih (fun hm => h (List.mem_cons_of_mem _ hm))]

theorem splitComma_comma {k : Bytes} (h : (44 : UInt8) ∉ k) (o : Bytes) : splitComma (k ++ 44 :: o) = k :: splitComma o := by
  induction k with
  | nil => simp [splitComma]
  | cons c k ih =>
    have hc : c ≠ 44 := fun e => h (by simp [e])
    rw [List.cons_append, splitComma, if_neg hc, ih (fun hm => h (List.mem_cons_of_mem _ hm))]

theorem comma_cases (tag : Bytes) : (44 : UInt8) ∉ tag ∨ ∃ k o, (44 : UInt8) ∉ k ∧ tag = k ++ 44 :: o := by
  induction tag with
  | nil => simp
  | cons c cs ih =>
    by_cases hc : c = 44
    · exact .inr ⟨[], cs, by simp, by simp [hc]⟩
    · rcases ih with h | ⟨k, o, h1, h2⟩
      · exact .inl (by simp [h, Ne.symm hc])
      · exact .inr ⟨c :: k, o, by simp [h1, Ne.symm hc], by simp [h2]⟩

theorem tagKey_of {tag key : Bytes} (h : TagNames tag key) : tagKey tag = key := by
  obtain ⟨h1, rfl | ⟨o, rfl⟩⟩ := h
  · simp [tagKey, splitComma_plain h1]
  · simp [tagKey, splitComma_comma h1]

theorem tagNames_key (tag : Bytes) : TagNames tag (tagKey tag) := by
  rcases comma_cases tag with h | ⟨k, o, h1, rfl⟩
  · have : tagKey tag = tag := by simp [tagKey, splitComma_plain h]
    rw [this]
    exact ⟨h, .inl rfl⟩
  · have : tagKey (k ++ 44 :: o) = k := by simp [tagKey, splitComma_comma h1]
    rw [this]
    exact ⟨h1, .inr ⟨o, rfl⟩⟩

theorem optional_mem : ∀ (n : Nat) (o : Bytes), o.length ≤ n → (ascii "optional" ∈ splitComma o ↔ TagOptional (44 :: o)) := by
  intro n
  induction n with
  | zero =>
    intro o hn
    have : o = [] := List.length_eq_zero_iff.1 (by omega)
    subst this
    constructor
    · intro h; simp [splitComma, ascii] at h
    · rintro ⟨b, h | ⟨a, h⟩⟩
      · have := congrArg List.length h; simp [ascii] at this
      · have := congrArg List.length h; simp [ascii] at this; omega
  | succ n ih =>
    intro o hn
    rcases comma_cases o with h | ⟨k, o', h1, rfl⟩
    · rw [splitComma_plain h]
      constructor
      · intro h; simp at h; subst h; exact ⟨[], .inl rfl⟩
      · rintro ⟨b, h2 | ⟨a, h2⟩⟩
        · cases b with
          | nil => simp at h2; simp [h2]
          | cons c b => simp at h2; exact absurd (by rw [h2.2]; simp) h
        · cases b with
          | nil => simp at h2; exact absurd (by rw [h2]; simp) h
          | cons c b => simp at h2; exact absurd (by rw [h2.2]; simp) h
    · rw [splitComma_comma h1]
      have hl : o'.length ≤ n := by simp at hn; omega
      rw [List.mem_cons, ih o' hl]
      constructor
      · rintro (h | ⟨b, h | ⟨a, h⟩⟩)
        · subst h; exact ⟨[], .inr ⟨o', rfl⟩⟩
        · exact ⟨44 :: k ++ b, .inl (by rw [h]; simp)⟩
        · exact ⟨44 :: k ++ b, .inr ⟨a, by rw [h]; simp⟩⟩
      · have no : (44 : UInt8) ∉ ascii "optional" := by decide
        -- the first comma of both sides
        have first : ∀ {k l : Bytes} {x y : Bytes}, (44 : UInt8) ∉ k → (44 : UInt8) ∉ l → k ++ 44 :: x = l ++ 44 :: y → k = l ∧ x = y := by
          intro k
          induction k with
          | nil =>
            intro l x y _ hl e
            cases l with
            | nil => simpa using e
            | cons c l => simp at e; exact absurd (by simp [e.1]) hl
          | cons c k ih =>
            intro l x y hk hl e
            cases l with
            | nil => simp at e; exact absurd (by simp [e.1]) hk
            | cons d l =>
              simp at e
              obtain ⟨h1, h2⟩ := ih (fun h => hk (by simp [h])) (fun h => hl (by simp [h])) e.2
              exact ⟨by rw [e.1, h1], h2⟩
        have past : ∀ (b t : Bytes), k ++ 44 :: o' = b ++ 44 :: t → (44 : UInt8) ∉ b ∨ ∃ b', 44 :: o' = b' ++ 44 :: t := by
          intro b t e
          rcases comma_cases b with hb | ⟨k', b', hk', rfl⟩
          · exact .inl hb
          · rw [List.append_assoc, List.cons_append] at e
            obtain ⟨-, h2⟩ := first h1 hk' e
            exact .inr ⟨44 :: b', by rw [h2]; simp⟩
        rintro ⟨b, h2 | ⟨a, h2⟩⟩
        · cases b with
          | nil => simp at h2; exact absurd (by rw [← h2]; simp) no
          | cons c b =>
            simp at h2
            rcases past b _ h2.2 with hb | ⟨b', hb⟩
            · obtain ⟨e1, e2⟩ := first h1 hb h2.2
              right
              exact ⟨[], .inl (by rw [e2]; simp)⟩
            · exact .inr ⟨b', .inl hb⟩
        · cases b with
          | nil =>
            simp at h2
            exact .inl (first h1 no h2).1.symm
          | cons c b =>
            simp at h2
            rcases past b _ h2.2 with hb | ⟨b', hb⟩
            · obtain ⟨e1, e2⟩ := first h1 hb h2.2
              right
              exact ⟨[], .inr ⟨a, by rw [e2]; simp⟩⟩
            · exact .inr ⟨b', .inr ⟨a, hb⟩⟩

theorem tagOptional_iff (tag : Bytes) : tagOptional tag = true ↔ TagOptional tag := by
  unfold tagOptional
  rw [List.any_eq_true]
  simp only [decide_eq_true_eq, exists_eq_right]
  rcases comma_cases tag with h | ⟨k, o, h1, rfl⟩
  · rw [splitComma_plain h]
    simp only [List.tail_cons, List.not_mem_nil, false_iff]
    rintro ⟨b, rfl | ⟨a, rfl⟩⟩ <;> exact h (by simp)
  · rw [splitComma_comma h1, List.tail_cons, optional_mem _ o (Nat.le_refl _)]
    constructor
    · rintro ⟨b, h | ⟨a, h⟩⟩
      · exact ⟨k ++ b, .inl (by rw [h]; simp)⟩
      · exact ⟨k ++ b, .inr ⟨a, by rw [h]; simp⟩⟩
    · have : ∀ (b t : Bytes), k ++ 44 :: o = b ++ 44 :: t → ∃ b', 44 :: o = b' ++ 44 :: t := by
        intro b t e
        rcases comma_cases b with hb | ⟨k', b', hk', rfl⟩
        · have := congrArg splitComma e
          rw [splitComma_comma h1, splitComma_comma hb] at this
          simp only [List.cons.injEq] at this
          obtain ⟨rfl, -⟩ := this
          have := List.append_cancel_left e
          exact ⟨[], by simpa using this⟩
        · rw [List.append_assoc, List.cons_append] at e
          have h2 := congrArg splitComma e
          rw [splitComma_comma h1, splitComma_comma hk'] at h2
          simp only [List.cons.injEq] at h2
          obtain ⟨rfl, -⟩ := h2
          have := List.append_cancel_left e
          exact ⟨44 :: b', by simpa using this⟩
      rintro ⟨b, h | ⟨a, h⟩⟩
      · obtain ⟨b', e⟩ := this b _ h
        exact ⟨b', .inl e⟩
      · obtain ⟨b', e⟩ := this b _ h
        exact ⟨b', .inr ⟨a, e⟩⟩

theorem document_topDict {data : Bytes} {es : List (Bytes × Bencode)} (h : Document data es) : TopDict data (mapOf es) := by
  obtain ⟨body, rest, rfl, h⟩ := h
  exact ⟨true, _, parse_complete (.dict body es h) rest⟩

theorem topDict_document {data : Bytes} {kvs : List (Bytes × Bencode)} (h : TopDict data kvs) : ∃ es, Document data es ∧ kvs = mapOf es := by
  obtain ⟨p, raw, h⟩ := h
  obtain ⟨b, r, rfl, hd⟩ := parse_sound h
  cases hd with
  | dict body es hes => exact ⟨es, ⟨body, r, rfl, hes⟩, rfl⟩

theorem document_key {data : Bytes} {es : List (Bytes × Bencode)} (h : Document data es) (k : Bytes) :
    lookupKey k (mapOf es) = .nil ↔ ∀ v, (k, v) ∉ es := by
  obtain ⟨body, rest, -, h⟩ := h
  rw [lookup_mapOf]
  unfold lastValue
  constructor
  · intro h1 v hv
    split at h1
    · rename_i e he
      have hm : e ∈ es := by simpa using List.mem_of_find?_eq_some he
      obtain ⟨p1, vb, q1, -, h2⟩ := denotesEntries_mem h hm
      rw [h1] at h2
      cases h2
    · rename_i hn
      rw [List.find?_eq_none] at hn
      exact hn (k, v) (by simpa using hv) (by simp)
  · intro h1
    split
    · rename_i e he
      have hm : e ∈ es := by simpa using List.mem_of_find?_eq_some he
      have hk := List.find?_some he
      simp only [decide_eq_true_eq] at hk
      exact absurd (by rw [← hk]; exact hm) (h1 e.2)
    · rfl

/-- C13: success means the document is a dictionary containing every required key. -/
theorem C13_required (fs : List ((Bytes × Bytes × Bool) × Ty)) (olds : List GoVal) (data : Bytes)
    (h : (unmarshal (.ptr (.struct fs)) (.ptr (some (.struct olds))) data).2 = .ok)
    (f : (Bytes × Bytes × Bool) × Ty) (hf : f ∈ fs) (ha : Active f) (hr : ¬ TagOptional f.1.2.1) (k : Bytes) (hk : TagNames f.1.2.1 k) :
    ∃ es v, Document data es ∧ (k, v) ∈ es := by
  have hr' : tagOptional f.1.2.1 = false := by
    cases ht : tagOptional f.1.2.1 with
    | false => rfl
    | true => exact absurd ((tagOptional_iff _).1 ht) hr
  obtain ⟨kvs, h1, h2⟩ := required_key fs olds data h f hf ha hr'
  obtain ⟨es, h3, rfl⟩ := topDict_document h1
  rw [tagKey_of hk, Ne, document_key h3] at h2
  obtain ⟨v, hv⟩ := Classical.not_forall.1 h2
  exact ⟨es, v, h3, Classical.not_not.1 hv⟩

/-- C13: a missing required key makes `Unmarshal` fail (with an error when the struct's maps have string keys). -/
theorem C13_missing (fs : List ((Bytes × Bytes × Bool) × Ty)) (hfs : StringKeyedAll fs) (olds : List GoVal)
    (data : Bytes) (es : List (Bytes × Bencode)) (hd : Document data es)
    (f : (Bytes × Bytes × Bool) × Ty) (hf : f ∈ fs) (ha : Active f) (hr : ¬ TagOptional f.1.2.1)
    (k : Bytes) (hk : TagNames f.1.2.1 k) (hm : ∀ v, (k, v) ∉ es) :
    ∃ e, (unmarshal (.ptr (.struct fs)) (.ptr (some (.struct olds))) data).2 = .err e := by
  have hr' : tagOptional f.1.2.1 = false := by
    cases ht : tagOptional f.1.2.1 with
    | false => rfl
    | true => exact absurd ((tagOptional_iff _).1 ht) hr
  refine missing_key fs hfs olds data _ (document_topDict hd) f hf ha hr' ?_
  rw [tagKey_of hk, document_key hd]
  exact hm

/-- C13: a field whose key is absent (and every untagged or unexported field) keeps its value, whether or not
the call succeeds. -/
theorem C13_absent_untouched (fs : List ((Bytes × Bytes × Bool) × Ty)) (olds : List GoVal)
    (hl : olds.length = fs.length) (data : Bytes) (es : List (Bytes × Bencode)) (hd : Document data es)
    (i : Nat) (f : (Bytes × Bytes × Bool) × Ty) (hi : fs[i]? = some f)
    (hf : Active f → ∃ k, TagNames f.1.2.1 k ∧ ∀ v, (k, v) ∉ es) :
    (unmarshal (.ptr (.struct fs)) (.ptr (some (.struct olds))) data).1.field i =
      (GoVal.ptr (some (.struct olds))).field i := by
  refine absent_untouched fs olds hl data _ (document_topDict hd) i f hi (fun ha => ?_)
  obtain ⟨k, h1, h2⟩ := hf ha
  rw [tagKey_of h1, document_key hd]
  exact h2

theorem skip_field (p : Bool) (kvs : List (Bytes × Bencode)) (raw : Bytes) (f : (Bytes × Bytes × Bool) × Ty)
    (hf : Active f → tagOptional f.1.2.1 = true ∧ lookupKey (tagKey f.1.2.1) kvs = .nil) (o : GoVal) (fs₂ : List ((Bytes × Bytes × Bool) × Ty)) (os₂ : List GoVal) :
    ∀ (fs₁ : List ((Bytes × Bytes × Bool) × Ty)) (os₁ : List GoVal), os₁.length = fs₁.length →
      (setFields (fs₁ ++ f :: fs₂) (os₁ ++ o :: os₂) (.dict p kvs raw)).2 = (setFields (fs₁ ++ fs₂) (os₁ ++ os₂) (.dict p kvs raw)).2 := by
  intro fs₁
  induction fs₁ with
  | nil =>
    intro os₁ hl
    have : os₁ = [] := List.length_eq_zero_iff.1 hl
    subst this
    obtain ⟨⟨nm, tag, c⟩, t⟩ := f
    rw [List.nil_append, List.nil_append]
    by_cases ha : Active ((nm, tag, c), t)
    · obtain ⟨ho, hn⟩ := hf ha
      obtain ⟨hc, ht⟩ := ha
      simp only at hc ht ho hn
      subst hc
      rw [setFields_cons_active _ _ _ _ ht, if_pos ((isNil_iff _).2 hn), if_pos ho]
      rfl
    · rw [setFields_cons_inactive _ _ _ _ _ ha]
      rfl
  | cons g fs₁ ih =>
    intro os₁ hl
    cases os₁ with
    | nil => simp at hl
    | cons x os₁ =>
      have ih := ih os₁ (by simpa using hl)
      obtain ⟨⟨nm, tag, c⟩, t⟩ := g
      by_cases hact : Active ((nm, tag, c), t)
      · obtain ⟨hc, ht⟩ := hact
        simp only at hc ht
        subst hc
        simp only [List.cons_append]
        rw [setFields_cons_active _ _ _ _ ht, setFields_cons_active _ _ _ _ ht]
        simp only [List.headD_cons, List.tail_cons]
        by_cases h1 : (lookupKey (tagKey tag) kvs).isNil = true
        · rw [if_pos h1, if_pos h1]
          by_cases h2 : tagOptional tag = true
          · rw [if_pos h2, if_pos h2]; exact ih
          · rw [if_neg h2, if_neg h2]
        · rw [if_neg h1, if_neg h1]
          by_cases h2 : (setField t x (lookupKey (tagKey tag) kvs)).2 = .ok
          · simp only [h2, if_true]; exact ih
          · simp only [h2, if_false]
      · simp only [List.cons_append]
        rw [setFields_cons_inactive _ _ _ _ _ hact, setFields_cons_inactive _ _ _ _ _ hact]
        exact ih

/-- C13: an optional field whose key is absent makes no difference to the outcome: it is that of the struct without the field. -/
theorem C13_optional (fs₁ fs₂ : List ((Bytes × Bytes × Bool) × Ty)) (f : (Bytes × Bytes × Bool) × Ty) (os₁ os₂ : List GoVal) (o : GoVal)
    (hl : os₁.length = fs₁.length) (data : Bytes) (es : List (Bytes × Bencode)) (hd : Document data es)
    (ho : TagOptional f.1.2.1) (k : Bytes) (hk : TagNames f.1.2.1 k) (hm : ∀ v, (k, v) ∉ es) :
    (unmarshal (.ptr (.struct (fs₁ ++ f :: fs₂))) (.ptr (some (.struct (os₁ ++ o :: os₂)))) data).2 =
      (unmarshal (.ptr (.struct (fs₁ ++ fs₂))) (.ptr (some (.struct (os₁ ++ os₂)))) data).2 := by
  obtain ⟨p, raw, hp⟩ := document_topDict hd
  have key : ∀ fs olds, unmarshal (.ptr (.struct fs)) (.ptr (some (.struct olds))) data =
      (.ptr (some (.struct (setFields fs olds (.dict p (mapOf es) raw)).1)), (setFields fs olds (.dict p (mapOf es) raw)).2) := by
    intro fs olds
    simp [unmarshal, hp, processTarget]
  rw [key, key]
  refine skip_field p (mapOf es) raw f (fun ha => ⟨(tagOptional_iff _).2 ho, ?_⟩) o fs₂ os₂ fs₁ os₁ hl
  rw [tagKey_of hk, document_key hd]
  exact hm

/-- Documents used in the examples. -/
theorem denotes_a (s : Bytes) (h : s.length < 10) :
    Denotes (UInt8.ofNat (48 + s.length) :: 58 :: s) (.str s) := by
  have hn : (UInt8.ofNat (48 + s.length)).toNat = 48 + s.length := by rw [UInt8.toNat_ofNat']; omega
  have hd : IsDigits [UInt8.ofNat (48 + s.length)] := by
    intro d hd; simp only [List.mem_singleton] at hd; subst hd; omega
  refine Denotes.str [UInt8.ofNat (48 + s.length)] s hd ?_
  have hdec : decimal [UInt8.ofNat (48 + s.length)] = s.length := by
    simp only [decimal, List.foldl_cons, List.foldl_nil]; omega
  rw [machineNumber_of_le _ (by rw [hdec]; simp only [maxNumber]; omega), hdec]

/-- `d1:a1:xe` has key "a" and lacks the required key "b". -/
example : ∃ e, (unmarshal (.ptr (.struct abFields)) (.ptr (some (.struct (zeros abFields)))) (ascii "d1:a1:xe")).2 = .err e := by
  have h := DenotesEntries.cons _ _ _ _ _ _ (denotes_a (ascii "a") (by decide)) (denotes_a (ascii "x") (by decide)) .nil
  refine C13_missing abFields (by simp [abFields, fld, StringKeyedAll, StringKeyed]) _ _ [(ascii "a", .str (ascii "x"))]
    ⟨_, [], (by decide), h⟩ (fld "B" "b" (.int 64)) (by simp [abFields])
    (by simp [Active, fld, ascii]) (fun h => absurd ((tagOptional_iff _).2 h) (by decide)) (ascii "b") ⟨by decide, .inl (by decide)⟩ (by simp [ascii])

/-- "peers,optional" and "a,x,optional,y" are optional, "optional" is not. -/
example : TagOptional (ascii "peers,optional") ∧ TagOptional (ascii "a,x,optional,y") ∧ ¬ TagOptional (ascii "optional") ∧
    TagNames (ascii "a,x,optional,y") (ascii "a") :=
  ⟨⟨ascii "peers", .inl (by decide)⟩, ⟨ascii "a,x", .inr ⟨ascii "y", by decide⟩⟩, fun h => absurd ((tagOptional_iff _).2 h) (by decide),
    by decide, .inr ⟨ascii "x,optional,y", by decide⟩⟩

/-! ## C14 -/

/-- C14: an integer element stored in a signed field is stored exactly, and only if it fits. Partial: `n` is the
integer `Parse` produced, which is the number written in the document only up to 922337203685477580 (`C03_numbers`). -/
theorem C14_int_partial (bits : Nat) (h1 : 1 ≤ bits) (hb : bits ≤ 64) (old : GoVal) (n : Int) :
    setField (.int bits) old (.int n) =
      if -2 ^ (bits - 1) ≤ n ∧ n < 2 ^ (bits - 1) then (.int n, .ok)
      else (old, .err "could not assign bencode value to target") := by
  rw [setField, setValue]
  simp only [Bencode.toText, prettyPrint, parseInt0_itoa n bits h1 hb]
  by_cases h : -2 ^ (bits - 1) ≤ n ∧ n < 2 ^ (bits - 1)
  · rw [if_pos h, if_pos h]
  · rw [if_neg h, if_neg h]

/-- C14 for unsigned fields. -/
theorem C14_uint_partial (bits : Nat) (hb : bits ≤ 64) (old : GoVal) (n : Int) :
    setField (.uint bits) old (.int n) =
      if 0 ≤ n ∧ n < 2 ^ bits then (.uint n.toNat, .ok) else (old, .err "strconv.ParseUint") := by
  rw [setField, setValue]
  simp only [Bencode.toText, prettyPrint, parseUint0_itoa n bits hb]
  by_cases h : 0 ≤ n ∧ n < 2 ^ bits
  · rw [if_pos h, if_pos h]
  · rw [if_neg h, if_neg h]

/-- C14 at the level of `Unmarshal`: if the call succeeds and the document writes the key with the digits `ds`
denoting at most 922337203685477580, the field holds exactly that number. -/
theorem C14_unmarshal_partial (fs : List ((Bytes × Bytes × Bool) × Ty)) (olds : List GoVal) (data : Bytes)
    (kvs : List (Bytes × Bencode)) (hd : TopDict data kvs)
    (hok : (unmarshal (.ptr (.struct fs)) (.ptr (some (.struct olds))) data).2 = .ok)
    (i : Nat) (nm tag : Bytes) (bits : Nat) (hb1 : 1 ≤ bits) (hb : bits ≤ 64)
    (hi : fs[i]? = some ((nm, tag, true), .int bits)) (ht : tag ≠ [])
    (ds : Bytes) (hv : lookupKey (tagKey tag) kvs = .int (machineNumber ds)) (hsmall : decimal ds ≤ maxNumber) :
    (unmarshal (.ptr (.struct fs)) (.ptr (some (.struct olds))) data).1.field i = .int (decimal ds) ∧
      (decimal ds : Int) < 2 ^ (bits - 1) := by
  obtain ⟨p, raw, h⟩ := unmarshal_dict (fs := fs) (olds := olds) hd
  rw [h] at hok ⊢
  simp only [GoVal.field] at hok ⊢
  rcases setFields_ok fs olds _ p kvs raw (Prod.ext rfl hok) i nm tag _ hi ht with ⟨_, h2, h3⟩ | ⟨h1, _⟩
  · rw [hv, machineNumber_of_le ds hsmall, C14_int_partial bits hb1 hb] at h2 h3
    split at h2
    · rename_i hr
      rw [if_pos hr] at h3
      rw [h3]; exact ⟨rfl, hr.2⟩
    · simp at h2
  · rw [hv] at h1; simp at h1

/-- Whatever kind of element the document holds, a stored number is in the field's range. -/
theorem C14_range (bits : Nat) (old : GoVal) (v : Bencode) :
    (∀ x, setField (.int bits) old v = (x, .ok) → ∃ n : Int, x = .int n ∧ -2 ^ (bits - 1) ≤ n ∧ n < 2 ^ (bits - 1)) ∧
    (∀ x, setField (.uint bits) old v = (x, .ok) → ∃ n : Nat, x = .uint n ∧ n < 2 ^ bits) := by
  constructor
  · intro x h
    rw [setField, setValue] at h
    split at h
    · rename_i n hn
      simp only [Prod.mk.injEq] at h
      exact ⟨n, h.1.symm, parseInt0_range hn⟩
    · simp at h
  · intro x h
    rw [setField, setValue] at h
    split at h
    · rename_i n hn
      simp only [Prod.mk.injEq] at h
      exact ⟨n, h.1.symm, parseUint0_range hn⟩
    · simp at h

/-- C14 as stated is false: `d1:bi922337203685477581ee` is stored, without error, as another number. -/
theorem C14_exact_violated :
    ∃ ds : Bytes, IsDigits ds ∧
      unmarshal (.ptr (.struct [fld "B" "b" (.int 64)])) (.ptr (some (.struct [.int 0])))
        (ascii "d1:bi" ++ ds ++ ascii "ee") = (.ptr (some (.struct [.int (-922337203685477580)])), .ok) ∧
      (decimal ds : Int) = 922337203685477581 := by
  refine ⟨ascii "922337203685477581", isDigits_of_all (by decide), ?_, by decide⟩
  have h := DenotesEntries.cons _ _ _ _ _ _ (denotes_a (ascii "b") (by decide))
    (denotes_int (n := -922337203685477580) (isDigits_of_all (ds := ascii "922337203685477581") (by decide)) (by decide)) .nil
  have hp := parse_complete (.dict _ _ h) []
  have e : (ascii "d1:bi" ++ ascii "922337203685477581" ++ ascii "ee") = _ := rfl
  obtain ⟨p, raw, hu⟩ := unmarshal_dict (fs := [fld "B" "b" (.int 64)]) (olds := [.int 0])
    (data := ascii "d1:bi" ++ ascii "922337203685477581" ++ ascii "ee")
    (kvs := mapOf [(ascii "b", .int (-922337203685477580))]) ⟨true, _, hp⟩
  rw [hu]
  have hfs : setFields [fld "B" "b" (.int 64)] [.int 0] (.dict p (mapOf [(ascii "b", .int (-922337203685477580))]) raw)
      = ([.int (-922337203685477580)], .ok) := by
    rw [fld, setFields_cons_active _ _ _ _ (by decide)]
    have hl : lookupKey (tagKey (ascii "b")) (mapOf [(ascii "b", .int (-922337203685477580))]) =
      .int (-922337203685477580) := rfl
    rw [hl, C14_int_partial 64 (by decide) (by decide)]
    simp [Bencode.isNil, setFields]
  rw [hfs]

example : setField (.int 8) (.int 0) (.int 127) = (.int 127, .ok) := by
  rw [C14_int_partial 8 (by decide) (by decide)]; rfl
example : (setField (.int 8) (.int 0) (.int 128)).2 ≠ .ok := by
  rw [C14_int_partial 8 (by decide) (by decide)]; decide

/-! ## C15 -/

/-- C15: after a successful `Unmarshal` into `Metainfo`, the document's top-level dictionary has an info dictionary
(the last one in the text), its source bytes are a contiguous piece of the file, `InfoDictRaw` is those bytes, the
hash is their SHA-1, and `Info` is what is read from those same bytes on their own. -/
theorem C15_info_hash (sha1 : Bytes → Bytes) (data : Bytes) (m : GoVal) (h : unmarshalMetainfo data = (m, .ok)) :
    ∃ kvs top body es p ikvs raw,
      parse data = .ok (.dict true kvs top) ∧ top = 100 :: body ++ [101] ∧ DenotesEntries body es ∧
      lastValue (ascii "info") es = .dict p ikvs raw ∧
      (∃ pre post, data = pre ++ (raw ++ post)) ∧
      metaInfoDictRaw m = raw ∧ metaHash sha1 m = sha1 raw ∧
      parse raw = .ok (.dict p ikvs raw) ∧
      unmarshal (.ptr (.struct infoFields)) (.ptr (some (.struct (zeros infoFields)))) raw =
        (.ptr (some (metaInfo m)), .ok) := by
  have hok : (unmarshal (.ptr (.struct metainfoFields)) (.ptr (some (.struct (zeros metainfoFields)))) data).2 = .ok := by
    have := congrArg Prod.snd h; exact this
  obtain ⟨kvs, hd, hne⟩ := required_key metainfoFields _ data hok (fld "Info" "info" (.struct infoFields))
    (by simp [metainfoFields]) (by simp [Active, fld, ascii]) (by decide)
  have hd' := hd
  obtain ⟨p0, top, hp⟩ := hd
  obtain ⟨p', raw', hu⟩ := unmarshal_dict (fs := metainfoFields) (olds := zeros metainfoFields) hd'
  have hm : m = .ptr (some (.struct (setFields metainfoFields (zeros metainfoFields) (.dict p' kvs raw')).1)) := by
    have := congrArg Prod.fst h
    simp only [unmarshalMetainfo, newMetainfo] at this
    rw [hu] at this; exact this.symm
  rw [hu] at hok
  simp only at hok
  have hkey : tagKey (ascii "info") = ascii "info" := by decide
  have hkey' : tagKey (fld "Info" "info" (.struct infoFields)).1.2.1 = ascii "info" := hkey
  rw [hkey'] at hne
  have h3 := setFields_ok metainfoFields _ _ p' kvs raw' (Prod.ext rfl hok) 3 (ascii "Info") (ascii "info")
    (.struct infoFields) rfl (by decide)
  have h4 := setFields_ok metainfoFields _ _ p' kvs raw' (Prod.ext rfl hok) 4 (ascii "InfoDictRaw") (ascii "info")
    (.slice (.uint 8)) rfl (by decide)
  rw [hkey] at h3 h4
  rcases h3 with ⟨_, h3ok, h3v⟩ | ⟨h3, _⟩
  case inr => exact absurd h3 hne
  rcases h4 with ⟨_, h4ok, h4v⟩ | ⟨h4, _⟩
  case inr => exact absurd h4 hne
  have hold3 : ((zeros metainfoFields)[3]?).getD (zero (.struct infoFields)) = .struct (zeros infoFields) := by
    simp [metainfoFields, zeros, fld, zero]
  rw [hold3] at h3ok h3v
  -- the info value is a dictionary
  have hdict : ∃ p ikvs raw, lookupKey (ascii "info") kvs = .dict p ikvs raw := by
    revert h3ok
    cases lookupKey (ascii "info") kvs with
    | dict p ikvs raw => intro _; exact ⟨p, ikvs, raw, rfl⟩
    | _ => intro h; rw [setField, setValue.eq_def] at h; simp at h
  obtain ⟨p, ikvs, raw, hdv⟩ := hdict
  rw [hdv] at h3ok h3v h4v
  have hp1 := hp
  obtain ⟨b, r, hb, hden⟩ := parse_sound hp1
  obtain ⟨hp0, body, es, htop, hes, hkv⟩ : p0 = true ∧ ∃ body es, top = 100 :: body ++ [101] ∧ DenotesEntries body es ∧
      ∀ k, lookupKey k kvs = lastValue k es := by
    generalize hv : Bencode.dict p0 kvs top = v at hden
    cases hden with
    | int => cases hv
    | str => cases hv
    | list => cases hv
    | dict body es hes =>
      injection hv with e1 e2 e3
      exact ⟨e1, body, es, e3, hes, fun k => by rw [e2]; exact lookup_mapOf k es⟩
  subst hp0
  have hsub : Sub (.dict p ikvs raw) (.dict true kvs top) := by
    have hmem : ∀ kvs : List (Bytes × Bencode), lookupKey (ascii "info") kvs = .dict p ikvs raw →
        ∃ k, (k, Bencode.dict p ikvs raw) ∈ kvs := by
      intro kvs
      induction kvs with
      | nil => intro h; simp [lookupKey] at h
      | cons e kvs ih =>
        obtain ⟨k, v⟩ := e
        intro h
        simp only [lookupKey] at h
        split at h
        · subst h; exact ⟨k, List.mem_cons_self⟩
        · obtain ⟨k', hk'⟩ := ih h; exact ⟨k', List.mem_cons_of_mem _ hk'⟩
    obtain ⟨k, hk⟩ := hmem kvs hdv
    exact .dict true top hk (.refl _)
  have h6 := C06_raw data _ _ hp hsub trivial
  simp only [Bencode.rawBytes] at h6
  have hraw : metaInfoDictRaw m = raw := by
    rw [hm]
    simp only [metaInfoDictRaw, GoVal.field, h4v]
    rw [setField, setValue.eq_def]
    rfl
  refine ⟨kvs, top, body, es, p, ikvs, raw, hp, htop, hes, ?_, h6.1, hraw, by simp [metaHash, hraw], h6.2, ?_⟩
  · rw [← hkv]; exact hdv
  · have hinfo : metaInfo m = .struct (setFields infoFields (zeros infoFields) (.dict p ikvs raw)).1 := by
      rw [hm]
      simp only [metaInfo, GoVal.field, h3v]
      rw [setField, setValue]; rfl
    rw [hinfo]
    rw [setField, setValue] at h3ok
    simp only at h3ok
    simp only [unmarshal, h6.2, processTarget]
    rw [h3ok]

/-- A minimal torrent file. -/
def miniTorrent : Bytes := ascii "d8:announce1:a4:infod4:name1:n12:piece lengthi1e6:pieces0:ee"

theorem mini_parse : parse miniTorrent = .ok (.dict true
    [(ascii "announce", .str (ascii "a")),
     (ascii "info", .dict true [(ascii "name", .str (ascii "n")), (ascii "piece length", .int 1), (ascii "pieces", .str [])]
        (ascii "d4:name1:n12:piece lengthi1e6:pieces0:e"))] miniTorrent) := by
  have hpl : Denotes (ascii "12:piece length") (.str (ascii "piece length")) :=
    .str (ascii "12") (ascii "piece length") (isDigits_of_all (by decide)) (by decide)
  have h1 : Denotes (ascii "i1e") (.int 1) :=
    denotes_int (ds := ascii "1") (isDigits_of_all (by decide)) (by decide)
  have hi := DenotesEntries.cons _ _ _ _ _ _ (denotes_a (ascii "name") (by decide)) (denotes_a (ascii "n") (by decide))
    (.cons _ _ _ _ _ _ hpl h1 (.cons _ _ _ _ _ _ (denotes_a (ascii "pieces") (by decide)) (denotes_a [] (by decide)) .nil))
  have h := DenotesEntries.cons _ _ _ _ _ _ (denotes_a (ascii "announce") (by decide)) (denotes_a (ascii "a") (by decide))
    (.cons _ _ _ _ _ _ (denotes_a (ascii "info") (by decide)) (.dict _ _ hi) .nil)
  exact parse_complete (.dict _ _ h) []

/-- Non-vacuity of C15: the minimal torrent unmarshals, and its hash is that of its info dictionary's text. -/
example (sha1 : Bytes → Bytes) : ∃ m, unmarshalMetainfo miniTorrent = (m, .ok) ∧
    metaHash sha1 m = sha1 (ascii "d4:name1:n12:piece lengthi1e6:pieces0:e") := by
  have hint : parseInt0 (Bencode.int 1).toText 64 = .ok 1 := by
    simp only [Bencode.toText, prettyPrint]
    rw [parseInt0_itoa _ _ (by decide) (by decide)]; rfl
  refine ⟨_, Prod.ext rfl ?_, ?_⟩ <;>
  simp [unmarshalMetainfo, newMetainfo, unmarshal, mini_parse, processTarget, metainfoFields, fld, setFields, ascii,
    tagKey, tagOptional, splitComma, lookupKey, Bencode.isNil, setField.eq_def, setValue.eq_def, infoFields, zeros, zero,
    hint, metaHash, metaInfoDictRaw, GoVal.field, GoVal.asBytes, Bencode.rawBytes]

/-! ## C16 -/

/-- C16 as stated is false: the first field keeps its new value although the second one failed. -/
theorem C16_atomic_violated :
    ∃ data e, unmarshal (.ptr (.struct abFields)) (.ptr (some (.struct [.string [], .int 0]))) data =
      (.ptr (some (.struct [.string (ascii "x"), .int 0])), .err e) := by
  have h := DenotesEntries.cons _ _ _ _ _ _ (denotes_a (ascii "a") (by decide)) (denotes_a (ascii "x") (by decide))
    (.cons _ _ _ _ _ _ (denotes_a (ascii "b") (by decide)) (denotes_a (ascii "y") (by decide)) .nil)
  have hp := parse_complete (.dict _ _ h) []
  obtain ⟨p, raw, hu⟩ := unmarshal_dict (fs := abFields) (olds := [.string [], .int 0])
    (kvs := mapOf [(ascii "a", .str (ascii "x")), (ascii "b", .str (ascii "y"))]) ⟨true, _, hp⟩
  refine ⟨_, "could not assign bencode value to target", hu.trans ?_⟩
  have hfs : setFields abFields [.string [], .int 0]
      (.dict p (mapOf [(ascii "a", .str (ascii "x")), (ascii "b", .str (ascii "y"))]) raw)
      = ([.string (ascii "x"), .int 0], .err "could not assign bencode value to target") := by
    have hl : lookupKey (tagKey (ascii "a")) (mapOf [(ascii "a", .str (ascii "x")), (ascii "b", .str (ascii "y"))]) =
      .str (ascii "x") := rfl
    have hl2 : lookupKey (tagKey (ascii "b")) (mapOf [(ascii "a", .str (ascii "x")), (ascii "b", .str (ascii "y"))]) =
      .str (ascii "y") := rfl
    have hpi : parseInt0 (ascii "y") 64 = .error .syntax := by rfl
    rw [abFields, fld, setFields_cons_active _ _ _ _ (by decide), fld, setFields_cons_active _ _ _ _ (by decide), hl, hl2]
    simp [Bencode.isNil, setField, setValue, Bencode.toText, prettyPrint, hpi]
  rw [hfs]

/-- C16, what does hold: if the document cannot be parsed nothing changes; otherwise there is a field at which the call
stopped, all later fields are unchanged, and the failing field itself is unchanged unless it is a struct or pointer.
Missing: earlier fields have already been overwritten. -/
theorem C16_later_fields_partial (fs : List ((Bytes × Bytes × Bool) × Ty)) (olds : List GoVal)
    (hl : olds.length = fs.length) (data : Bytes) (e : String) (x : GoVal)
    (h : unmarshal (.ptr (.struct fs)) (.ptr (some (.struct olds))) data = (x, .err e)) :
    x = .ptr (some (.struct olds)) ∨
    ∃ k nm tag t, fs[k]? = some ((nm, tag, true), t) ∧
      (∀ i, k < i → x.field i = (GoVal.struct olds).field i) ∧
      (Atomic t → x.field k = (GoVal.struct olds).field k) := by
  match hp : parse data with
  | .err e' => left; simp [unmarshal, hp] at h; exact h.1.symm
  | .panic w => simp [unmarshal, hp] at h
  | .outOfFuel => exact absurd hp (parse_not_fuel data)
  | .ok v =>
    simp only [unmarshal, hp, processTarget, Prod.mk.injEq] at h
    obtain ⟨rfl, ho⟩ := h
    by_cases hv : ∃ p kvs raw, v = .dict p kvs raw
    · obtain ⟨p, kvs, raw, rfl⟩ := hv
      right
      obtain ⟨k, nm, tag, t, old, h1, h2, h3, h4, h5⟩ := setFields_fail fs olds p kvs raw hl (by rw [ho]; simp)
      refine ⟨k, nm, tag, t, h1, ?_, ?_⟩
      · intro i hi; simp only [GoVal.field, h4 i hi]
      · intro ha
        simp only [GoVal.field, h2]
        rcases h5 with ⟨_, _, h5⟩ | ⟨_, h6, h5⟩
        · rw [h5]
        · rw [h5, setField_atomic_fail ha h6]
    · exfalso
      have hv' : ∀ p kvs raw, v ≠ .dict p kvs raw := fun p kvs raw e => hv ⟨p, kvs, raw, e⟩
      by_cases hact : ∃ f ∈ fs, Active f
      · have := (setFields_nonDict fs v hv' olds).2 hact
        rw [ho] at this; simp [Outcome.isPanic] at this
      · have : ∀ (fs : List ((Bytes × Bytes × Bool) × Ty)) olds, (¬ ∃ f ∈ fs, Active f) → (setFields fs olds v).2 = .ok := by
          intro fs
          induction fs with
          | nil => intro olds _; simp [setFields]
          | cons f fs ih =>
            intro olds hn
            obtain ⟨⟨nm, tag, c⟩, t⟩ := f
            rw [setFields_cons_inactive _ _ _ _ _ (fun ha => hn ⟨_, List.mem_cons_self, ha⟩)]
            exact ih _ (fun ⟨f, hf, ha⟩ => hn ⟨f, List.mem_cons_of_mem _ hf, ha⟩)
        rw [this fs olds hact] at ho; simp at ho

/-- A struct without nested structs or pointers, with a single tagged field, is left unchanged by a failing call. -/
theorem C16_single_field_partial (nm tag : Bytes) (t : Ty) (ht : Atomic t) (old : GoVal) (data : Bytes) (e : String)
    (x : GoVal) (h : unmarshal (.ptr (.struct [((nm, tag, true), t)])) (.ptr (some (.struct [old]))) data = (x, .err e)) :
    x.field 0 = old := by
  rcases C16_later_fields_partial _ _ rfl data e x h with rfl | ⟨k, nm', tag', t', h1, _, h3⟩
  · rfl
  · cases k with
    | zero =>
      simp only [List.getElem?_cons_zero, Option.some.injEq, Prod.mk.injEq] at h1
      exact h3 (h1.2 ▸ ht)
    | succ k => simp at h1


/-- When the field loop fails there is a first field at which it does: the fields before it are as if the struct ended there. -/
theorem setFields_before (fs : List ((Bytes × Bytes × Bool) × Ty)) : ∀ (olds : List GoVal) (v : Bencode), olds.length = fs.length →
    (setFields fs olds v).2 ≠ .ok → ∃ k, k < fs.length ∧
      setFields (fs.take k) (olds.take k) v = ((setFields fs olds v).1.take k, .ok) ∧
      (setFields (fs.take (k + 1)) (olds.take (k + 1)) v).2 = (setFields fs olds v).2 ∧
      (setFields fs olds v).1.drop (k + 1) = olds.drop (k + 1) := by
  induction fs with
  | nil => intro olds v _ h; simp [setFields] at h
  | cons f fs ih =>
    intro olds v hl h
    cases olds with
    | nil => simp at hl
    | cons o olds =>
      simp only [List.length_cons, Nat.add_right_cancel_iff] at hl
      obtain ⟨⟨nm, tag, c⟩, t⟩ := f
      simp only [List.take_succ_cons, List.length_cons]
      have step : ∀ (x : GoVal), (∀ gs os, os.length = gs.length → setFields (((nm, tag, c), t) :: gs) (o :: os) v = (x :: (setFields gs os v).1, (setFields gs os v).2)) →
          ∃ k, k < fs.length + 1 ∧
          setFields ((((nm, tag, c), t) :: fs).take k) ((o :: olds).take k) v = ((setFields (((nm, tag, c), t) :: fs) (o :: olds) v).1.take k, .ok) ∧
          (setFields (((nm, tag, c), t) :: fs.take k) (o :: olds.take k) v).2 = (setFields (((nm, tag, c), t) :: fs) (o :: olds) v).2 ∧
          (setFields (((nm, tag, c), t) :: fs) (o :: olds) v).1.drop (k + 1) = (o :: olds).drop (k + 1) := by
        intro x hx
        rw [hx fs olds hl] at h ⊢
        obtain ⟨k, h1, h2, h3, h4⟩ := ih olds v hl h
        refine ⟨k + 1, by omega, ?_, ?_, ?_⟩
        · simp only [List.take_succ_cons]
          rw [hx _ _ (by simp [hl]), h2]
        · rw [hx _ _ (by simp [hl])]; exact h3
        · simpa using h4
      have fail : ∀ (x : GoVal) (e : Outcome), (∀ gs os, setFields (((nm, tag, c), t) :: gs) (o :: os) v = (x :: os, e)) →
          ∃ k, k < fs.length + 1 ∧
          setFields ((((nm, tag, c), t) :: fs).take k) ((o :: olds).take k) v = ((setFields (((nm, tag, c), t) :: fs) (o :: olds) v).1.take k, .ok) ∧
          (setFields (((nm, tag, c), t) :: fs.take k) (o :: olds.take k) v).2 = (setFields (((nm, tag, c), t) :: fs) (o :: olds) v).2 ∧
          (setFields (((nm, tag, c), t) :: fs) (o :: olds) v).1.drop (k + 1) = (o :: olds).drop (k + 1) := by
        intro x e hx
        refine ⟨0, by omega, ?_, ?_, ?_⟩
        · simp [setFields]
        · rw [hx, hx]
        · rw [hx]; simp
      by_cases hact : (!c || decide (tag = [])) = true
      · refine step o ?_
        intro gs os _
        rw [setFields_cons_inactive _ _ _ _ _ (by
          rintro ⟨h1, h2⟩
          simp only at h1 h2
          simp [h1, h2] at hact)]
        rfl
      · by_cases hd : ∃ p kvs raw, v = .dict p kvs raw
        · obtain ⟨p, kvs, raw, rfl⟩ := hd
          by_cases hnil : (lookupKey (tagKey tag) kvs).isNil = true
          · by_cases hopt : tagOptional tag = true
            · refine step o ?_
              intro gs os _
              rw [setFields]; simp only [List.headD_cons, List.tail_cons]
              rw [if_neg (by simpa using hact)]
              rw [if_pos hnil, if_pos hopt]
            · refine fail o (.err "Required ben field not found") ?_
              intro gs os
              rw [setFields]; simp only [List.headD_cons, List.tail_cons]
              rw [if_neg (by simpa using hact)]
              rw [if_pos hnil, if_neg hopt]
          · by_cases hok : (setField t o (lookupKey (tagKey tag) kvs)).2 = .ok
            · refine step (setField t o (lookupKey (tagKey tag) kvs)).1 ?_
              intro gs os _
              rw [setFields]; simp only [List.headD_cons, List.tail_cons]
              rw [if_neg (by simpa using hact)]
              rw [if_neg hnil]
              rw [show setField t o (lookupKey (tagKey tag) kvs) = ((setField t o (lookupKey (tagKey tag) kvs)).1, .ok) from Prod.ext rfl hok]
            · refine fail (setField t o (lookupKey (tagKey tag) kvs)).1 (setField t o (lookupKey (tagKey tag) kvs)).2 ?_
              intro gs os
              rw [setFields]; simp only [List.headD_cons, List.tail_cons]
              rw [if_neg (by simpa using hact)]
              rw [if_neg hnil]
        · refine fail o (.panic "bencode internal: bencode element not *DictElement") ?_
          intro gs os
          rw [setFields]; simp only [List.headD_cons, List.tail_cons]
          rw [if_neg (by simpa using hact)]
          cases v <;> simp_all <;> rfl

/-- C16, exact: when Unmarshal fails on a document that can be parsed, there is a field at which it stopped; the fields before it were
all set, exactly as for a struct that ends there; the fields after it are untouched. Missing: the failing field of struct or pointer type. -/
theorem C16_before_partial (fs : List ((Bytes × Bytes × Bool) × Ty)) (olds : List GoVal)
    (hl : olds.length = fs.length) (data : Bytes) (e : String) (x : GoVal)
    (h : unmarshal (.ptr (.struct fs)) (.ptr (some (.struct olds))) data = (x, .err e)) :
    (x = .ptr (some (.struct olds)) ∧ parse data = .err e) ∨
    ∃ k xs, k < fs.length ∧ x = .ptr (some (.struct xs)) ∧
      unmarshal (.ptr (.struct (fs.take k))) (.ptr (some (.struct (olds.take k)))) data = (.ptr (some (.struct (xs.take k))), .ok) ∧
      (unmarshal (.ptr (.struct (fs.take (k + 1)))) (.ptr (some (.struct (olds.take (k + 1))))) data).2 = .err e ∧
      xs.drop (k + 1) = olds.drop (k + 1) := by
  match hp : parse data with
  | .err e' => left; simp [unmarshal, hp] at h; exact ⟨h.1.symm, by rw [h.2]⟩
  | .panic w => simp [unmarshal, hp] at h
  | .outOfFuel => exact absurd hp (parse_not_fuel data)
  | .ok v =>
    right
    simp only [unmarshal, hp, processTarget, Prod.mk.injEq] at h ⊢
    obtain ⟨rfl, ho⟩ := h
    obtain ⟨k, h1, h2, h3, h4⟩ := setFields_before fs olds v hl (by rw [ho]; simp)
    refine ⟨k, _, h1, rfl, ?_, by rw [h3, ho], h4⟩
    rw [h2]; exact ⟨rfl, rfl⟩
/-- The document `d1:a1:x1:b1:ye` for a string field `a` and an int field `b`: stopped at `b`, `a` was set. -/
example (data : Bytes) (e : String) (x : GoVal)
    (h : unmarshal (.ptr (.struct abFields)) (.ptr (some (.struct [.string [], .int 0]))) data = (x, .err e)) (hp : ∃ v, parse data = .ok v) :
    ∃ k xs, k < 2 ∧ x = .ptr (some (.struct xs)) ∧ xs.drop (k + 1) = ([.string [], .int 0] : List GoVal).drop (k + 1) := by
  rcases C16_before_partial _ _ rfl data e x h with ⟨_, hp'⟩ | ⟨k, xs, h1, h2, _, _, h3⟩
  · obtain ⟨v, hv⟩ := hp; rw [hv] at hp'; cases hp'
  · exact ⟨k, xs, h1, h2, h3⟩

end Gotit.Props
