import Verif.Spec.Unmarshal
import Verif.Lemmas.Strconv
import Verif.Lemmas.Encode
namespace Gotit
open Spec

def Outcome.isPanic : Outcome → Bool
  | .panic _ => true
  | _ => false

theorem setEach_noPanic {g : Bencode → GoVal × Outcome} (hg : ∀ v, (g v).2.isPanic = false) (vs : List Bencode) :
    (setEach g vs).2.isPanic = false := by
  induction vs with
  | nil => rfl
  | cons v vs ih =>
    have := hg v
    rw [setEach]
    split
    · exact ih
    · rename_i h; rw [h] at this; exact this

theorem setEntries_noPanic {g : Bencode → GoVal × Outcome} (hg : ∀ v, (g v).2.isPanic = false)
    (vs : List (Bytes × Bencode)) (m : List (Bytes × GoVal)) : (setEntries true g vs m).2.isPanic = false := by
  induction vs generalizing m with
  | nil => rfl
  | cons v vs ih =>
    obtain ⟨k, v⟩ := v
    have := hg v
    rw [setEntries]
    split
    · exact ih _
    · rename_i h; rw [h] at this; exact this

mutual
theorem setValue_noPanic : ∀ (t : Ty), StringKeyed t → ∀ old v, (setValue t old v).2.isPanic = false
  | .string, _, old, v => by rw [setValue]; rfl
  | .int b, _, old, v => by rw [setValue]; split <;> rfl
  | .uint b, _, old, v => by rw [setValue]; split <;> rfl
  | .slice t, h, old, v => by
    have ih := setField_noPanic t (by rw [StringKeyed] at h; exact h)
    rw [setValue.eq_def]
    simp only
    split
    · rfl
    · split
      · rename_i vs _
        have := setEach_noPanic (g := fun x => setField t (zero t) x) (fun v => ih _ v) vs
        split
        · rfl
        · rename_i h; rw [h] at this; exact this
      · rfl
  | .struct fs, h, old, v => by
    rw [setValue.eq_def]
    simp only
    split
    · rename_i p kvs raw
      exact setFields_noPanic fs (by rw [StringKeyed] at h; exact h) _ p kvs raw
    · rfl
  | .map k t, h, old, v => by
    rw [StringKeyed] at h
    obtain ⟨rfl, h⟩ := h
    have ih := setField_noPanic t h
    rw [setValue.eq_def]
    simp only
    split
    · rename_i kvs _
      have := setEntries_noPanic (g := fun x => setField t (zero t) x) (fun v => ih _ v) kvs []
      split
      · rfl
      · rename_i h; rw [h] at this; exact this
    · rfl
  | .ptr t, h, old, v => by rw [setValue]; rfl
  | .other, _, old, v => by rw [setValue]; rfl
theorem setField_noPanic : ∀ (t : Ty), StringKeyed t → ∀ old v, (setField t old v).2.isPanic = false
  | .ptr t, h, old, v => by
    rw [setField.eq_def]
    exact setValue_noPanic t (by rw [StringKeyed] at h; exact h) _ _
  | .string, h, old, v => by rw [setField]; exact setValue_noPanic _ h _ _
  | .int _, h, old, v => by rw [setField]; exact setValue_noPanic _ h _ _
  | .uint _, h, old, v => by rw [setField]; exact setValue_noPanic _ h _ _
  | .slice _, h, old, v => by rw [setField]; exact setValue_noPanic _ h _ _
  | .struct _, h, old, v => by rw [setField]; exact setValue_noPanic _ h _ _
  | .map _ _, h, old, v => by rw [setField]; exact setValue_noPanic _ h _ _
  | .other, h, old, v => by rw [setField]; exact setValue_noPanic _ h _ _
theorem setFields_noPanic : ∀ (fs : List ((Bytes × Bytes × Bool) × Ty)), StringKeyedAll fs → ∀ olds p kvs raw,
    (setFields fs olds (.dict p kvs raw)).2.isPanic = false
  | [], _, olds, p, kvs, raw => by rw [setFields]; rfl
  | ((nm, tag, cs), t) :: fs, h, olds, p, kvs, raw => by
    rw [StringKeyedAll] at h
    have ih := fun olds => setFields_noPanic fs h.2 olds p kvs raw
    have iht := setField_noPanic t h.1
    rw [setFields]
    split
    · exact ih _
    · simp only
      split
      · split
        · exact ih _
        · rfl
      · have := iht (olds.headD (zero t)) (lookupKey (tagKey tag) kvs)
        split
        · exact ih _
        · rename_i h; rw [h] at this; exact this
end

/-- One step of the field loop for an active field. -/
theorem setFields_cons_active (nm tag : Bytes) (t : Ty) (fs : List ((Bytes × Bytes × Bool) × Ty)) (ht : tag ≠ [])
    (olds : List GoVal) (p : Bool) (kvs : List (Bytes × Bencode)) (raw : Bytes) :
    setFields (((nm, tag, true), t) :: fs) olds (.dict p kvs raw) =
      if (lookupKey (tagKey tag) kvs).isNil = true then
        if tagOptional tag then
          (olds.headD (zero t) :: (setFields fs olds.tail (.dict p kvs raw)).1,
            (setFields fs olds.tail (.dict p kvs raw)).2)
        else (olds.headD (zero t) :: olds.tail, .err "Required ben field not found")
      else if (setField t (olds.headD (zero t)) (lookupKey (tagKey tag) kvs)).2 = .ok then
        ((setField t (olds.headD (zero t)) (lookupKey (tagKey tag) kvs)).1 ::
          (setFields fs olds.tail (.dict p kvs raw)).1, (setFields fs olds.tail (.dict p kvs raw)).2)
      else ((setField t (olds.headD (zero t)) (lookupKey (tagKey tag) kvs)).1 :: olds.tail,
        (setField t (olds.headD (zero t)) (lookupKey (tagKey tag) kvs)).2) := by
  rw [setFields.eq_def]
  simp only
  rw [if_neg (by simp [ht])]
  split
  · rfl
  · split
    · rename_i heq; rw [heq]; simp
    · rename_i hne heq
      rw [heq]; simp only; rw [if_neg]
      intro e; subst e; exact hne rfl

theorem isNil_iff (v : Bencode) : v.isNil = true ↔ v = .nil := by cases v <;> simp [Bencode.isNil]

theorem setFields_cons_inactive (nm tag : Bytes) (c : Bool) (t : Ty) (fs : List ((Bytes × Bytes × Bool) × Ty))
    (ht : ¬ Active ((nm, tag, c), t)) (olds : List GoVal) (v : Bencode) :
    setFields (((nm, tag, c), t) :: fs) olds v =
      (olds.headD (zero t) :: (setFields fs olds.tail v).1, (setFields fs olds.tail v).2) := by
  rw [setFields.eq_def]
  simp only
  rw [if_pos]
  simp only [Active] at ht
  cases c <;> simp_all

/-- Every successfully processed active field: its key's value, if present, was stored by `setField`. -/
theorem setFields_ok (fs : List ((Bytes × Bytes × Bool) × Ty)) :
    ∀ (olds xs : List GoVal) (p : Bool) (kvs : List (Bytes × Bencode)) (raw : Bytes),
    setFields fs olds (.dict p kvs raw) = (xs, .ok) → ∀ (i : Nat) nm tag t, fs[i]? = some ((nm, tag, true), t) → tag ≠ [] →
      ((lookupKey (tagKey tag) kvs ≠ .nil ∧
        (setField t ((olds[i]?).getD (zero t)) (lookupKey (tagKey tag) kvs)).2 = .ok ∧
        xs[i]? = some (setField t ((olds[i]?).getD (zero t)) (lookupKey (tagKey tag) kvs)).1) ∨
       (lookupKey (tagKey tag) kvs = .nil ∧ tagOptional tag = true ∧ xs[i]? = some ((olds[i]?).getD (zero t)))) := by
  induction fs with
  | nil => intro olds xs p kvs raw h i nm tag t hi; simp at hi
  | cons f fs ih =>
    intro olds xs p kvs raw h i nm tag t hi ht
    obtain ⟨⟨nm', tag', c⟩, t'⟩ := f
    have hhead : ∀ d : GoVal, (olds[0]?).getD d = olds.headD d := by intro d; cases olds <;> rfl
    have htail : ∀ i : Nat, olds[i+1]? = olds.tail[i]? := by intro i; cases olds <;> simp
    by_cases hact : Active ((nm', tag', c), t')
    · obtain ⟨hc, htag⟩ := hact
      simp only at hc htag
      subst hc
      rw [setFields_cons_active _ _ _ _ htag] at h
      split at h
      · rename_i hnil
        rw [isNil_iff] at hnil
        split at h
        · rename_i hopt
          simp only [Prod.mk.injEq] at h
          obtain ⟨rfl, h2⟩ := h
          cases i with
          | zero =>
            simp only [List.getElem?_cons_zero, Option.some.injEq, Prod.mk.injEq] at hi
            obtain ⟨⟨rfl, rfl, _⟩, rfl⟩ := hi
            right; simp [hnil, hopt, hhead]
          | succ i =>
            simp only [List.getElem?_cons_succ] at hi ⊢
            rw [htail]
            exact ih _ _ p kvs raw (by rw [← h2]) i nm tag t hi ht
        · simp at h
      · rename_i hnil
        rw [isNil_iff] at hnil
        split at h
        · rename_i hok
          simp only [Prod.mk.injEq] at h
          obtain ⟨rfl, h2⟩ := h
          cases i with
          | zero =>
            simp only [List.getElem?_cons_zero, Option.some.injEq, Prod.mk.injEq] at hi
            obtain ⟨⟨rfl, rfl, _⟩, rfl⟩ := hi
            left; rw [hhead]; exact ⟨hnil, hok, by simp⟩
          | succ i =>
            simp only [List.getElem?_cons_succ] at hi ⊢
            rw [htail]
            exact ih _ _ p kvs raw (by rw [← h2]) i nm tag t hi ht
        · rename_i hne
          simp only [Prod.mk.injEq] at h
          exact absurd h.2 hne
    · rw [setFields_cons_inactive _ _ _ _ _ hact] at h
      simp only [Prod.mk.injEq] at h
      obtain ⟨rfl, h2⟩ := h
      cases i with
      | zero =>
        simp only [List.getElem?_cons_zero, Option.some.injEq, Prod.mk.injEq] at hi
        obtain ⟨⟨rfl, rfl, rfl⟩, rfl⟩ := hi
        exact absurd ⟨rfl, ht⟩ hact
      | succ i =>
        simp only [List.getElem?_cons_succ] at hi ⊢
        rw [htail]
        exact ih _ _ p kvs raw (by rw [← h2]) i nm tag t hi ht

/-- A field that is inactive or whose key is absent keeps its value, however the call ends. -/
theorem setFields_untouched (fs : List ((Bytes × Bytes × Bool) × Ty)) :
    ∀ (olds : List GoVal) (p : Bool) (kvs : List (Bytes × Bencode)) (raw : Bytes), olds.length = fs.length →
    ∀ (i : Nat) f, fs[i]? = some f → (Active f → lookupKey (tagKey f.1.2.1) kvs = .nil) →
      (setFields fs olds (.dict p kvs raw)).1[i]? = olds[i]? := by
  induction fs with
  | nil => intro olds p kvs raw _ i f hi; simp at hi
  | cons f fs ih =>
    intro olds p kvs raw hl i f' hi hf
    cases olds with
    | nil => simp at hl
    | cons o olds =>
      simp only [List.length_cons, Nat.add_right_cancel_iff] at hl
      obtain ⟨⟨nm', tag', c⟩, t'⟩ := f
      by_cases hact : Active ((nm', tag', c), t')
      · obtain ⟨hc, htag⟩ := hact
        simp only at hc htag
        subst hc
        rw [setFields_cons_active _ _ _ _ htag]
        simp only [List.headD_cons, List.tail_cons]
        cases i with
        | zero =>
          simp only [List.getElem?_cons_zero, Option.some.injEq] at hi
          subst hi
          have := hf ⟨rfl, htag⟩
          rw [if_pos ((isNil_iff _).2 this)]
          split <;> rfl
        | succ i =>
          simp only [List.getElem?_cons_succ] at hi
          have := ih olds p kvs raw hl i f' hi hf
          split
          · split
            · simpa using this
            · rfl
          · by_cases hok : (setField t' o (lookupKey (tagKey tag') kvs)).2 = .ok
            · simp [hok, this]
            · simp [hok]
      · rw [setFields_cons_inactive _ _ _ _ _ hact]
        cases i with
        | zero => rfl
        | succ i =>
          simp only [List.getElem?_cons_succ] at hi ⊢
          exact ih olds p kvs raw hl i f' hi hf

/-- A failing call stops at some field; all later fields are unchanged. -/
theorem setFields_fail (fs : List ((Bytes × Bytes × Bool) × Ty)) :
    ∀ (olds : List GoVal) (p : Bool) (kvs : List (Bytes × Bencode)) (raw : Bytes), olds.length = fs.length →
    (setFields fs olds (.dict p kvs raw)).2 ≠ .ok →
    ∃ (k : Nat) (nm tag : Bytes) (t : Ty) (old : GoVal), fs[k]? = some ((nm, tag, true), t) ∧ olds[k]? = some old ∧ tag ≠ [] ∧
      (∀ i, k < i → (setFields fs olds (.dict p kvs raw)).1[i]? = olds[i]?) ∧
      ((lookupKey (tagKey tag) kvs = .nil ∧ tagOptional tag = false ∧
          (setFields fs olds (.dict p kvs raw)).1[k]? = some old) ∨
       (lookupKey (tagKey tag) kvs ≠ .nil ∧ (setField t old (lookupKey (tagKey tag) kvs)).2 ≠ .ok ∧
          (setFields fs olds (.dict p kvs raw)).1[k]? = some (setField t old (lookupKey (tagKey tag) kvs)).1)) := by
  have hNil := isNil_iff
  induction fs with
  | nil => intro olds p kvs raw _ h; simp [setFields] at h
  | cons f fs ih =>
    intro olds p kvs raw hl h
    cases olds with
    | nil => simp at hl
    | cons o olds =>
      simp only [List.length_cons, Nat.add_right_cancel_iff] at hl
      obtain ⟨⟨nm', tag', c⟩, t'⟩ := f
      by_cases hact : Active ((nm', tag', c), t')
      · obtain ⟨hc, htag⟩ := hact
        simp only at hc htag
        subst hc
        rw [setFields_cons_active _ _ _ _ htag] at h ⊢
        simp only [List.headD_cons, List.tail_cons] at h ⊢
        by_cases hnil : lookupKey (tagKey tag') kvs = .nil
        · by_cases hopt : tagOptional tag'
          · simp only [hnil, hopt, if_true, Bencode.isNil] at h ⊢
            obtain ⟨k, nm, tag, t, old, h1, h2, h3, h4, h5⟩ := ih olds p kvs raw hl h
            refine ⟨k + 1, nm, tag, t, old, by simpa using h1, by simpa using h2, h3, ?_, by simpa using h5⟩
            intro i hi
            obtain ⟨i, rfl⟩ : ∃ j, i = j + 1 := ⟨i - 1, by omega⟩
            simpa using h4 i (by omega)
          · refine ⟨0, nm', tag', t', o, rfl, rfl, htag, ?_, .inl ⟨hnil, by simpa using hopt, ?_⟩⟩
            · intro i hi; simp [hnil, hopt, Bencode.isNil]
            · simp [hnil, hopt, Bencode.isNil]
        · have hnil' := hnil
          rw [← isNil_iff] at hnil'
          by_cases hok : (setField t' o (lookupKey (tagKey tag') kvs)).2 = .ok
          · simp only [hnil', hok, if_true, if_false] at h ⊢
            try simp only [Bool.false_eq_true, if_false] at h ⊢
            obtain ⟨k, nm, tag, t, old, h1, h2, h3, h4, h5⟩ := ih olds p kvs raw hl h
            refine ⟨k + 1, nm, tag, t, old, by simpa using h1, by simpa using h2, h3, ?_, by simpa using h5⟩
            intro i hi
            obtain ⟨i, rfl⟩ : ∃ j, i = j + 1 := ⟨i - 1, by omega⟩
            simpa using h4 i (by omega)
          · refine ⟨0, nm', tag', t', o, rfl, rfl, htag, ?_, .inr ⟨hnil, hok, ?_⟩⟩
            · intro i hi
              obtain ⟨i, rfl⟩ : ∃ j, i = j + 1 := ⟨i - 1, by omega⟩
              simp [hnil', hok]
            · simp [hnil', hok]
      · rw [setFields_cons_inactive _ _ _ _ _ hact] at h ⊢
        simp only [List.headD_cons, List.tail_cons] at h ⊢
        obtain ⟨k, nm, tag, t, old, h1, h2, h3, h4, h5⟩ := ih olds p kvs raw hl h
        refine ⟨k + 1, nm, tag, t, old, by simpa using h1, by simpa using h2, h3, ?_, by simpa using h5⟩
        intro i hi
        obtain ⟨i, rfl⟩ : ∃ j, i = j + 1 := ⟨i - 1, by omega⟩
        simpa using h4 i (by omega)

theorem setField_atomic_fail {t : Ty} (ht : Atomic t) {old : GoVal} {v : Bencode}
    (h : (setField t old v).2 ≠ .ok) : (setField t old v).1 = old := by
  cases t with
  | string => simp [setField, setValue] at h
  | int b => 
    simp only [setField, setValue] at h ⊢
    split <;> simp_all
  | uint b => 
    simp only [setField, setValue] at h ⊢
    split <;> simp_all
  | slice t =>
    rw [setField, setValue.eq_def] at h ⊢
    simp only at h ⊢
    split
    · simp_all
    · split
      · split
        · rename_i heq; simp [heq] at h
        · rfl
      · rfl
  | struct => simp [Atomic] at ht
  | map k t =>
    rw [setField, setValue.eq_def] at h ⊢
    simp only at h ⊢
    split
    · split
      · rename_i heq; simp [heq] at h
      · rfl
    · rfl
  | ptr => simp [Atomic] at ht
  | other => simp [setField, setValue]

end Gotit
