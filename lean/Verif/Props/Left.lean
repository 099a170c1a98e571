import Verif.Spec.Left
import Verif.Props.Stored
/-
  C16: what a failing Unmarshal leaves, exactly.
-/
namespace Gotit.Props
open Gotit Gotit.Spec

def LeftVal (t : Ty) : Prop := NotPointer t → ∀ old v x, Shaped t old → InDoc v → (setValue t old v).2 ≠ .ok →
  ((setValue t old v).1 = x ↔ Left t old v x)
def LeftFld (t : Ty) : Prop := ∀ old v x, Shaped t old → InDoc v → (setField t old v).2 ≠ .ok → ((setField t old v).1 = x ↔ Left t old v x)
def LeftFlds (fs : List ((Bytes × Bytes × Bool) × Ty)) : Prop :=
  ∀ olds v xs, ShapedIn fs olds → InDoc v → (((setFields fs olds v).1 = xs ∧ (setFields fs olds v).2 ≠ .ok) ↔ LeftFields fs olds v xs)

theorem left_of {t : Ty} (h : ∀ old v, setField t old v = setValue t old v) (hv : LeftVal t) (hp : NotPointer t) : LeftVal t ∧ LeftFld t :=
  ⟨hv, fun old v x hs hd => by rw [h]; exact hv hp old v x hs hd⟩

theorem left_flat {t : Ty} (ht : FlatTy t) (h : ∀ old v, (setValue t old v).2 ≠ .ok → (setValue t old v).1 = old) : LeftVal t := by
  intro _ old v x _ _ ho
  rw [h old v ho]
  constructor
  · rintro rfl; exact .same _ _ ht
  · intro hl
    cases hl with
    | same => rfl
    | notDict => rfl
    | struct => exact absurd rfl (ht.2 _)
    | ptrNil => exact absurd rfl (ht.1 _)
    | ptr => exact absurd rfl (ht.1 _)
    | ptrPtrNil => exact absurd rfl (ht.1 _)
    | ptrPtr => exact absurd rfl (ht.1 _)

theorem notDict_or (v : Bencode) : NotDict v ∨ ∃ p kvs raw, v = .dict p kvs raw := by
  cases v with
  | dict p kvs raw => exact .inr ⟨_, _, _, rfl⟩
  | _ => exact .inl (fun _ _ _ e => by cases e)

theorem leftVal_struct {fs : List ((Bytes × Bytes × Bool) × Ty)} (hfs : LeftFlds fs) : LeftVal (.struct fs) := by
  intro _ old v x hs hd ho
  rw [Shaped] at hs
  obtain ⟨olds, rfl, hs⟩ := hs
  rcases notDict_or v with hn | ⟨p, kvs, raw, rfl⟩
  · have e : (setValue (.struct fs) (.struct olds) v).1 = .struct olds := by
      cases v with
      | dict p kvs raw => exact absurd rfl (hn _ _ _)
      | _ => simp only [setValue]
    rw [e]
    constructor
    · rintro rfl; exact .notDict hn
    · intro h
      cases h with
      | same _ _ h => exact absurd rfl (h.2 _)
      | notDict => rfl
      | struct h => exact absurd hn h
  · have hfs := fun xs => hfs olds (.dict p kvs raw) xs hs hd
    rw [setValue] at ho ⊢
    simp only at ho ⊢
    constructor
    · rintro rfl
      exact .struct (fun h => h _ _ _ rfl) ((hfs _).1 ⟨rfl, ho⟩)
    · intro h
      cases h with
      | same _ _ h => exact absurd rfl (h.2 _)
      | notDict h => exact absurd rfl (h _ _ _)
      | struct _ h => rw [((hfs _).2 h).1]

theorem leftFld_ptr {t : Ty} (ht : LeftVal t) : LeftFld (.ptr t) := by
  intro old v x hs hd ho
  rw [Shaped] at hs
  by_cases hp : NotPointer t
  · have ht := ht hp
    rcases hs with rfl | ⟨y, rfl, hy⟩
    · rw [setField_ptrNil] at ho ⊢
      have ht := fun x => ht (zero t) v x (zero_shaped t) hd ho
      constructor
      · rintro rfl
        exact .ptrNil hp ((ht _).1 rfl)
      · intro h
        cases h with
        | same _ _ h => exact absurd rfl (h.1 _)
        | ptrNil _ h => rw [(ht _).2 h]
        | ptrPtrNil => exact absurd rfl (hp _)
    · rw [setField_ptr] at ho ⊢
      have ht := fun x => ht y v x hy hd ho
      constructor
      · rintro rfl
        exact .ptr hp ((ht _).1 rfl)
      · intro h
        cases h with
        | same _ _ h => exact absurd rfl (h.1 _)
        | ptr _ h => rw [(ht _).2 h]
        | ptrPtr => exact absurd rfl (hp _)
  · have : ∃ u, t = .ptr u := Classical.byContradiction fun hc => hp (fun u e => hc ⟨u, e⟩)
    obtain ⟨u, rfl⟩ := this
    rcases hs with rfl | ⟨y, rfl, _⟩
    · rw [setField_ptrNil, setValue]
      constructor
      · rintro rfl
        rw [show zero (.ptr u) = .ptr none by rw [zero]]
        exact .ptrPtrNil
      · intro h
        cases h with
        | same _ _ h => exact absurd rfl (h.1 _)
        | ptrNil h => exact absurd h hp
        | ptrPtrNil => rw [zero]
    · rw [setField_ptr, setValue]
      constructor
      · rintro rfl; exact .ptrPtr
      · intro h
        cases h with
        | same _ _ h => exact absurd rfl (h.1 _)
        | ptr h => exact absurd h hp
        | ptrPtr => rfl

theorem leftFlds_cons {f : (Bytes × Bytes × Bool) × Ty} {fs : List ((Bytes × Bytes × Bool) × Ty)} (hs' : FieldOk f.2) (hf : LeftFld f.2)
    (hfs : LeftFlds fs) : LeftFlds (f :: fs) := by
  obtain ⟨⟨nm, tag, c⟩, t⟩ := f
  intro olds v xs hs hd
  rw [ShapedIn] at hs
  obtain ⟨o, os, rfl, ho, hos⟩ := hs
  have hfs := fun xs => hfs os v xs hos hd
  by_cases ha : Active ((nm, tag, c), t)
  · obtain ⟨hc, ht⟩ := ha
    simp only at hc ht
    subst hc
    have ha : Active ((nm, tag, true), t) := ⟨rfl, ht⟩
    rcases notDict_or v with hn | ⟨p, kvs, raw, rfl⟩
    · have e : setFields (((nm, tag, true), t) :: fs) (o :: os) v = (o :: os, .panic "bencode internal: bencode element not *DictElement") := by
        rw [setFields.eq_def]
        cases v with
        | dict p kvs raw => exact absurd rfl (hn _ _ _)
        | _ => simp [ht]
      rw [e]
      constructor
      · rintro ⟨rfl, _⟩; exact .notDict ha hn
      · intro h
        have no : ∀ {k w}, ¬ HasEntry v k w := fun ⟨p, kvs, raw, e, _⟩ => hn _ _ _ e
        have no' : ∀ {k}, ¬ LacksKey v k := fun ⟨p, kvs, raw, e, _⟩ => hn _ _ _ e
        cases h with
        | notDict => exact ⟨rfl, by simp⟩
        | missing _ _ _ h => exact absurd h no'
        | wrong _ _ h => exact absurd h no
        | skip h => exact absurd ha h
        | absent _ _ _ h => exact absurd h no'
        | present _ _ h => exact absurd h no
    · obtain ⟨hd1, hd2⟩ := inDoc_dict hd
      have hnn : ∀ e ∈ kvs, e.2 ≠ .nil := fun e he => inDoc_ne_nil (hd1 e he)
      have nd : ¬ NotDict (.dict p kvs raw) := fun h => h _ _ _ rfl
      rw [setFields_active_cons nm tag t fs ht]
      by_cases hl : lookupKey (tagKey tag) kvs = .nil
      · rw [if_pos ((isNil_iff _).2 hl)]
        have hlk : LacksKey (.dict p kvs raw) (tagKey tag) := ⟨p, kvs, raw, rfl, (lookup_none hd2 hnn).1 hl⟩
        have no : ∀ {key w}, TagNames tag key → ¬ HasEntry (.dict p kvs raw) key w := by
          intro key w h1 h2
          rw [← tagKey_of h1] at h2
          obtain ⟨p', kvs', raw', e, hm⟩ := h2
          injection e with _ e _
          subst e
          exact (lookup_none hd2 hnn).1 hl _ hm
        by_cases hopt : tagOptional tag = true
        · rw [if_pos hopt]
          simp only
          constructor
          · rintro ⟨rfl, h2⟩
            exact .absent ha (tagNames_key tag) ((tagOptional_iff tag).1 hopt) hlk ((hfs _).1 ⟨rfl, h2⟩)
          · intro h
            cases h with
            | notDict _ h => exact absurd h nd
            | missing _ _ h => exact absurd ((tagOptional_iff tag).1 hopt) h
            | wrong _ h1 h2 => exact absurd h2 (no h1)
            | skip h => exact absurd ha h
            | absent _ _ _ _ h => obtain ⟨e1, e2⟩ := (hfs _).2 h; exact ⟨by rw [e1], e2⟩
            | present _ h1 h2 => exact absurd h2 (no h1)
        · rw [if_neg hopt]
          have hno : ¬ TagOptional tag := fun h => hopt ((tagOptional_iff tag).2 h)
          constructor
          · rintro ⟨rfl, _⟩; exact .missing ha (tagNames_key tag) hno hlk
          · intro h
            cases h with
            | notDict _ h => exact absurd h nd
            | missing => exact ⟨rfl, by simp⟩
            | wrong _ h1 h2 => exact absurd h2 (no h1)
            | skip h => exact absurd ha h
            | absent _ _ h => exact absurd h hno
            | present _ h1 h2 => exact absurd h2 (no h1)
      · rw [if_neg (fun e => hl ((isNil_iff _).1 e))]
        have hm := (lookup_mem hd2 hnn _ hl).1 rfl
        have hfo := fun x => hs' o (lookupKey (tagKey tag) kvs) x ho (hd1 _ hm)
        have no : ∀ {key}, TagNames tag key → ¬ LacksKey (.dict p kvs raw) key := by
          intro key h1 h3
          rw [← tagKey_of h1] at h3
          obtain ⟨p', kvs', raw', e, hm'⟩ := h3
          injection e with _ e _
          subst e
          exact hm' _ hm
        have it : ∀ {key w}, TagNames tag key → HasEntry (.dict p kvs raw) key w → lookupKey (tagKey tag) kvs = w := by
          intro key w h1 h2
          rw [← tagKey_of h1] at h2
          obtain ⟨p', kvs', raw', e, hm'⟩ := h2
          injection e with _ e _
          subst e
          exact (lookup_mem hd2 hnn _ (hnn _ hm')).2 hm'
        by_cases hok : (setField t o (lookupKey (tagKey tag) kvs)).2 = .ok
        · rw [if_pos hok]
          have hst := (hfo _).1 (Prod.ext rfl hok)
          simp only
          constructor
          · rintro ⟨rfl, h2⟩
            exact .present ha (tagNames_key tag) ⟨p, kvs, raw, rfl, hm⟩ hst ((hfs _).1 ⟨rfl, h2⟩)
          · intro h
            cases h with
            | notDict _ h => exact absurd h nd
            | missing _ h1 _ h => exact absurd h (no h1)
            | wrong _ h1 h2 h3 =>
              have := it h1 h2
              subst this
              exact absurd hst (h3 _)
            | skip h => exact absurd ha h
            | absent _ h1 _ h => exact absurd h (no h1)
            | present _ h1 h2 h3 h =>
              have := it h1 h2
              subst this
              obtain ⟨e1, e2⟩ := (hfs _).2 h
              have e3 := (hfo _).2 h3
              exact ⟨by rw [e1, e3], e2⟩
        · rw [if_neg hok]
          have hfl := fun x => hf o (lookupKey (tagKey tag) kvs) x ho (hd1 _ hm) hok
          have hno : ∀ y, ¬ Stored t o (lookupKey (tagKey tag) kvs) y := fun y hy => hok (by rw [(hfo y).2 hy])
          simp only
          constructor
          · rintro ⟨rfl, _⟩
            exact .wrong ha (tagNames_key tag) ⟨p, kvs, raw, rfl, hm⟩ hno ((hfl _).1 rfl)
          · intro h
            cases h with
            | notDict _ h => exact absurd h nd
            | missing _ h1 _ h => exact absurd h (no h1)
            | wrong _ h1 h2 _ h4 =>
              have := it h1 h2
              subst this
              exact ⟨by rw [(hfl _).2 h4], hok⟩
            | skip h => exact absurd ha h
            | absent _ h1 _ h => exact absurd h (no h1)
            | present _ h1 h2 h3 =>
              have := it h1 h2
              subst this
              exact absurd h3 (hno _)
  · rw [setFields_cons_inactive nm tag c t fs ha]
    simp only [List.headD_cons, List.tail_cons]
    constructor
    · rintro ⟨rfl, h2⟩
      exact .skip ha ((hfs _).1 ⟨rfl, h2⟩)
    · intro h
      cases h with
      | notDict h => exact absurd h ha
      | missing h => exact absurd h ha
      | wrong h => exact absurd h ha
      | skip _ h => obtain ⟨e1, e2⟩ := (hfs _).2 h; exact ⟨by rw [e1], e2⟩
      | absent h => exact absurd h ha
      | present h => exact absurd h ha

theorem setValue_kept {t : Ty} (ht : FlatTy t) (old : GoVal) (v : Bencode) (h : (setValue t old v).2 ≠ .ok) : (setValue t old v).1 = old := by
  rw [setValue.eq_def] at h ⊢
  cases t with
  | ptr u => exact absurd rfl (ht.1 u)
  | struct fs => exact absurd rfl (ht.2 fs)
  | _ =>
    simp only at h ⊢
    repeat' split
    all_goals first | rfl | simp_all

mutual
theorem both_left : ∀ t : Ty, Machine t → LeftVal t ∧ LeftFld t
  | .string, _ => left_of (fun _ _ => by rw [setField]) (left_flat ⟨by intro u; simp, by simp⟩ (setValue_kept ⟨by intro u; simp, by simp⟩)) (by intro u; simp)
  | .int bits, _ => left_of (fun _ _ => by rw [setField]) (left_flat ⟨by intro u; simp, by simp⟩ (setValue_kept ⟨by intro u; simp, by simp⟩)) (by intro u; simp)
  | .uint bits, _ => left_of (fun _ _ => by rw [setField]) (left_flat ⟨by intro u; simp, by simp⟩ (setValue_kept ⟨by intro u; simp, by simp⟩)) (by intro u; simp)
  | .slice t, _ => left_of (fun _ _ => by rw [setField]) (left_flat ⟨by intro u; simp, by simp⟩ (setValue_kept ⟨by intro u; simp, by simp⟩)) (by intro u; simp)
  | .map sk t, _ => left_of (fun _ _ => by rw [setField]) (left_flat ⟨by intro u; simp, by simp⟩ (setValue_kept ⟨by intro u; simp, by simp⟩)) (by intro u; simp)
  | .other, _ => left_of (fun _ _ => by rw [setField]) (left_flat ⟨by intro u; simp, by simp⟩ (setValue_kept ⟨by intro u; simp, by simp⟩)) (by intro u; simp)
  | .struct fs, hm => by
    rw [Machine] at hm
    exact left_of (fun _ _ => by rw [setField]) (leftVal_struct (fields_left fs hm)) (by intro u; simp)
  | .ptr t, hm => by
    rw [Machine] at hm
    exact ⟨fun h => absurd rfl (h t), leftFld_ptr (both_left t hm).1⟩
theorem fields_left : ∀ fs : List ((Bytes × Bytes × Bool) × Ty), MachineIn fs → LeftFlds fs
  | [], _ => by
    intro olds v xs hs _
    rw [setFields]
    constructor
    · rintro ⟨_, h⟩; exact absurd rfl h
    · intro h; cases h
  | (f, t) :: fs, hm => by
    rw [MachineIn] at hm
    exact leftFlds_cons (f := (f, t)) (both_ok t hm.1).2 (both_left t hm.1).2 (fields_left fs hm.2)
end

/-- C16, exactly, for all targets including nested structs and pointers: `Unmarshal` fails and leaves `x` in the target if and only if the
document does not begin with an element, and nothing was changed, or it does and `x` is what `LeftFields` says: everything up to one field
is stored, that field is as `Left` says, the later ones are as before. -/
theorem C16_exact_partial (fs : List ((Bytes × Bytes × Bool) × Ty)) (hm : MachineIn fs) (olds : List GoVal) (hs : ShapedIn fs olds)
    (data : Bytes) (x : GoVal) :
    (∃ o, o ≠ .ok ∧ unmarshal (.ptr (.struct fs)) (.ptr (some (.struct olds))) data = (x, o)) ↔
      ((∀ b r v, data = b ++ r → ¬ Denotes b v) ∧ x = .ptr (some (.struct olds))) ∨
      ∃ b r v xs, data = b ++ r ∧ Denotes b v ∧ LeftFields fs olds v xs ∧ x = .ptr (some (.struct xs)) := by
  have none : (∀ v, parse data ≠ .ok v) → ∀ b r v, data = b ++ r → ¬ Denotes b v := by
    rintro h b r v rfl hd
    exact h v (parse_complete hd r)
  constructor
  · rintro ⟨o, ho, h⟩
    unfold unmarshal at h
    cases hp : parse data with
    | err e =>
      simp only [hp, Prod.mk.injEq] at h
      exact .inl ⟨none (by simp [hp]), h.1.symm⟩
    | panic w =>
      simp only [hp, Prod.mk.injEq] at h
      exact .inl ⟨none (by simp [hp]), h.1.symm⟩
    | outOfFuel =>
      simp only [hp, Prod.mk.injEq] at h
      exact .inl ⟨none (by simp [hp]), h.1.symm⟩
    | ok v =>
      obtain ⟨b, r, hb, hd⟩ := parse_sound hp
      simp only [hp, processTarget, Prod.mk.injEq] at h
      obtain ⟨rfl, h2⟩ := h
      exact .inr ⟨b, r, v, _, hb, hd, (fields_left fs hm olds v _ hs ⟨b, hd⟩).1 ⟨rfl, by rw [h2]; exact ho⟩, rfl⟩
  · rintro (⟨h, rfl⟩ | ⟨b, r, v, xs, rfl, hd, h, rfl⟩)
    · unfold unmarshal
      cases hp : parse data with
      | err e => exact ⟨_, by simp, rfl⟩
      | panic w => exact ⟨_, by simp, rfl⟩
      | outOfFuel => exact ⟨_, by simp, rfl⟩
      | ok v =>
        obtain ⟨b, r, hb, hd⟩ := parse_sound hp
        exact absurd hd (h b r v hb)
    · obtain ⟨e1, e2⟩ := (fields_left fs hm olds v _ hs ⟨b, hd⟩).2 h
      refine ⟨(setFields fs olds v).2, e2, ?_⟩
      unfold unmarshal
      rw [parse_complete hd r]
      simp only [processTarget, e1]

/-- A target of a pointer and a number: the pointer was nil and points to a struct of which one field has been set, and the number is as it was.
The document is `d1:pd1:xi5e1:y1:zee`. -/
example : ∃ o, o ≠ .ok ∧ unmarshal (.ptr (.struct [((ascii "P", ascii "p", true), .ptr (.struct [((ascii "X", ascii "x", true), .int 32),
      ((ascii "Y", ascii "y", true), .int 32)])), ((ascii "N", ascii "n", true), .int 32)])) (.ptr (some (.struct [.ptr none, .int 7])))
      (ascii "d1:pd1:xi5e1:y1:zee") = (.ptr (some (.struct [.ptr (some (.struct [.int 5, .int 0])), .int 7])), o) := by
  have k : ∀ c : UInt8, Denotes [49, 58, c] (.str [c]) := fun c => .str [49] [c] (isDigits_of_all (by decide)) (by show machineNumber [49] = 1; decide)
  have d5 : Denotes (ascii "i5e") (.int 5) := denotes_int (ds := ascii "5") (isDigits_of_all (by decide)) (by decide)
  have dp := Denotes.dict _ _ (.cons _ _ _ _ _ _ (k 120) d5 (.cons _ _ _ _ _ _ (k 121) (k 122) .nil))
  rw [mapOf_nodup (by decide)] at dp
  have dd := Denotes.dict _ _ (.cons _ _ _ _ _ _ (k 112) dp .nil)
  rw [mapOf_nodup (by decide)] at dd
  have nc : ∀ c : UInt8, c ≠ 44 → (44 : UInt8) ∉ [c] := by intro c h e; exact h (List.mem_singleton.1 e).symm
  have tn : ∀ c : UInt8, c ≠ 44 → TagNames [c] [c] := fun c h => ⟨nc c h, .inl rfl⟩
  refine (C16_exact_partial _ (by simp [MachineIn, Machine]) _ ?_ _ _).2 (.inr ⟨_, [], _, _, (List.append_nil _).symm, dd, ?_, rfl⟩)
  · simp only [ShapedIn, Shaped]
    exact ⟨_, _, rfl, .inl rfl, _, _, rfl, trivial, rfl⟩
  · have nox : ∀ old y, ¬ Stored (.int 32) old (.str [122]) y := by
      intro old y h
      cases h with
      | int g _ _ =>
        cases g with
        | str h => exact absurd h (not_signedLiteral (by decide))
    have z : zero (.struct [((ascii "X", ascii "x", true), .int 32), ((ascii "Y", ascii "y", true), .int 32)]) = .struct [.int 0, .int 0] := by
      simp [zero, zeros]
    refine .wrong (key := [112]) ⟨rfl, by decide⟩ (tn 112 (by decide)) ⟨_, _, _, rfl, List.mem_cons_self⟩ ?_
      (.ptrNil (fun u => by simp) (z ▸ .struct (fun h => h _ _ _ rfl) (.present (key := [120]) ⟨rfl, by decide⟩ (tn 120 (by decide))
        ⟨_, _, _, rfl, List.mem_cons_self⟩ (.int (.int 5) (by decide) (by decide))
        (.wrong (key := [121]) ⟨rfl, by decide⟩ (tn 121 (by decide)) ⟨_, _, _, rfl, List.mem_cons_of_mem _ List.mem_cons_self⟩ (nox _)
          (.same _ _ ⟨fun u => by simp, by simp⟩)))))
    intro y h
    cases h with
    | ptrNil _ h =>
      rw [z] at h
      cases h with
      | struct _ h =>
        cases h with
        | skip h => exact h ⟨rfl, by decide⟩
        | absent _ _ h => obtain ⟨a, h | ⟨b, h⟩⟩ := h <;> (have := congrArg List.length h; simp [ascii] at this) <;> omega
        | present _ _ _ _ h =>
          cases h with
          | skip h => exact h ⟨rfl, by decide⟩
          | absent _ h1 _ h =>
            rw [← tagKey_of h1] at h
            obtain ⟨_, _, _, e, h⟩ := h
            injection e with _ e _
            subst e
            exact h (.str [122]) (by simp [tagKey, splitComma, ascii])
          | present _ h1 h2 h3 _ =>
            rw [← tagKey_of h1] at h2
            obtain ⟨_, _, _, e, h⟩ := h2
            injection e with _ e _
            subst e
            simp [tagKey, splitComma, ascii] at h
            subst h
            exact nox _ _ h3

end Gotit.Props
