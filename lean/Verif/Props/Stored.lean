import Verif.Spec.Stored
import Verif.Lemmas.Literal
import Verif.Props.Unmarshal
/-
  Properties C93 and C94: what Unmarshal stores.
-/
namespace Gotit.Props
open Gotit Gotit.Spec

/-! ### integers -/

theorem toText_list (p : Bool) (vs : List Bencode) (raw : Bytes) : ∃ r, (Bencode.list p vs raw).toText = 91 :: r := by
  unfold Bencode.toText
  rw [prettyPrint]
  simp only [ite_self, List.nil_append]
  split
  · exact ⟨_, rfl⟩
  · rw [newLine]
    simp only [List.cons_append, List.length_cons]
    exact ⟨_, rfl⟩

theorem toText_dict (p : Bool) (kvs : List (Bytes × Bencode)) (raw : Bytes) : ∃ r, (Bencode.dict p kvs raw).toText = 123 :: r := by
  unfold Bencode.toText
  rw [prettyPrint]
  simp only [ite_self, List.nil_append]
  split
  · exact ⟨_, rfl⟩
  · rw [newLine]
    simp only [List.cons_append, List.length_cons]
    exact ⟨_, rfl⟩

theorem not_literal {c : UInt8} {r : Bytes} {n : Nat} (h : 57 < c.toNat) : ¬ Literal (c :: r) n := by
  intro hl
  obtain ⟨c', cs, e, h1, h2⟩ := literal_head hl
  rw [(List.cons.inj e).1] at h
  omega

theorem not_signedLiteral {c : UInt8} {r : Bytes} {n : Int} (h : 57 < c.toNat) : ¬ SignedLiteral (c :: r) n := by
  intro hl
  cases hl with
  | plain hl => exact not_literal h hl
  | plus => simp at h
  | minus => simp at h

/-- C93, exact, for signed types: the field is set to `n` exactly if the element gives the number `n` and `n` fits. -/
theorem C93_int_partial (bits : Nat) (h1 : 1 ≤ bits) (hb : bits ≤ 64) (old : GoVal) (v : Bencode) (x : GoVal) :
    setField (.int bits) old v = (x, .ok) ↔ ∃ n, x = .int n ∧ GivesInt v n ∧ -2 ^ (bits - 1) ≤ n ∧ n < 2 ^ (bits - 1) := by
  have hs : ∀ s : Bytes, (∀ n, GivesInt v n ↔ SignedLiteral s n) → v.toText = s →
      (setField (.int bits) old v = (x, .ok) ↔ ∃ n, x = .int n ∧ GivesInt v n ∧ -2 ^ (bits - 1) ≤ n ∧ n < 2 ^ (bits - 1)) := by
    intro s hv ht
    rw [setField, setValue, ht]
    constructor
    · intro h
      split at h
      · rename_i n hn
        obtain ⟨a, b⟩ := (parseInt0_iff h1 hb _ _).1 hn
        simp only [Prod.mk.injEq, and_true] at h
        exact ⟨n, h.symm, (hv n).2 a, b⟩
      · simp at h
    · rintro ⟨n, rfl, a, b⟩
      rw [(parseInt0_iff h1 hb _ _).2 ⟨(hv n).1 a, b⟩]
  cases v with
  | int n =>
    rw [C14_int_partial bits h1 hb]
    constructor
    · intro h
      split at h
      · rename_i hr
        simp only [Prod.mk.injEq, and_true] at h
        exact ⟨n, h.symm, .int n, hr⟩
      · simp at h
    · rintro ⟨m, rfl, hm, hr⟩
      cases hm
      rw [if_pos hr]
  | str s =>
    refine hs s (fun n => ⟨?_, .str⟩) (by simp [Bencode.toText, prettyPrint])
    intro h; cases h; assumption
  | nil =>
    refine hs [] (fun n => ⟨?_, ?_⟩) (by simp [Bencode.toText, prettyPrint])
    · intro h; cases h
    · intro h
      exfalso
      cases h with
      | plain h => obtain ⟨_, _, e, _⟩ := literal_head h; simp at e
  | list p vs raw =>
    obtain ⟨r, hr⟩ := toText_list p vs raw
    refine hs _ (fun n => ⟨?_, ?_⟩) hr
    · intro h; cases h
    · intro h; exact absurd h (not_signedLiteral (by decide))
  | dict p vs raw =>
    obtain ⟨r, hr⟩ := toText_dict p vs raw
    refine hs _ (fun n => ⟨?_, ?_⟩) hr
    · intro h; cases h
    · intro h; exact absurd h (not_signedLiteral (by decide))

/-- C93, exact, for unsigned types. -/
theorem C93_uint_partial (bits : Nat) (hb : bits ≤ 64) (old : GoVal) (v : Bencode) (x : GoVal) :
    setField (.uint bits) old v = (x, .ok) ↔ ∃ n, x = .uint n ∧ GivesNat v n ∧ n < 2 ^ bits := by
  have hs : ∀ s : Bytes, (∀ n, GivesNat v n ↔ Literal s n) → v.toText = s →
      (setField (.uint bits) old v = (x, .ok) ↔ ∃ n, x = .uint n ∧ GivesNat v n ∧ n < 2 ^ bits) := by
    intro s hv ht
    rw [setField, setValue, ht]
    constructor
    · intro h
      split at h
      · rename_i n hn
        obtain ⟨a, b⟩ := (parseUint0_iff hb _ _).1 hn
        simp only [Prod.mk.injEq, and_true] at h
        exact ⟨n, h.symm, (hv n).2 a, b⟩
      · simp at h
    · rintro ⟨n, rfl, a, b⟩
      rw [(parseUint0_iff hb _ _).2 ⟨(hv n).1 a, b⟩]
  cases v with
  | int n =>
    rw [C14_uint_partial bits hb]
    constructor
    · intro h
      split at h
      · rename_i hr
        simp only [Prod.mk.injEq, and_true] at h
        refine ⟨n.toNat, h.symm, ?_, (Int.toNat_lt hr.1).2 (by exact_mod_cast hr.2)⟩
        have := GivesNat.int n.toNat
        rwa [Int.toNat_of_nonneg hr.1] at this
      · simp at h
    · rintro ⟨m, rfl, hm, hr⟩
      generalize hv : Bencode.int n = v at hm
      cases hm with
      | int m =>
        injection hv with hv
        subst hv
        rw [if_pos ⟨by omega, by exact_mod_cast hr⟩]
        simp
      | str => cases hv
  | str s =>
    refine hs s (fun n => ⟨?_, .str⟩) (by simp [Bencode.toText, prettyPrint])
    intro h; cases h; assumption
  | nil =>
    refine hs [] (fun n => ⟨?_, ?_⟩) (by simp [Bencode.toText, prettyPrint])
    · intro h; cases h
    · intro h
      exfalso
      obtain ⟨_, _, e, _⟩ := literal_head h; simp at e
  | list p vs raw =>
    obtain ⟨r, hr⟩ := toText_list p vs raw
    refine hs _ (fun n => ⟨?_, ?_⟩) hr
    · intro h; cases h
    · intro h; exact absurd h (not_literal (by decide))
  | dict p vs raw =>
    obtain ⟨r, hr⟩ := toText_dict p vs raw
    refine hs _ (fun n => ⟨?_, ?_⟩) hr
    · intro h; cases h
    · intro h; exact absurd h (not_literal (by decide))

/-! ### everything else -/

/-- The element stands in a document. -/
def InDoc (v : Bencode) : Prop := ∃ b, Denotes b v

theorem inDoc_list {p : Bool} {vs : List Bencode} {raw : Bytes} (h : InDoc (.list p vs raw)) : ∀ v ∈ vs, InDoc v := by
  obtain ⟨b, h⟩ := h
  intro v hv
  obtain ⟨_, xb, _, _, hd⟩ := sub_denotes (.list p raw hv (.refl v)) h
  exact ⟨xb, hd⟩

theorem inDoc_dict {p : Bool} {kvs : List (Bytes × Bencode)} {raw : Bytes} (h : InDoc (.dict p kvs raw)) :
    (∀ e ∈ kvs, InDoc e.2) ∧ (kvs.map Prod.fst).Nodup := by
  obtain ⟨b, h⟩ := h
  refine ⟨?_, ?_⟩
  · intro e hv
    obtain ⟨_, xb, _, _, hd⟩ := sub_denotes (.dict (k := e.1) p raw hv (.refl e.2)) h
    exact ⟨xb, hd⟩
  · cases h with
    | dict body es _ => exact mapOf_keys es

theorem inDoc_ne_nil {v : Bencode} (h : InDoc v) : v ≠ .nil := by
  obtain ⟨b, h⟩ := h
  exact h.val_ne_nil

/-- The raw bytes of a list or dictionary in a document are its text. -/
theorem inDoc_raw {v : Bencode} {b : Bytes} (h : Denotes b v) (hc : IsContainer v) : v.rawBytes = b := by
  cases h with
  | int => exact absurd hc id
  | str => exact absurd hc id
  | list => rfl
  | dict => rfl

mutual
theorem zero_shaped : ∀ t : Ty, Shaped t (zero t)
  | .struct fs => by rw [zero, Shaped]; exact ⟨_, rfl, zeros_shaped fs⟩
  | .ptr t => by rw [zero, Shaped]; exact .inl rfl
  | .string => by rw [Shaped] <;> simp
  | .int _ => by rw [Shaped] <;> simp
  | .uint _ => by rw [Shaped] <;> simp
  | .slice _ => by rw [Shaped] <;> simp
  | .map _ _ => by rw [Shaped] <;> simp
  | .other => by rw [Shaped] <;> simp
theorem zeros_shaped : ∀ fs : List ((Bytes × Bytes × Bool) × Ty), ShapedIn fs (zeros fs)
  | [] => by rw [zeros, ShapedIn]
  | (_, t) :: fs => by rw [zeros, ShapedIn]; exact ⟨_, _, rfl, zero_shaped t, zeros_shaped fs⟩
end

theorem setEach_iff {t : Ty} {vs : List Bencode} (g : Bencode → GoVal × Outcome)
    (hg : ∀ v ∈ vs, ∀ x, g v = (x, .ok) ↔ Stored t (zero t) v x) (xs : List GoVal) :
    setEach g vs = (xs, .ok) ↔ StoredSeq t vs xs := by
  induction vs generalizing xs with
  | nil =>
    simp only [setEach, Prod.mk.injEq, and_true]
    constructor
    · rintro rfl; exact .nil t
    · intro h; cases h; rfl
  | cons v vs ih =>
    have ih := ih (fun v hv => hg v (List.mem_cons_of_mem _ hv))
    have hg := hg v (by simp)
    rw [setEach]
    constructor
    · intro h
      split at h
      · rename_i x hx
        simp only [Prod.mk.injEq] at h
        obtain ⟨rfl, h2⟩ := h
        exact .cons ((hg x).1 hx) ((ih _).1 (Prod.ext rfl h2))
      · rename_i hne hx
        simp only [Prod.mk.injEq] at h
        exact absurd h.2 hne
    · intro h
      cases h with
      | cons h1 h2 =>
        rw [(hg _).2 h1]
        simp only
        rw [(ih _).2 h2]

theorem putMap_new {k : Bytes} {x : GoVal} {m : List (Bytes × GoVal)} (h : k ∉ m.map Prod.fst) : putMap k x m = m ++ [(k, x)] := by
  induction m with
  | nil => rfl
  | cons e m ih =>
    obtain ⟨k', x'⟩ := e
    simp only [List.map_cons, List.mem_cons, not_or] at h
    rw [putMap, if_neg (fun e => h.1 e.symm), ih h.2]; rfl

theorem storedEntries_keys {t : Ty} {kvs m} (h : StoredEntries t kvs m) : m.map Prod.fst = kvs.map Prod.fst := by
  induction kvs generalizing m with
  | nil => cases h; rfl
  | cons e kvs ih => cases h with | cons _ h => simp [ih h]

theorem setEntries_iff {t : Ty} {kvs : List (Bytes × Bencode)} (g : Bencode → GoVal × Outcome)
    (hg : ∀ e ∈ kvs, ∀ x, g e.2 = (x, .ok) ↔ Stored t (zero t) e.2 x) (sk : Bool) (m m' : List (Bytes × GoVal))
    (hn : (m.map Prod.fst ++ kvs.map Prod.fst).Nodup) :
    setEntries sk g kvs m = (m', .ok) ↔ (sk = true ∨ kvs = []) ∧ ∃ m2, m' = m ++ m2 ∧ StoredEntries t kvs m2 := by
  induction kvs generalizing m with
  | nil =>
    simp only [setEntries, Prod.mk.injEq, and_true, or_true, true_and]
    constructor
    · rintro rfl; exact ⟨[], by simp, .nil t⟩
    · rintro ⟨m2, rfl, h⟩; cases h; simp
  | cons e kvs ih =>
    obtain ⟨k, v⟩ := e
    have hg0 := hg (k, v) (by simp)
    have hk : k ∉ m.map Prod.fst := by
      intro hm
      exact (List.nodup_append.1 hn).2.2 k hm k (by simp) rfl
    have ih := fun x => ih (fun e he => hg e (List.mem_cons_of_mem _ he)) (m ++ [(k, x)]) (by simpa using hn)
    rw [setEntries]
    simp only [reduceCtorEq, or_false]
    constructor
    · intro h
      split at h
      · rename_i x hx
        split at h
        · simp at h
        · rename_i hsk
          rw [putMap_new hk] at h
          obtain ⟨_, m2, rfl, h3⟩ := (ih x).1 h
          refine ⟨by simpa using hsk, (k, x) :: m2, by simp, .cons ((hg0 x).1 hx) h3⟩
      · rename_i hne hx
        simp only [Prod.mk.injEq] at h
        exact absurd h.2 hne
    · rintro ⟨rfl, m2, rfl, h⟩
      cases h with
      | @cons _ _ _ x _ m3 h1 h2 =>
        rw [(hg0 _).2 h1]
        simp only [Bool.not_true, Bool.false_eq_true, if_false]
        rw [putMap_new hk]
        exact (ih x).2 ⟨.inl rfl, m3, by simp, h2⟩

theorem lookup_mem {k : Bytes} {kvs : List (Bytes × Bencode)} (hn : (kvs.map Prod.fst).Nodup) (hv : ∀ e ∈ kvs, e.2 ≠ .nil) (w : Bencode)
    (hw : w ≠ .nil) : lookupKey k kvs = w ↔ (k, w) ∈ kvs := by
  induction kvs with
  | nil => simp [lookupKey]; exact fun e => hw e.symm
  | cons e kvs ih =>
    obtain ⟨k', v'⟩ := e
    simp only [List.map_cons, List.nodup_cons] at hn
    have ih := ih hn.2 (fun e he => hv e (List.mem_cons_of_mem _ he))
    rw [lookupKey]
    split
    · rename_i hk; subst hk
      simp only [List.mem_cons, Prod.mk.injEq, true_and]
      constructor
      · rintro rfl; exact .inl rfl
      · rintro (rfl | h)
        · rfl
        · exact absurd (List.mem_map.2 ⟨_, h, rfl⟩) hn.1
    · rename_i hk
      rw [ih]
      simp only [List.mem_cons, Prod.mk.injEq]
      constructor
      · exact .inr
      · rintro (⟨e, _⟩ | h)
        · exact absurd e.symm hk
        · exact h

theorem lookup_none {k : Bytes} {kvs : List (Bytes × Bencode)} (hn : (kvs.map Prod.fst).Nodup) (hv : ∀ e ∈ kvs, e.2 ≠ .nil) :
    lookupKey k kvs = .nil ↔ ∀ w, (k, w) ∉ kvs := by
  constructor
  · intro h w hm
    have := (lookup_mem hn hv w (hv _ hm)).2 hm
    exact hv _ hm (this ▸ h)
  · intro h
    cases hl : lookupKey k kvs with
    | nil => rfl
    | _ => exact absurd ((lookup_mem hn hv _ (by simp)).1 hl) (h _)

theorem machine_bits {bits : Nat} (h : bits = 8 ∨ bits = 16 ∨ bits = 32 ∨ bits = 64) : 1 ≤ bits ∧ bits ≤ 64 := by omega

def ValueOk (t : Ty) : Prop := NotPointer t → ∀ old v x, Shaped t old → InDoc v → (setValue t old v = (x, .ok) ↔ Stored t old v x)
def FieldOk (t : Ty) : Prop := ∀ old v x, Shaped t old → InDoc v → (setField t old v = (x, .ok) ↔ Stored t old v x)
def FieldsOk (fs : List ((Bytes × Bytes × Bool) × Ty)) : Prop :=
  ∀ olds v xs, ShapedIn fs olds → InDoc v → (setFields fs olds v = (xs, .ok) ↔ StoredFields fs olds v xs)

theorem both_of {t : Ty} (h : ∀ old v, setField t old v = setValue t old v) (hv : ValueOk t) (hp : NotPointer t) : ValueOk t ∧ FieldOk t :=
  ⟨hv, fun old v x hs hd => by rw [h]; exact hv hp old v x hs hd⟩

theorem setFields_active_cons (nm tag : Bytes) (t : Ty) (fs : List ((Bytes × Bytes × Bool) × Ty)) (ht : tag ≠ [])
    (o : GoVal) (os : List GoVal) (p : Bool) (kvs : List (Bytes × Bencode)) (raw : Bytes) :
    setFields (((nm, tag, true), t) :: fs) (o :: os) (.dict p kvs raw) =
      if (lookupKey (tagKey tag) kvs).isNil = true then
        if tagOptional tag then
          (o :: (setFields fs os (.dict p kvs raw)).1, (setFields fs os (.dict p kvs raw)).2)
        else (o :: os, .err "Required ben field not found")
      else if (setField t o (lookupKey (tagKey tag) kvs)).2 = .ok then
        ((setField t o (lookupKey (tagKey tag) kvs)).1 :: (setFields fs os (.dict p kvs raw)).1, (setFields fs os (.dict p kvs raw)).2)
      else ((setField t o (lookupKey (tagKey tag) kvs)).1 :: os, (setField t o (lookupKey (tagKey tag) kvs)).2) :=
  setFields_cons_active nm tag t fs ht (o :: os) p kvs raw

theorem fieldsOk_cons {f : (Bytes × Bytes × Bool) × Ty} {fs : List ((Bytes × Bytes × Bool) × Ty)} (hf : FieldOk f.2) (hfs : FieldsOk fs) :
    FieldsOk (f :: fs) := by
  obtain ⟨⟨nm, tag, c⟩, t⟩ := f
  intro olds v xs hs hd
  rw [ShapedIn] at hs
  obtain ⟨o, os, rfl, ho, hos⟩ := hs
  have hfs := fun xs => hfs os v xs hos hd
  by_cases ha : Active ((nm, tag, c), t)
  · obtain ⟨hc, ht⟩ := ha
    simp only at hc ht
    subst hc
    have ha : Active ((nm, tag, true), t) := ⟨rfl, ht⟩
    match v, hd with
    | .dict p kvs raw, hd =>
      obtain ⟨hd1, hd2⟩ := inDoc_dict hd
      have hnn : ∀ e ∈ kvs, e.2 ≠ .nil := fun e he => inDoc_ne_nil (hd1 e he)
      rw [setFields_active_cons nm tag t fs ht]
      by_cases hl : lookupKey (tagKey tag) kvs = .nil
      · rw [if_pos ((isNil_iff _).2 hl)]
        have hlk : LacksKey (.dict p kvs raw) (tagKey tag) := ⟨p, kvs, raw, rfl, (lookup_none hd2 hnn).1 hl⟩
        constructor
        · intro h
          split at h
          · rename_i hopt
            simp only [Prod.mk.injEq] at h
            obtain ⟨rfl, h2⟩ := h
            exact .absent ha (tagNames_key tag) ((tagOptional_iff tag).1 hopt) hlk ((hfs _).1 (Prod.ext rfl h2))
          · simp at h
        · intro h
          cases h with
          | skip h => exact absurd ha h
          | absent _ h1 h2 h3 h4 =>
            rw [if_pos ((tagOptional_iff tag).2 h2), (hfs _).2 h4]
          | present _ h1 h2 h3 h4 =>
            exfalso
            rw [← tagKey_of h1] at h2
            obtain ⟨p', kvs', raw', e, hm⟩ := h2
            injection e with _ e _
            subst e
            exact (lookup_none hd2 hnn).1 hl _ hm
      · rw [if_neg (fun e => hl ((isNil_iff _).1 e))]
        have hm := (lookup_mem hd2 hnn _ hl).1 rfl
        have hfo := fun x => hf o (lookupKey (tagKey tag) kvs) x ho (hd1 _ hm)
        constructor
        · intro h
          split at h
          · rename_i hok
            simp only [Prod.mk.injEq] at h
            obtain ⟨rfl, h2⟩ := h
            exact .present ha (tagNames_key tag) ⟨p, kvs, raw, rfl, hm⟩ ((hfo _).1 (Prod.ext rfl hok)) ((hfs _).1 (Prod.ext rfl h2))
          · rename_i hok
            simp only [Prod.mk.injEq] at h
            exact absurd h.2 hok
        · intro h
          cases h with
          | skip h => exact absurd ha h
          | absent _ h1 h2 h3 h4 =>
            exfalso
            rw [← tagKey_of h1] at h3
            obtain ⟨p', kvs', raw', e, hm'⟩ := h3
            injection e with _ e _
            subst e
            exact hm' _ hm
          | present _ h1 h2 h3 h4 =>
            rw [← tagKey_of h1] at h2
            obtain ⟨p', kvs', raw', e, hm'⟩ := h2
            injection e with _ e _
            subst e
            have : lookupKey (tagKey tag) kvs = _ := (lookup_mem hd2 hnn _ (hnn _ hm')).2 hm'
            simp only at this
            rw [← this] at h3
            have e1 := (hfo _).2 h3
            simp only at e1
            rw [if_pos (by rw [e1]), e1, (hfs _).2 h4]
    | .int n, _ =>
      constructor
      · intro h
        rw [setFields.eq_def] at h
        simp [ht] at h
      · intro h
        cases h with
        | skip h => exact absurd ha h
        | absent _ _ _ h => obtain ⟨_, _, _, e, _⟩ := h; cases e
        | present _ _ h => obtain ⟨_, _, _, e, _⟩ := h; cases e
    | .str n, _ =>
      constructor
      · intro h
        rw [setFields.eq_def] at h
        simp [ht] at h
      · intro h
        cases h with
        | skip h => exact absurd ha h
        | absent _ _ _ h => obtain ⟨_, _, _, e, _⟩ := h; cases e
        | present _ _ h => obtain ⟨_, _, _, e, _⟩ := h; cases e
    | .list _ _ _, _ =>
      constructor
      · intro h
        rw [setFields.eq_def] at h
        simp [ht] at h
      · intro h
        cases h with
        | skip h => exact absurd ha h
        | absent _ _ _ h => obtain ⟨_, _, _, e, _⟩ := h; cases e
        | present _ _ h => obtain ⟨_, _, _, e, _⟩ := h; cases e
    | .nil, hd => exact absurd rfl (inDoc_ne_nil hd)
  · rw [setFields_cons_inactive nm tag c t fs ha]
    simp only [List.headD_cons, List.tail_cons]
    constructor
    · intro h
      simp only [Prod.mk.injEq] at h
      obtain ⟨rfl, h2⟩ := h
      exact .skip ha ((hfs _).1 (Prod.ext rfl h2))
    · intro h
      cases h with
      | skip _ h => rw [(hfs _).2 h]
      | absent h => exact absurd h ha
      | present h => exact absurd h ha

theorem valueOk_struct {fs : List ((Bytes × Bytes × Bool) × Ty)} (hfs : FieldsOk fs) : ValueOk (.struct fs) := by
  intro _ old v x hs hd
  rw [Shaped] at hs
  obtain ⟨olds, rfl, hs⟩ := hs
  match v, hd with
  | .dict p kvs raw, hd =>
    rw [setValue]
    have hfs := fun xs => hfs olds (.dict p kvs raw) xs hs hd
    constructor
    · intro h
      simp only [Prod.mk.injEq] at h
      obtain ⟨rfl, h2⟩ := h
      exact .struct ⟨p, kvs, raw, rfl⟩ ((hfs _).1 (Prod.ext rfl h2))
    · intro h
      cases h with
      | struct _ h => rw [(hfs _).2 h]
  | .int _, _ => simp only [setValue, Prod.mk.injEq, reduceCtorEq, and_false, false_iff]; intro h; cases h with | struct h => obtain ⟨_, _, _, e⟩ := h; cases e
  | .str _, _ => simp only [setValue, Prod.mk.injEq, reduceCtorEq, and_false, false_iff]; intro h; cases h with | struct h => obtain ⟨_, _, _, e⟩ := h; cases e
  | .list _ _ _, _ => simp only [setValue, Prod.mk.injEq, reduceCtorEq, and_false, false_iff]; intro h; cases h with | struct h => obtain ⟨_, _, _, e⟩ := h; cases e
  | .nil, hd => exact absurd rfl (inDoc_ne_nil hd)

theorem valueOk_string : ValueOk .string := by
  intro _ old v x _ hd
  rw [setValue]
  cases v with
  | nil => exact absurd rfl (inDoc_ne_nil hd)
  | int n =>
    simp only [Bencode.toText, prettyPrint, Prod.mk.injEq, and_true]
    constructor
    · rintro rfl; exact .strOfInt _ _
    · intro h
      cases h with
      | strOfInt => rfl
      | strOfOther h => exact absurd h id
  | str s =>
    simp only [Bencode.toText, prettyPrint, Prod.mk.injEq, and_true]
    constructor
    · rintro rfl; exact .strOfStr _ _
    · intro h
      cases h with
      | strOfStr => rfl
      | strOfOther h => exact absurd h id
  | list =>
    simp only [Prod.mk.injEq, and_true]
    constructor
    · rintro rfl; exact .strOfOther trivial
    · intro h; cases h; rfl
  | dict =>
    simp only [Prod.mk.injEq, and_true]
    constructor
    · rintro rfl; exact .strOfOther trivial
    · intro h; cases h; rfl

theorem valueOk_bytes : ValueOk (.slice (.uint 8)) := by
  intro _ old v x _ hd
  rw [setValue]
  cases v with
  | nil => exact absurd rfl (inDoc_ne_nil hd)
  | int n =>
    simp only [Bencode.rawBytes, Prod.mk.injEq, and_true]
    constructor
    · rintro rfl; exact .bytesOfInt _ _
    · intro h
      cases h with
      | bytesOfInt => rfl
      | bytesOfOther h => exact absurd h id
  | str s =>
    simp only [Bencode.rawBytes, Prod.mk.injEq, and_true]
    constructor
    · rintro rfl; exact .bytesOfStr _ _
    · intro h
      cases h with
      | bytesOfStr => rfl
      | bytesOfOther h => exact absurd h id
  | list p vs raw =>
    simp only [Prod.mk.injEq, and_true]
    obtain ⟨b, hb⟩ := hd
    constructor
    · rintro rfl
      rw [inDoc_raw hb trivial]
      exact .bytesOfOther trivial hb
    · intro h
      cases h with
      | bytesOfOther _ h2 => rw [inDoc_raw h2 trivial]
      | slice h => exact absurd rfl h
  | dict p vs raw =>
    simp only [Prod.mk.injEq, and_true]
    obtain ⟨b, hb⟩ := hd
    constructor
    · rintro rfl
      rw [inDoc_raw hb trivial]
      exact .bytesOfOther trivial hb
    · intro h
      cases h with
      | bytesOfOther _ h2 => rw [inDoc_raw h2 trivial]

theorem setValue_slice {t : Ty} (ht : t ≠ .uint 8) (old : GoVal) (p : Bool) (vs : List Bencode) (raw : Bytes) :
    setValue (.slice t) old (.list p vs raw) = match setEach (fun x => setField t (zero t) x) vs with
        | (xs, .ok) => (.slice xs, .ok)
        | (_, o) => (old, o) := by
  rw [setValue]
  · rfl
  · exact ht

theorem setValue_slice_other {t : Ty} (ht : t ≠ .uint 8) (old : GoVal) (v : Bencode) (hv : ∀ p vs raw, v ≠ .list p vs raw) :
    setValue (.slice t) old v = (old, .err "could not assign bencode value to target") := by
  rw [setValue]
  · exact ht
  · exact hv

theorem valueOk_slice {t : Ty} (hne : t ≠ .uint 8) (ht : FieldOk t) : ValueOk (.slice t) := by
  intro _ old v x _ hd
  by_cases hl : ∃ p vs raw, v = .list p vs raw
  · obtain ⟨p, vs, raw, rfl⟩ := hl
    rw [setValue_slice hne]
    have he := setEach_iff (t := t) (vs := vs) (fun x => setField t (zero t) x)
      (fun v hv x => ht _ v x (zero_shaped t) (inDoc_list hd v hv))
    constructor
    · intro h
      split at h
      · rename_i xs hx
        simp only [Prod.mk.injEq, and_true] at h
        subst h
        exact .slice hne ((he xs).1 hx)
      · rename_i o hno hx
        simp only [Prod.mk.injEq] at h
        exact absurd h.2 hno
    · intro h
      cases h with
      | bytesOfOther => exact absurd rfl hne
      | slice _ h => rw [(he _).2 h]
  · have hl' : ∀ p vs raw, v ≠ .list p vs raw := fun p vs raw e => hl ⟨p, vs, raw, e⟩
    rw [setValue_slice_other hne _ _ hl']
    simp only [Prod.mk.injEq, reduceCtorEq, and_false, false_iff]
    intro h
    cases h with
    | bytesOfStr => exact absurd rfl hne
    | bytesOfInt => exact absurd rfl hne
    | bytesOfOther => exact absurd rfl hne
    | slice => exact hl' _ _ _ rfl

theorem valueOk_map {t : Ty} (sk : Bool) (ht : FieldOk t) : ValueOk (.map sk t) := by
  intro _ old v x _ hd
  match v, hd with
  | .dict p kvs raw, hd =>
    rw [setValue]
    obtain ⟨hd1, hd2⟩ := inDoc_dict hd
    have he := setEntries_iff (t := t) (kvs := kvs) (fun x => setField t (zero t) x)
      (fun e hv x => ht _ e.2 x (zero_shaped t) (hd1 e hv)) sk [] (hn := by simpa using hd2)
    constructor
    · intro h
      split at h
      · rename_i m hx
        simp only [Prod.mk.injEq, and_true] at h
        subst h
        obtain ⟨h1, m2, rfl, h2⟩ := (he m).1 hx
        exact .map sk h1 (by simpa using h2)
      · rename_i o hno hx
        simp only [Prod.mk.injEq] at h
        exact absurd h.2 hno
    · intro h
      cases h with
      | map _ h1 h2 => rw [(he _).2 ⟨h1, _, (List.nil_append _).symm, h2⟩]
  | .int _, _ => simp only [setValue, Prod.mk.injEq, reduceCtorEq, and_false, false_iff]; intro h; cases h
  | .str _, _ => simp only [setValue, Prod.mk.injEq, reduceCtorEq, and_false, false_iff]; intro h; cases h
  | .list _ _ _, _ => simp only [setValue, Prod.mk.injEq, reduceCtorEq, and_false, false_iff]; intro h; cases h
  | .nil, hd => exact absurd rfl (inDoc_ne_nil hd)

theorem setField_ptrNil (t : Ty) (v : Bencode) :
    setField (.ptr t) (.ptr none) v = (.ptr (some (setValue t (zero t) v).1), (setValue t (zero t) v).2) := by
  rw [setField]; simp

theorem setField_ptr (t : Ty) (o : GoVal) (v : Bencode) :
    setField (.ptr t) (.ptr (some o)) v = (.ptr (some (setValue t o v).1), (setValue t o v).2) := by
  rw [setField]

theorem fieldOk_ptr {t : Ty} (ht : ValueOk t) : FieldOk (.ptr t) := by
  intro old v x hs hd
  rw [Shaped] at hs
  by_cases hp : NotPointer t
  · have ht := ht hp
    rcases hs with rfl | ⟨y, rfl, hy⟩
    · rw [setField_ptrNil]
      have ht := fun x => ht (zero t) v x (zero_shaped t) hd
      constructor
      · intro h
        simp only [Prod.mk.injEq] at h
        obtain ⟨rfl, h2⟩ := h
        exact .ptrNil hp ((ht _).1 (Prod.ext rfl h2))
      · intro h
        cases h with
        | ptrNil _ h => rw [(ht _).2 h]
    · rw [setField_ptr]
      have ht := fun x => ht y v x hy hd
      constructor
      · intro h
        simp only [Prod.mk.injEq] at h
        obtain ⟨rfl, h2⟩ := h
        exact .ptr hp ((ht _).1 (Prod.ext rfl h2))
      · intro h
        cases h with
        | ptr _ h => rw [(ht _).2 h]
  · have : ∃ u, t = .ptr u := Classical.byContradiction fun hc => hp (fun u e => hc ⟨u, e⟩)
    obtain ⟨u, rfl⟩ := this
    have he : (setField (.ptr (.ptr u)) old v).2 ≠ .ok := by
      rcases hs with rfl | ⟨y, rfl, _⟩
      · rw [setField_ptrNil, setValue]; simp
      · rw [setField_ptr, setValue]; simp
    constructor
    · intro h
      exact absurd (by rw [h]) he
    · intro h
      cases h with
      | ptrNil h => exact absurd h hp
      | ptr h => exact absurd h hp

mutual
theorem both_ok : ∀ t : Ty, Machine t → ValueOk t ∧ FieldOk t
  | .string, _ => both_of (fun _ _ => by rw [setField]) valueOk_string (by intro u; simp)
  | .int bits, hm => by
    rw [Machine] at hm
    obtain ⟨h1, h2⟩ := machine_bits hm
    have hv : ValueOk (.int bits) := by
      intro _ old v x _ _
      rw [← setField, C93_int_partial bits h1 h2]
      constructor
      · rintro ⟨n, rfl, a, b, c⟩; exact .int a b c
      · intro h; cases h with | int a b c => exact ⟨_, rfl, a, b, c⟩
    exact both_of (fun _ _ => by rw [setField]) hv (by intro u; simp)
  | .uint bits, hm => by
    rw [Machine] at hm
    obtain ⟨h1, h2⟩ := machine_bits hm
    have hv : ValueOk (.uint bits) := by
      intro _ old v x _ _
      rw [← setField, C93_uint_partial bits h2]
      constructor
      · rintro ⟨n, rfl, a, b⟩; exact .uint a b
      · intro h; cases h with | uint a b => exact ⟨_, rfl, a, b⟩
    exact both_of (fun _ _ => by rw [setField]) hv (by intro u; simp)
  | .slice t, hm => by
    rw [Machine] at hm
    by_cases ht : t = .uint 8
    · rw [ht]
      exact both_of (fun _ _ => by rw [setField]) valueOk_bytes (by intro u; simp)
    · exact both_of (fun _ _ => by rw [setField]) (valueOk_slice ht (both_ok t hm).2) (by intro u; simp)
  | .struct fs, hm => by
    rw [Machine] at hm
    exact both_of (fun _ _ => by rw [setField]) (valueOk_struct (fields_ok fs hm)) (by intro u; simp)
  | .map sk t, hm => by
    rw [Machine] at hm
    exact both_of (fun _ _ => by rw [setField]) (valueOk_map sk (both_ok t hm).2) (by intro u; simp)
  | .ptr t, hm => by
    rw [Machine] at hm
    exact ⟨fun h => absurd rfl (h t), fieldOk_ptr (both_ok t hm).1⟩
  | .other, _ => by
    refine both_of (fun _ _ => by rw [setField]) ?_ (by intro u; simp)
    intro _ old v x _ _
    rw [setValue]
    simp only [Prod.mk.injEq, reduceCtorEq, and_false, false_iff]
    intro h; cases h
theorem fields_ok : ∀ fs : List ((Bytes × Bytes × Bool) × Ty), MachineIn fs → FieldsOk fs
  | [], _ => by
    intro olds v xs hs _
    rw [ShapedIn] at hs
    subst hs
    rw [setFields]
    simp only [Prod.mk.injEq, and_true]
    constructor
    · rintro rfl; exact .nil v
    · intro h; cases h; rfl
  | (f, t) :: fs, hm => by
    rw [MachineIn] at hm
    exact fieldsOk_cons (f := (f, t)) (both_ok t hm.1).2 (fields_ok fs hm.2)
end

/-! ## C93 -/

theorem hex_sixteen : Literal (ascii "0x10") 16 := by
  have h1 : IsDigitIn 16 49 1 := .num 49 (by decide) (by decide) (by decide)
  have h0 : IsDigitIn 16 48 0 := .num 48 (by decide) (by decide) (by decide)
  exact Literal.based (c := 120) (base := 16) (.inr (.inr ⟨.inl rfl, rfl⟩)) (.next h1 (.one h0))

theorem grouped : SignedLiteral (ascii "-1_000") (-1000) := by
  have h1 : IsDigitIn 10 49 1 := .num 49 (by decide) (by decide) (by decide)
  have h0 : IsDigitIn 10 48 0 := .num 48 (by decide) (by decide) (by decide)
  exact .minus (Literal.decimal (.under h1 (.next h0 (.next h0 (.one h0)))) (by decide))

/-- C93 is violated: the string "0x10" fills an int64 field with 16, "-1_000" with -1000. -/
theorem C93_violated (old : GoVal) : setField (.int 64) old (.str (ascii "0x10")) = (.int 16, .ok) ∧
    setField (.int 64) old (.str (ascii "-1_000")) = (.int (-1000), .ok) :=
  ⟨(C93_int_partial 64 (by decide) (by decide) _ _ _).2 ⟨16, rfl, .str (.plain hex_sixteen), by decide, by decide⟩,
   (C93_int_partial 64 (by decide) (by decide) _ _ _).2 ⟨-1000, rfl, .str grouped, by decide, by decide⟩⟩

/-- What holds in general: what is not a number in one of these ways is refused; for instance a list, a dictionary, a string with a
letter or a space. -/
example (old : GoVal) (x : GoVal) : setField (.int 64) old (.list true [.int 5] (ascii "li5ee")) ≠ (x, .ok) := by
  intro h
  obtain ⟨n, _, h, _⟩ := (C93_int_partial 64 (by decide) (by decide) _ _ _).1 h
  cases h

/-! ## C94 -/

mutual
theorem isZero_zero : ∀ t, IsZero t (zero t)
  | .string => .string
  | .int b => .int b
  | .uint b => .uint b
  | .slice t => .slice t
  | .map k t => .map k t
  | .ptr t => .ptr t
  | .other => .other
  | .struct fs => .struct (areZero_zeros fs)
theorem areZero_zeros : ∀ fs, AreZero fs (zeros fs)
  | [] => .nil
  | (_, t) :: fs => .cons (isZero_zero t) (areZero_zeros fs)
end

mutual
theorem isZero_unique : ∀ t x, IsZero t x → x = zero t
  | _, _, .string => rfl
  | _, _, .int _ => rfl
  | _, _, .uint _ => rfl
  | _, _, .slice _ => rfl
  | _, _, .map _ _ => rfl
  | _, _, .ptr _ => rfl
  | _, _, .other => rfl
  | _, _, .struct h => by rw [areZero_unique _ _ h]; rfl
theorem areZero_unique : ∀ fs xs, AreZero fs xs → xs = zeros fs
  | _, _, .nil => rfl
  | _, _, .cons h hs => by rw [isZero_unique _ _ h, areZero_unique _ _ hs]; rfl
end

/-- C94: what new elements, map entries and targets of nil pointers are filled from is the zero value of their type. -/
theorem C94_zero (t : Ty) (x : GoVal) : x = zero t ↔ IsZero t x :=
  ⟨fun h => h ▸ isZero_zero t, isZero_unique t x⟩

/-- C94: `Unmarshal` succeeds with the target holding `x` exactly if the document begins with an element from which the fields
are filled as `StoredFields` says. -/
theorem C94_stored (fs : List ((Bytes × Bytes × Bool) × Ty)) (hm : MachineIn fs) (olds : List GoVal) (hs : ShapedIn fs olds)
    (data : Bytes) (x : GoVal) :
    unmarshal (.ptr (.struct fs)) (.ptr (some (.struct olds))) data = (x, .ok) ↔
      ∃ b r v xs, data = b ++ r ∧ Denotes b v ∧ StoredFields fs olds v xs ∧ x = .ptr (some (.struct xs)) := by
  unfold unmarshal
  constructor
  · intro h
    cases hp : parse data with
    | err e => simp [hp] at h
    | panic w => simp [hp] at h
    | outOfFuel => simp [hp] at h
    | ok v =>
      obtain ⟨b, r, hb, hd⟩ := parse_sound hp
      simp only [hp, processTarget, Prod.mk.injEq] at h
      obtain ⟨rfl, h2⟩ := h
      exact ⟨b, r, v, _, hb, hd, (fields_ok fs hm olds v _ hs ⟨b, hd⟩).1 (Prod.ext rfl h2), rfl⟩
  · rintro ⟨b, r, v, xs, rfl, hd, h, rfl⟩
    rw [parse_complete hd r]
    simp only [processTarget]
    rw [(fields_ok fs hm olds v _ hs ⟨b, hd⟩).2 h]

/-- A target with a pointer that points to something, a map, an unexported field and a slice of structs. -/
def mixedFields : List ((Bytes × Bytes × Bool) × Ty) :=
  [((ascii "P", ascii "p", true), .ptr (.struct [((ascii "X", ascii "x,optional", true), .int 32), ((ascii "Y", ascii "y", true), .int 32)])),
   ((ascii "M", ascii "m,optional", true), .map true (.slice .string)),
   ((ascii "h", ascii "h", false), .string),
   ((ascii "S", ascii "s,optional", true), .slice (.struct [((ascii "N", ascii "n", true), .uint 16)]))]

def mixedOld : List GoVal := [.ptr (some (.struct [.int 7, .int 8])), .map [], .string (ascii "hidden"), .nilSlice]

theorem mixed_shaped : MachineIn mixedFields ∧ ShapedIn mixedFields mixedOld := by
  refine ⟨by simp [mixedFields, MachineIn, Machine], ?_⟩
  simp only [mixedFields, mixedOld, ShapedIn, Shaped]
  exact ⟨_, _, rfl, .inr ⟨_, rfl, _, rfl, _, _, rfl, trivial, _, _, rfl, trivial, rfl⟩, _, _, rfl, trivial, _, _, rfl, trivial, _, _, rfl, trivial, rfl⟩

/-- Non-vacuity of C94: `d1:pd1:yi5ee1:sld1:n3:077eee` is unmarshalled into a target in which the pointer points to {7, 8}: the struct it
points to becomes {7, 5} (its first field is optional and absent), the map is kept, the unexported field too, and the slice
gets one struct whose field is 63 (077 is octal). -/
example : unmarshal (.ptr (.struct mixedFields)) (.ptr (some (.struct mixedOld))) (ascii "d1:pd1:yi5ee1:sld1:n3:077eee") =
    (.ptr (some (.struct [.ptr (some (.struct [.int 7, .int 5])), .map [], .string (ascii "hidden"), .slice [.struct [.uint 63]]])), .ok) := by
  refine (C94_stored mixedFields mixed_shaped.1 mixedOld mixed_shaped.2 _ _).2 ?_
  have k : ∀ c : UInt8, Denotes [49, 58, c] (.str [c]) := fun c => .str [49] [c] (isDigits_of_all (by decide)) (by show machineNumber [49] = 1; decide)
  have d5 : Denotes (ascii "i5e") (.int 5) := denotes_int (ds := ascii "5") (isDigits_of_all (by decide)) (by decide)
  have d077 : Denotes (ascii "3:077") (.str (ascii "077")) := .str (ascii "3") (ascii "077") (isDigits_of_all (by decide)) (by decide)
  have dy := Denotes.dict _ _ (.cons _ _ _ _ _ _ (k 121) d5 .nil)
  rw [mapOf_nodup (by decide)] at dy
  have dn := Denotes.dict _ _ (.cons _ _ _ _ _ _ (k 110) d077 .nil)
  rw [mapOf_nodup (by decide)] at dn
  have dl := Denotes.list _ _ (.cons _ _ _ _ dn .nil)
  have dd := Denotes.dict _ _ (.cons _ _ _ _ _ _ (k 112) dy (.cons _ _ _ _ _ _ (k 115) dl .nil))
  rw [mapOf_nodup (by decide)] at dd
  refine ⟨_, [], _, _, (List.append_nil _).symm, dd, ?_, rfl⟩
  have s7 : IsDigitIn 8 55 7 := .num 55 (by decide) (by decide) (by decide)
  have nc : ∀ c : UInt8, c ≠ 44 → (44 : UInt8) ∉ [c] := by intro c h e; exact h (List.mem_singleton.1 e).symm
  have tn : ∀ c : UInt8, c ≠ 44 → TagNames [c] [c] := fun c h => ⟨nc c h, .inl rfl⟩
  have opt : ∀ c : UInt8, TagOptional (c :: ascii ",optional") := fun c => ⟨[c], .inl rfl⟩
  have tno : ∀ c : UInt8, c ≠ 44 → TagNames (c :: ascii ",optional") [c] := fun c h => ⟨nc c h, .inr ⟨ascii "optional", rfl⟩⟩
  refine .present (key := [112]) ⟨rfl, by decide⟩ (tn 112 (by decide)) ⟨_, _, _, rfl, List.mem_cons_self⟩
    (.ptr (fun u => by simp) (.struct ⟨_, _, _, rfl⟩ (.absent (key := [120]) ⟨rfl, by decide⟩ (tno 120 (by decide)) (opt 120)
      ⟨_, _, _, rfl, by intro x; simp⟩ (.present (key := [121]) ⟨rfl, by decide⟩ (tn 121 (by decide)) ⟨_, _, _, rfl, List.mem_cons_self⟩
        (.int (.int 5) (by decide) (by decide)) (.nil _))))) ?_
  refine .absent (key := [109]) ⟨rfl, by decide⟩ (tno 109 (by decide)) (opt 109) ⟨_, _, _, rfl, by intro x; simp⟩ ?_
  refine .skip (fun h => absurd h.1 (by decide)) ?_
  refine .present (key := [115]) ⟨rfl, by decide⟩ (tno 115 (by decide)) ⟨_, _, _, rfl, List.mem_cons_of_mem _ List.mem_cons_self⟩
    (.slice (by simp) (.cons (.struct ⟨_, _, _, rfl⟩ (.present (key := [110]) ⟨rfl, by decide⟩ (tn 110 (by decide))
      ⟨_, _, _, rfl, List.mem_cons_self⟩ (.uint (.str (.octal (.next s7 (.one s7)))) (by decide)) (.nil _))) (.nil _))) (.nil _)

end Gotit.Props
