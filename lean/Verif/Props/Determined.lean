import Verif.Spec.Determined
import Verif.Props.Canonical
import Verif.Props.Open
import Verif.Lemmas.Faithful
import Verif.Lemmas.Strconv
import Verif.Props.Bencode
import Verif.Props.Unmarshal
import Verif.Model.Metainfo
/-
  C89: what `Unmarshal` stores does not depend on the order in which Go iterates over maps.
-/
namespace Gotit.Props
open Gotit Spec

/-! ### Orders and keys -/

theorem reorder_oneEntry {v w : Bencode} (h : Reorder v w) : OneEntryPerKey v → OneEntryPerKey w := by
  induction h with
  | refl => exact id
  | trans _ _ h1 h2 => exact fun h => h2 (h1 h)
  | dict ptr raw hp =>
    intro h p kvs r hs
    cases hs with
    | refl => exact (hp.map Prod.fst).nodup_iff.1 (h _ _ _ (.refl _))
    | dict _ _ hm hs => exact h _ _ _ (.dict _ _ (hp.mem_iff.2 hm) hs)
  | @inList v v' ptr a b raw hr ih =>
    intro h p kvs r hs
    cases hs with
    | list _ _ hm hs =>
      rcases List.mem_append.1 hm with hm | hm
      · exact h _ _ _ (.list _ _ (by simp [hm]) hs)
      · rcases List.mem_cons.1 hm with hm | hm
        · subst hm
          exact ih (fun p k r hs => h p k r (.list _ _ (by simp) hs)) _ _ _ hs
        · exact h _ _ _ (.list _ _ (by simp [hm]) hs)
  | @inDict v v' ptr a b k raw hr ih =>
    intro h p kvs r hs
    cases hs with
    | refl =>
      have := h _ _ _ (.refl _)
      simpa using this
    | dict _ _ hm hs =>
      rcases List.mem_append.1 hm with hm | hm
      · exact h _ _ _ (.dict _ _ (List.mem_append_left _ hm) hs)
      · rcases List.mem_cons.1 hm with hm | hm
        · cases hm
          exact ih (fun p k' r hs => h p k' r (.dict (k := k) _ _ (List.mem_append_right _ List.mem_cons_self) hs)) _ _ _ hs
        · exact h _ _ _ (.dict _ _ (List.mem_append_right _ (List.mem_cons_of_mem _ hm)) hs)

theorem lookupKey_perm {a b : List (Bytes × Bencode)} (h : a.Perm b) (hn : (a.map Prod.fst).Nodup) (k : Bytes) :
    lookupKey k a = lookupKey k b := by
  have hn' := (h.map Prod.fst).nodup_iff.1 hn
  by_cases hk : k ∈ a.map Prod.fst
  · obtain ⟨e, he, rfl⟩ := List.mem_map.1 hk
    rw [lookupKey_of_mem hn (v := e.2) he, lookupKey_of_mem hn' (v := e.2) (h.mem_iff.1 he)]
  · rw [lookupKey_absent hk, lookupKey_absent (fun hx => hk ((h.map Prod.fst).mem_iff.2 hx))]

theorem lookupKey_replace (key k : Bytes) (v v' : Bencode) (b : List (Bytes × Bencode)) : ∀ a : List (Bytes × Bencode),
    lookupKey key (a ++ (k, v) :: b) = lookupKey key (a ++ (k, v') :: b) ∨
    (key = k ∧ lookupKey key (a ++ (k, v) :: b) = v ∧ lookupKey key (a ++ (k, v') :: b) = v') := by
  intro a
  induction a with
  | nil =>
    by_cases h : k = key
    · subst h; right; simp [lookupKey]
    · left; simp [lookupKey, h]
  | cons e a ih =>
    simp only [List.cons_append, lookupKey]
    by_cases h : e.1 = key
    · left; simp [h]
    · simpa [h] using ih

/-- What lands in text in a reordered document is what landed before, reordered. -/
theorem inText_reorder {v w : Bencode} (h : Reorder v w) : ∀ t y, InText t w y → ∃ x, InText t v x ∧ Reorder x y := by
  induction h with
  | refl v => exact fun t y h => ⟨y, h, .refl y⟩
  | trans _ _ h1 h2 =>
    intro t y h
    obtain ⟨x, g1, g2⟩ := h2 t y h
    obtain ⟨x', g3, g4⟩ := h1 t x g1
    exact ⟨x', g3, .trans g4 g2⟩
  | @dict kvs kvs' ptr raw hp =>
    intro t
    induction t using Ty.rec (motive_2 := fun _ => True) (motive_3 := fun _ => True) with
    | ptr t ih =>
      intro y h
      cases h with
      | ptr h => obtain ⟨x, g1, g2⟩ := ih y h; exact ⟨x, .ptr g1, g2⟩
    | string => intro y h; cases h; exact ⟨_, .string _, .dict ptr raw hp⟩
    | struct fs =>
      intro y h
      cases h with
      | struct _ _ h1 h0 h2 h3 => exact ⟨y, .struct _ _ h1 h0 (hp.mem_iff.2 h2) h3, .refl y⟩
    | slice t => intro y h; cases h
    | int => intro y h; cases h
    | uint => intro y h; cases h
    | map =>
      intro y h
      cases h with
      | map _ _ _ h2 h3 => exact ⟨y, .map _ _ _ (hp.mem_iff.2 h2) h3, .refl y⟩
    | other => intro y h; cases h
    | nil => trivial
    | cons => trivial
    | mk => trivial
  | @inList v v' ptr a b raw hr ih0 =>
    intro t
    induction t using Ty.rec (motive_2 := fun _ => True) (motive_3 := fun _ => True) with
    | ptr t ih =>
      intro y h
      cases h with
      | ptr h => obtain ⟨x, g1, g2⟩ := ih y h; exact ⟨x, .ptr g1, g2⟩
    | string => intro y h; cases h; exact ⟨_, .string _, .inList ptr a b raw hr⟩
    | slice t =>
      intro y h
      cases h with
      | slice _ _ hm h =>
        rcases List.mem_append.1 hm with hm | hm
        · exact ⟨y, .slice _ _ (by simp [hm]) h, .refl y⟩
        · rcases List.mem_cons.1 hm with hm | hm
          · subst hm
            obtain ⟨x, g1, g2⟩ := ih0 _ _ h
            exact ⟨x, .slice _ _ (by simp) g1, g2⟩
          · exact ⟨y, .slice _ _ (by simp [hm]) h, .refl y⟩
    | struct fs => intro y h; cases h
    | int => intro y h; cases h
    | uint => intro y h; cases h
    | map => intro y h; cases h
    | other => intro y h; cases h
    | nil => trivial
    | cons => trivial
    | mk => trivial
  | @inDict v v' ptr a b k raw hr ih0 =>
    intro t
    induction t using Ty.rec (motive_2 := fun _ => True) (motive_3 := fun _ => True) with
    | ptr t ih =>
      intro y h
      cases h with
      | ptr h => obtain ⟨x, g1, g2⟩ := ih y h; exact ⟨x, .ptr g1, g2⟩
    | string => intro y h; cases h; exact ⟨_, .string _, .inDict ptr a b k raw hr⟩
    | struct fs =>
      intro y h
      cases h with
      | struct _ _ h1 h0 hm h3 =>
        rcases List.mem_append.1 hm with hm | hm
        · exact ⟨y, .struct _ _ h1 h0 (List.mem_append_left _ hm) h3, .refl y⟩
        · rcases List.mem_cons.1 hm with hm | hm
          · cases hm
            obtain ⟨x, g1, g2⟩ := ih0 _ _ h3
            exact ⟨x, .struct _ _ h1 h0 (List.mem_append_right _ List.mem_cons_self) g1, g2⟩
          · exact ⟨y, .struct _ _ h1 h0 (List.mem_append_right _ (List.mem_cons_of_mem _ hm)) h3, .refl y⟩
    | slice t => intro y h; cases h
    | int => intro y h; cases h
    | uint => intro y h; cases h
    | map =>
      intro y h
      cases h with
      | map _ _ _ hm h3 =>
        rcases List.mem_append.1 hm with hm | hm
        · exact ⟨y, .map _ _ _ (List.mem_append_left _ hm) h3, .refl y⟩
        · rcases List.mem_cons.1 hm with hm | hm
          · cases hm
            obtain ⟨x, g1, g2⟩ := ih0 _ _ h3
            exact ⟨x, .map _ _ _ (List.mem_append_right _ List.mem_cons_self) g1, g2⟩
          · exact ⟨y, .map _ _ _ (List.mem_append_right _ (List.mem_cons_of_mem _ hm)) h3, .refl y⟩
    | other => intro y h; cases h
    | nil => trivial
    | cons => trivial
    | mk => trivial

/-! ### Numbers are never read from lists and dictionaries -/

theorem parseUint0_bracket {c : UInt8} (hc : c = 91 ∨ c = 123) (cs : Bytes) (bits : Nat) : ∃ e, parseUint0 (c :: cs) bits = .error e := by
  have hd : digitVal c = none := by rcases hc with rfl | rfl <;> decide
  have hb : base0 (c :: cs) = (10, c :: cs) := by
    rcases hc with rfl | rfl <;> simp [base0]
  have h95 : c ≠ 95 := by rcases hc with rfl | rfl <;> decide
  refine ⟨.syntax, ?_⟩
  unfold parseUint0
  rw [if_neg (by simp), hb]
  simp [parseDigits, h95, hd]

theorem parseInt0_bracket {c : UInt8} (hc : c = 91 ∨ c = 123) (cs : Bytes) (bits : Nat) : ∃ e, parseInt0 (c :: cs) bits = .error e := by
  obtain ⟨e, he⟩ := parseUint0_bracket hc cs bits
  refine ⟨e, ?_⟩
  have h43 : c ≠ 43 := by rcases hc with rfl | rfl <;> decide
  have h45 : c ≠ 45 := by rcases hc with rfl | rfl <;> decide
  unfold parseInt0
  rw [if_neg (by simp)]
  simp [h43, h45, he]

theorem head_take (c d : UInt8) (x y : Bytes) (hx : x ≠ []) (n : Nat) : ∃ cs, (if (c :: x ++ y).length = n then [c, d]
    else List.take ((c :: x ++ y).length - 1) (c :: x ++ y) ++ [d]) = c :: cs := by
  split
  · exact ⟨_, rfl⟩
  · cases x with
    | nil => exact absurd rfl hx
    | cons a x => exact ⟨List.take (x ++ y).length (a :: (x ++ y)) ++ [d], by simp [List.take_succ_cons]⟩

theorem text_list (p : Bool) (vs : List Bencode) (raw : Bytes) : ∃ cs, (Bencode.list p vs raw).toText = 91 :: cs := by
  cases p <;> simp only [Bencode.toText, prettyPrint] <;> exact head_take _ _ _ _ (by simp [newLine]) _

theorem text_dict (p : Bool) (kvs : List (Bytes × Bencode)) (raw : Bytes) : ∃ cs, (Bencode.dict p kvs raw).toText = 123 :: cs := by
  cases p <;> simp only [Bencode.toText, prettyPrint] <;> exact head_take _ _ _ _ (by simp [newLine]) _


/-! ### Reordered documents, level by level -/

/-- The elements of two lists, pairwise reordered. -/
inductive EachReorder : List Bencode → List Bencode → Prop
  | nil : EachReorder [] []
  | cons {v w vs ws} : Reorder v w → EachReorder vs ws → EachReorder (v :: vs) (w :: ws)

theorem eachReorder_refl : ∀ vs, EachReorder vs vs
  | [] => .nil
  | v :: vs => .cons (.refl v) (eachReorder_refl vs)

theorem eachReorder_trans : ∀ {a b c}, EachReorder a b → EachReorder b c → EachReorder a c := by
  intro a b c h1
  induction h1 generalizing c with
  | nil => exact id
  | cons h _ ih =>
    intro h2
    cases h2 with
    | cons g1 g2 => exact .cons (.trans h g1) (ih g2)

theorem eachReorder_one {v w : Bencode} (h : Reorder v w) (b : List Bencode) : ∀ a, EachReorder (a ++ v :: b) (a ++ w :: b)
  | [] => .cons h (eachReorder_refl b)
  | x :: a => .cons (.refl x) (eachReorder_one h b a)

/-- Reordered elements have the same form; the elements of lists and the values of keys correspond. -/
def SameForm : Bencode → Bencode → Prop
  | .list p vs raw, w => ∃ ws, w = .list p ws raw ∧ EachReorder vs ws
  | .dict p kvs raw, w => ∃ kvs', w = .dict p kvs' raw ∧ ∀ key, Reorder (lookupKey key kvs) (lookupKey key kvs')
  | v, w => w = v

theorem sameForm_refl (v : Bencode) : SameForm v v := by
  cases v with
  | list p vs raw => exact ⟨vs, rfl, eachReorder_refl vs⟩
  | dict p kvs raw => exact ⟨kvs, rfl, fun _ => .refl _⟩
  | _ => rfl

theorem reorder_sameForm {v w : Bencode} (h : Reorder v w) : OneEntryPerKey v → SameForm v w := by
  induction h with
  | refl v => exact fun _ => sameForm_refl v
  | @trans u v w g1 g2 h1 h2 =>
    intro h
    have a := h1 h
    have b := h2 (reorder_oneEntry g1 h)
    cases u with
    | list p vs raw =>
      obtain ⟨ws, rfl, hw⟩ := a
      obtain ⟨xs, rfl, hx⟩ := b
      exact ⟨xs, rfl, eachReorder_trans hw hx⟩
    | dict p kvs raw =>
      obtain ⟨ws, rfl, hw⟩ := a
      obtain ⟨xs, rfl, hx⟩ := b
      exact ⟨xs, rfl, fun key => .trans (hw key) (hx key)⟩
    | _ => simp only [SameForm] at a; subst a; exact b
  | @dict kvs kvs' p raw hp =>
    intro h
    exact ⟨kvs', rfl, fun key => by rw [lookupKey_perm hp (h _ _ _ (.refl _))]; exact .refl _⟩
  | @inList v v' p a b raw hr _ => exact fun _ => ⟨_, rfl, eachReorder_one hr b a⟩
  | @inDict v v' p a b k raw hr _ =>
    intro _
    refine ⟨_, rfl, fun key => ?_⟩
    rcases lookupKey_replace key k v v' b a with e | ⟨_, e1, e2⟩
    · rw [e]; exact .refl _
    · rw [e1, e2]; exact hr

theorem oneEntry_list {p vs raw v} (h : OneEntryPerKey (.list p vs raw)) (hv : v ∈ vs) : OneEntryPerKey v :=
  fun _ _ _ hs => h _ _ _ (.list _ _ hv hs)

theorem oneEntry_dict {p kvs raw k v} (h : OneEntryPerKey (.dict p kvs raw)) (hv : (k, v) ∈ kvs) : OneEntryPerKey v :=
  fun _ _ _ hs => h _ _ _ (.dict (k := k) _ _ hv hs)

/-! ### Storing -/

/-- The two results agree up to `f` on strings. -/
def Agree (f : Bytes → Bytes) (x y : GoVal × Outcome) : Prop := mapStrings f x.1 = mapStrings f y.1 ∧ x.2 = y.2
def AgreeAll (f : Bytes → Bytes) (x y : List GoVal × Outcome) : Prop := mapStringsAll f x.1 = mapStringsAll f y.1 ∧ x.2 = y.2

/-- `f` does not see the order of what is put into strings. -/
def Blind (f : Bytes → Bytes) (t : Ty) (v : Bencode) : Prop := ∀ x x', InText t v x → Reorder x x' → f x.toText = f x'.toText

theorem setEach_agree (f : Bytes → Bytes) (g : Bencode → GoVal × Outcome) {vs ws : List Bencode} (h : EachReorder vs ws) :
    (∀ v w, v ∈ vs → Reorder v w → Agree f (g v) (g w)) → AgreeAll f (setEach g vs) (setEach g ws) := by
  induction h with
  | nil => exact fun _ => ⟨rfl, rfl⟩
  | @cons v w vs ws h _ ih =>
    intro hg
    obtain ⟨a1, a2⟩ := hg v w (by simp) h
    obtain ⟨b1, b2⟩ := ih (fun v w hv => hg v w (by simp [hv]))
    rcases hx : g v with ⟨x, o⟩
    rcases hy : g w with ⟨y, o'⟩
    rw [hx, hy] at a1 a2
    simp only at a1 a2
    subst a2
    simp only [setEach, hx, hy]
    cases o with
    | ok => exact ⟨by simp only [mapStringsAll, a1, b1], b2⟩
    | err e => exact ⟨rfl, rfl⟩
    | panic e => exact ⟨rfl, rfl⟩

mutual
theorem setValue_agree (f : Bytes → Bytes) : ∀ (t : Ty) (old : GoVal) (v w : Bencode), NoMaps t → Reorder v w → OneEntryPerKey v →
    Blind f t v → Agree f (setValue t old v) (setValue t old w)
  | .string, old, v, w, _, hr, _, hb => by
    simp only [setValue]
    exact ⟨by simp only [mapStrings]; rw [hb _ _ (.string v) hr], rfl⟩
  | .int bits, old, v, w, _, hr, ho, _ => by
    have hf := reorder_sameForm hr ho
    cases v with
    | list p vs raw =>
      obtain ⟨ws, rfl, _⟩ := hf
      obtain ⟨c1, e1⟩ := text_list p vs raw
      obtain ⟨c2, e2⟩ := text_list p ws raw
      obtain ⟨x1, g1⟩ := parseInt0_bracket (Or.inl rfl) c1 bits
      obtain ⟨x2, g2⟩ := parseInt0_bracket (Or.inl rfl) c2 bits
      simp only [setValue, e1, e2, g1, g2]; exact ⟨rfl, rfl⟩
    | dict p kvs raw =>
      obtain ⟨ws, rfl, _⟩ := hf
      obtain ⟨c1, e1⟩ := text_dict p kvs raw
      obtain ⟨c2, e2⟩ := text_dict p ws raw
      obtain ⟨x1, g1⟩ := parseInt0_bracket (Or.inr rfl) c1 bits
      obtain ⟨x2, g2⟩ := parseInt0_bracket (Or.inr rfl) c2 bits
      simp only [setValue, e1, e2, g1, g2]; exact ⟨rfl, rfl⟩
    | _ => simp only [SameForm] at hf; subst hf; exact ⟨rfl, rfl⟩
  | .uint bits, old, v, w, _, hr, ho, _ => by
    have hf := reorder_sameForm hr ho
    cases v with
    | list p vs raw =>
      obtain ⟨ws, rfl, _⟩ := hf
      obtain ⟨c1, e1⟩ := text_list p vs raw
      obtain ⟨c2, e2⟩ := text_list p ws raw
      obtain ⟨x1, g1⟩ := parseUint0_bracket (Or.inl rfl) c1 bits
      obtain ⟨x2, g2⟩ := parseUint0_bracket (Or.inl rfl) c2 bits
      simp only [setValue, e1, e2, g1, g2]; exact ⟨rfl, rfl⟩
    | dict p kvs raw =>
      obtain ⟨ws, rfl, _⟩ := hf
      obtain ⟨c1, e1⟩ := text_dict p kvs raw
      obtain ⟨c2, e2⟩ := text_dict p ws raw
      obtain ⟨x1, g1⟩ := parseUint0_bracket (Or.inr rfl) c1 bits
      obtain ⟨x2, g2⟩ := parseUint0_bracket (Or.inr rfl) c2 bits
      simp only [setValue, e1, e2, g1, g2]; exact ⟨rfl, rfl⟩
    | _ => simp only [SameForm] at hf; subst hf; exact ⟨rfl, rfl⟩
  | .slice t, old, v, w, hm, hr, ho, hb => by
    have hf := reorder_sameForm hr ho
    by_cases ht : t = .uint 8
    · subst ht
      have e : v.rawBytes = w.rawBytes := by
        cases v with
        | list p vs raw => obtain ⟨ws, rfl, _⟩ := hf; rfl
        | dict p vs raw => obtain ⟨ws, rfl, _⟩ := hf; rfl
        | _ => simp only [SameForm] at hf; subst hf; rfl
      simp only [setValue, e]; exact ⟨rfl, rfl⟩
    · cases v with
      | list p vs raw =>
        obtain ⟨ws, rfl, he⟩ := hf
        have hg := setEach_agree f (fun x => setField t (zero t) x) he (fun v w hv hvw =>
          setField_agree f t (zero t) v w (by simpa only [NoMaps] using hm) hvw (oneEntry_list ho hv) (fun x x' hx => hb x x' (.slice _ _ hv hx)))
        rcases hx : setEach (fun x => setField t (zero t) x) vs with ⟨xs, o⟩
        rcases hy : setEach (fun x => setField t (zero t) x) ws with ⟨ys, o'⟩
        rw [hx, hy] at hg
        obtain ⟨a1, a2⟩ := hg
        simp only at a1 a2
        subst a2
        simp only [setValue, hx, hy]
        cases o with
        | ok => exact ⟨by simp only [mapStrings, a1], rfl⟩
        | err e => exact ⟨rfl, rfl⟩
        | panic e => exact ⟨rfl, rfl⟩
      | dict p kvs raw => obtain ⟨ws, rfl, _⟩ := hf; simp only [setValue]; exact ⟨rfl, rfl⟩
      | _ => simp only [SameForm] at hf; subst hf; exact ⟨rfl, rfl⟩
  | .struct fs, old, v, w, hm, hr, ho, hb => by
    have hf := reorder_sameForm hr ho
    cases v with
    | dict p kvs raw =>
      obtain ⟨ws, rfl, he⟩ := hf
      have e1 := setValue.eq_def (.struct fs) old (.dict p kvs raw)
      have e2 := setValue.eq_def (.struct fs) old (.dict p ws raw)
      simp only at e1 e2
      rw [e1, e2]
      have hg := fun olds => setFields_agree f fs olds p kvs ws raw (by simpa only [NoMaps] using hm) he ho hb
      exact ⟨by simp only [mapStrings, (hg _).1], (hg _).2⟩
    | list p kvs raw => obtain ⟨ws, rfl, _⟩ := hf; simp only [setValue]; exact ⟨rfl, rfl⟩
    | _ => simp only [SameForm] at hf; subst hf; exact ⟨rfl, rfl⟩
  | .map _ _, _, _, _, hm, _, _, _ => by simp [NoMaps] at hm
  | .ptr _, old, _, _, _, _, _, _ => by simp only [setValue]; exact ⟨rfl, rfl⟩
  | .other, old, _, _, _, _, _, _ => by simp only [setValue]; exact ⟨rfl, rfl⟩

theorem setField_agree (f : Bytes → Bytes) : ∀ (t : Ty) (old : GoVal) (v w : Bencode), NoMaps t → Reorder v w → OneEntryPerKey v →
    Blind f t v → Agree f (setField t old v) (setField t old w)
  | .ptr t, old, v, w, hm, hr, ho, hb => by
    have hg := fun o => setValue_agree f t o v w (by simpa only [NoMaps] using hm) hr ho
      (fun x x' hx => hb x x' (.ptr hx))
    have e1 := setField.eq_def (.ptr t) old v
    have e2 := setField.eq_def (.ptr t) old w
    simp only at e1 e2
    rw [e1, e2]
    exact ⟨by simp only [mapStrings, (hg _).1], (hg _).2⟩
  | .string, old, v, w, hm, hr, ho, hb => by simp only [setField]; exact setValue_agree f _ old v w hm hr ho hb
  | .int b, old, v, w, hm, hr, ho, hb => by simp only [setField]; exact setValue_agree f _ old v w hm hr ho hb
  | .uint b, old, v, w, hm, hr, ho, hb => by simp only [setField]; exact setValue_agree f _ old v w hm hr ho hb
  | .slice t, old, v, w, hm, hr, ho, hb => by simp only [setField]; exact setValue_agree f (.slice t) old v w hm hr ho hb
  | .struct fs, old, v, w, hm, hr, ho, hb => by simp only [setField]; exact setValue_agree f (.struct fs) old v w hm hr ho hb
  | .map _ _, _, _, _, hm, _, _, _ => by simp [NoMaps] at hm
  | .other, old, v, w, hm, hr, ho, hb => by simp only [setField]; exact setValue_agree f _ old v w hm hr ho hb

theorem setFields_agree (f : Bytes → Bytes) : ∀ (fs : List ((Bytes × Bytes × Bool) × Ty)) (olds : List GoVal) (p : Bool)
    (kvs kvs' : List (Bytes × Bencode)) (raw : Bytes), NoMapsIn fs → (∀ key, Reorder (lookupKey key kvs) (lookupKey key kvs')) →
    OneEntryPerKey (.dict p kvs raw) → Blind f (.struct fs) (.dict p kvs raw) →
    AgreeAll f (setFields fs olds (.dict p kvs raw)) (setFields fs olds (.dict p kvs' raw))
  | [], _, _, _, _, _, _, _, _, _ => by simp only [setFields]; exact ⟨rfl, rfl⟩
  | ((name, tag, canSet), t) :: fs, olds, p, kvs, kvs', raw, hm, hr, ho, hb => by
    simp only [NoMapsIn] at hm
    obtain ⟨r1, r2⟩ := setFields_agree f fs olds.tail p kvs kvs' raw hm.2 hr ho (fun x x' hx => hb x x' (by
      cases hx with
      | struct _ _ h1 h0 h2 h3 => exact .struct _ _ (List.mem_cons_of_mem _ h1) h0 h2 h3))
    simp only [setFields]
    split
    · exact ⟨by simp only [mapStringsAll, r1], r2⟩
    · rename_i hc
      have hn := reorder_nil (hr (tagKey tag))
      simp only [hn]
      split
      · split
        · exact ⟨by simp only [mapStringsAll, r1], r2⟩
        · exact ⟨rfl, rfl⟩
      · rename_i hnil
        have hmem : (tagKey tag, lookupKey (tagKey tag) kvs) ∈ kvs := lookupKey_mem (by intro e; rw [e] at hn; rw [← hn] at hnil; exact hnil rfl)
        have hcs : canSet = true := by
          cases canSet
          · simp at hc
          · rfl
        have htag : tag ≠ [] := by
          intro e; simp [e] at hc
        obtain ⟨a1, a2⟩ := setField_agree f t (olds.headD (zero t)) _ _ hm.1 (hr (tagKey tag)) (oneEntry_dict ho hmem)
          (fun x x' hx => hb x x' (.struct (name := name) (tag := tag) _ _ (by rw [hcs]; exact List.mem_cons_self) htag hmem hx))
        rcases hx : setField t (olds.headD (zero t)) (lookupKey (tagKey tag) kvs) with ⟨x, o⟩
        rcases hy : setField t (olds.headD (zero t)) (lookupKey (tagKey tag) kvs') with ⟨y, o'⟩
        rw [hx, hy] at a1 a2
        simp only at a1 a2
        subst a2
        cases o with
        | ok => exact ⟨by simp only [mapStringsAll, a1, r1], r2⟩
        | err e => exact ⟨by simp only [mapStringsAll, a1], rfl⟩
        | panic e => exact ⟨by simp only [mapStringsAll, a1], rfl⟩
end

/-! ### Text -/

theorem prettyList_append (t : Bytes) (a b : List Bencode) : prettyList (a ++ b) t = prettyList a t ++ prettyList b t := by
  induction a with
  | nil => rfl
  | cons v a ih => cases v <;> simp [prettyList, ih]

theorem prettyEntries_append (t : Bytes) (a b : List (Bytes × Bencode)) :
    prettyEntries (a ++ b) t = prettyEntries a t ++ prettyEntries b t := by
  induction a with
  | nil => rfl
  | cons v a ih =>
    obtain ⟨k, v⟩ := v
    cases v <;> simp [prettyEntries, ih]

theorem prettyList_one (t : Bytes) (v : Bencode) : prettyList [v] t = if v.isNil then [] else prettyPrint v t ++ 44 :: newLine t := by
  cases v <;> simp [prettyList, Bencode.isNil]

theorem prettyEntries_one (t k : Bytes) (v : Bencode) :
    prettyEntries [(k, v)] t = if v.isNil then [] else k ++ [58, 32] ++ prettyPrint v t ++ 44 :: newLine t := by
  cases v <;> simp [prettyEntries, Bencode.isNil]

theorem prettyEntries_live (t : Bytes) (kvs : List (Bytes × Bencode)) :
    prettyEntries kvs t = prettyEntries (kvs.filter (fun e => !e.2.isNil)) t := by
  induction kvs with
  | nil => rfl
  | cons e kvs ih =>
    obtain ⟨k, v⟩ := e
    cases v <;> simp [prettyEntries, Bencode.isNil, ih]

theorem pretty_perm (t : Bytes) {a b : List (Bytes × Bencode)} (h : a.Perm b) (ha : (liveKeys a).length ≤ 1) :
    prettyEntries a t = prettyEntries b t := by
  have hp := h.filter (fun e => !e.2.isNil)
  simp only [liveKeys, List.length_map] at ha
  rw [prettyEntries_live t a, prettyEntries_live t b]
  cases hf : a.filter (fun e => !e.2.isNil) with
  | nil => rw [hf] at hp; rw [List.nil_perm.1 hp]
  | cons x l =>
    rw [hf] at hp ha
    have : l = [] := List.length_eq_zero_iff.1 (by simp only [List.length_cons] at ha; omega)
    subst this
    rw [List.singleton_perm.1 hp]

/-- Without two keys in one dictionary the text does not depend on the order. -/
theorem reorder_text {v w : Bencode} (h : Reorder v w) : NoTwoKeys v → ∀ t, prettyPrint v t = prettyPrint w t := by
  induction h with
  | refl => exact fun _ _ => rfl
  | trans g1 _ h1 h2 => exact fun h t => (h1 h t).trans (h2 (reorder_same g1 h).2 t)
  | dict ptr raw hp =>
    intro h t
    simp only [prettyPrint, pretty_perm _ hp (h _ _ _ (.refl _))]
  | @inList v v' ptr a b raw hr ih =>
    intro h t
    have hv := ih (fun p k r hs => h p k r (.list _ _ (by simp) hs))
    have e : ∀ x : Bencode, a ++ x :: b = a ++ ([x] ++ b) := fun _ => rfl
    have hn := reorder_nil hr
    simp only [prettyPrint, e v, e v', prettyList_append, prettyList_one, hv, hn]
  | @inDict v v' ptr a b k raw hr ih =>
    intro h t
    have hv := ih (fun p k' r hs => h p k' r (.dict (k := k) _ _ (List.mem_append_right _ (List.mem_cons_self)) hs))
    have e : ∀ x : Bencode, a ++ (k, x) :: b = a ++ ([(k, x)] ++ b) := fun _ => rfl
    have hn := reorder_nil hr
    simp only [prettyPrint, e v, e v', prettyEntries_append, prettyEntries_one, hv, hn]

mutual
theorem mapStrings_id : ∀ v, mapStrings id v = v
  | .string _ | .int _ | .uint _ | .nilSlice | .bytes _ | .other | .ptr none => by simp [mapStrings]
  | .slice vs => by simp only [mapStrings, mapStringsAll_id vs]
  | .struct vs => by simp only [mapStrings, mapStringsAll_id vs]
  | .map kvs => by simp only [mapStrings, mapStringsEntries_id kvs]
  | .ptr (some v) => by simp only [mapStrings, mapStrings_id v]
theorem mapStringsAll_id : ∀ vs, mapStringsAll id vs = vs
  | [] => rfl
  | v :: vs => by simp only [mapStringsAll, mapStrings_id v, mapStringsAll_id vs]
theorem mapStringsEntries_id : ∀ vs, mapStringsEntries id vs = vs
  | [] => rfl
  | (k, v) :: vs => by simp only [mapStringsEntries, mapStrings_id v, mapStringsEntries_id vs]
end

/-! ## C89 -/

theorem parse_oneEntry {data : Bytes} {v : Bencode} (h : parse data = .ok v) : OneEntryPerKey v :=
  fun ptr kvs raw hs => by
    obtain ⟨_, _, _, _, _, _, _, hn⟩ := C09_last_wins data v h ptr kvs raw hs
    exact hn

theorem processTarget_agree (f : Bytes → Bytes) (fs : List ((Bytes × Bytes × Bool) × Ty)) (old : GoVal) (v w : Bencode)
    (h : ∀ olds, AgreeAll f (setFields fs olds v) (setFields fs olds w)) :
    Agree f (processTarget (.ptr (.struct fs)) old v) (processTarget (.ptr (.struct fs)) old w) := by
  by_cases ho : ∃ olds, old = .ptr (some (.struct olds))
  · obtain ⟨olds, rfl⟩ := ho
    simp only [processTarget]
    exact ⟨by simp only [mapStrings, (h _).1], (h _).2⟩
  · have e : ∀ u, processTarget (.ptr (.struct fs)) old u = (old, .err "bencode: pointer to struct expected as target") := by
      intro u
      unfold processTarget
      split
      · exact absurd ⟨_, rfl⟩ ho
      · rfl
    rw [e, e]; exact ⟨rfl, rfl⟩

theorem unmarshal_agree (f : Bytes → Bytes) (fs : List ((Bytes × Bytes × Bool) × Ty)) (hm : NoMapsIn fs) (old : GoVal) (data : Bytes)
    (v w : Bencode) (hp : parse data = .ok v) (hr : Reorder v w) (hb : Blind f (.struct fs) v) :
    Agree f (unmarshal (.ptr (.struct fs)) old data) (processTarget (.ptr (.struct fs)) old w) := by
  simp only [unmarshal, hp]
  have ho := parse_oneEntry hp
  have hf := reorder_sameForm hr ho
  cases v with
  | dict p kvs raw =>
    obtain ⟨ws, rfl, he⟩ := hf
    exact processTarget_agree f fs old _ _ (fun olds => setFields_agree f fs olds p kvs ws raw hm he ho hb)
  | list p vs raw =>
    obtain ⟨ws, rfl, he⟩ := hf
    have hg : ∀ (fs : List ((Bytes × Bytes × Bool) × Ty)) (olds : List GoVal),
        setFields fs olds (.list p vs raw) = setFields fs olds (.list p ws raw) := by
      intro fs
      induction fs with
      | nil => intro olds; simp only [setFields]
      | cons f fs ih =>
        obtain ⟨⟨a, b, c⟩, t⟩ := f
        intro olds
        simp only [setFields, ih]
    exact processTarget_agree f fs old _ _ (fun olds => by rw [hg]; exact ⟨rfl, rfl⟩)
  | _ => simp only [SameForm] at hf; subst hf; exact ⟨rfl, rfl⟩

/-- C89, part: whatever order Go's map iterations take, the call ends in the same way and everything stored is the same, except
possibly the contents of strings: which fields are set, all numbers, all raw bytes, the number of elements of every slice.
Missing: the contents of strings; target types that contain maps. -/
theorem C89_but_strings_partial (fs : List ((Bytes × Bytes × Bool) × Ty)) (hm : NoMapsIn fs) (old : GoVal) (data : Bytes)
    (v w : Bencode) (hp : parse data = .ok v) (hr : Reorder v w) :
    blankStrings (unmarshal (.ptr (.struct fs)) old data).1 = blankStrings (processTarget (.ptr (.struct fs)) old w).1 ∧
    (unmarshal (.ptr (.struct fs)) old data).2 = (processTarget (.ptr (.struct fs)) old w).2 :=
  unmarshal_agree (fun _ => []) fs hm old data v w hp hr (fun _ _ _ _ => rfl)

/-- C89, part: if no element whose text ends up in a string has a dictionary with two keys in it, the result is the same
altogether. Missing: strings made of dictionaries with two keys; target types that contain maps. -/
theorem C89_same_partial (fs : List ((Bytes × Bytes × Bool) × Ty)) (hm : NoMapsIn fs) (old : GoVal) (data : Bytes)
    (v w : Bencode) (hp : parse data = .ok v) (hr : Reorder v w) (hs : ∀ x, InText (.struct fs) v x → NoTwoKeys x) :
    processTarget (.ptr (.struct fs)) old w = unmarshal (.ptr (.struct fs)) old data := by
  obtain ⟨h1, h2⟩ := unmarshal_agree id fs hm old data v w hp hr (fun x x' hx hr => reorder_text hr (hs x hx) [])
  rw [mapStrings_id, mapStrings_id] at h1
  exact Prod.ext h1.symm h2.symm

/-- The hash of a torrent never depends on the order. -/
theorem C89_hash_partial (sha1 : Bytes → Bytes) (data : Bytes) (v w : Bencode) (hp : parse data = .ok v) (hr : Reorder v w) :
    metaHash sha1 (processTarget (.ptr (.struct metainfoFields)) newMetainfo w).1 = metaHash sha1 (unmarshalMetainfo data).1 := by
  have h := (C89_but_strings_partial metainfoFields (by simp [metainfoFields, fld, NoMapsIn, NoMaps, infoFields, torrentFileFields])
    newMetainfo data v w hp hr).1
  have bytes_blank : ∀ x y : GoVal, blankStrings x = blankStrings y → x.asBytes = y.asBytes := by
    intro x y hxy
    have key : ∀ z : GoVal, z.asBytes = (blankStrings z).asBytes := by
      intro z
      cases z with
      | ptr o => cases o <;> simp [blankStrings, mapStrings, GoVal.asBytes]
      | _ => simp [blankStrings, mapStrings, GoVal.asBytes]
    rw [key x, key y, hxy]
  have all_get : ∀ (xs : List GoVal) (i : Nat), blankStrings ((xs[i]?).getD .other) = ((mapStringsAll (fun _ => []) xs)[i]?).getD .other := by
    intro xs
    induction xs with
    | nil => intro i; simp [mapStringsAll, blankStrings, mapStrings]
    | cons x xs ih =>
      intro i
      cases i with
      | zero => simp [mapStringsAll, blankStrings]
      | succ i => simpa [mapStringsAll] using ih i
  have field_blank : ∀ (x : GoVal) (i : Nat), blankStrings (x.field i) = (blankStrings x).field i := by
    intro x i
    unfold GoVal.field
    split
    · rw [all_get]; simp only [blankStrings, mapStrings]
    · rw [all_get]; simp only [blankStrings, mapStrings]
    · rename_i h1 h2
      cases x with
      | struct fs => exact absurd rfl (h2 fs)
      | ptr o =>
        cases o with
        | none => simp [blankStrings, mapStrings]
        | some y =>
          cases y with
          | struct fs => exact absurd rfl (h1 fs)
          | ptr o => cases o <;> simp [blankStrings, mapStrings]
          | _ => simp [blankStrings, mapStrings]
      | _ => simp [blankStrings, mapStrings]
  unfold metaHash metaInfoDictRaw
  have e : blankStrings ((processTarget (.ptr (.struct metainfoFields)) newMetainfo w).1.field 4) =
      blankStrings ((unmarshalMetainfo data).1.field 4) := by
    rw [field_blank, field_blank, ← h]; rfl
  rw [bytes_blank _ _ e]

/-- A torrent file whose name is a dictionary. -/
def oddTorrent : Bytes := ascii "d8:announce1:a4:infod4:named1:a1:x1:b1:ye12:piece lengthi1e6:pieces0:ee"

/-- What is parsed from it, with the name in one or the other order. -/
def oddParsed (name : List (Bytes × Bencode)) : Bencode := .dict true
    ([(ascii "announce", .str (ascii "a"))] ++
     (ascii "info", .dict true ([] ++ (ascii "name", .dict true name (ascii "d1:a1:x1:b1:ye")) ::
        [(ascii "piece length", .int 1), (ascii "pieces", .str [])])
        (ascii "d4:named1:a1:x1:b1:ye12:piece lengthi1e6:pieces0:e")) :: []) oddTorrent

theorem odd_parse : parse oddTorrent = .ok (oddParsed [(ascii "a", .str (ascii "x")), (ascii "b", .str (ascii "y"))]) := by
  have hpl : Denotes (ascii "12:piece length") (.str (ascii "piece length")) :=
    .str (ascii "12") (ascii "piece length") (isDigits_of_all (by decide)) (by decide)
  have h1 : Denotes (ascii "i1e") (.int 1) :=
    denotes_int (ds := ascii "1") (isDigits_of_all (by decide)) (by decide)
  have hn := DenotesEntries.cons _ _ _ _ _ _ (denotes_a (ascii "a") (by decide)) (denotes_a (ascii "x") (by decide))
    (.cons _ _ _ _ _ _ (denotes_a (ascii "b") (by decide)) (denotes_a (ascii "y") (by decide)) .nil)
  have hi := DenotesEntries.cons _ _ _ _ _ _ (denotes_a (ascii "name") (by decide)) (.dict _ _ hn)
    (.cons _ _ _ _ _ _ hpl h1 (.cons _ _ _ _ _ _ (denotes_a (ascii "pieces") (by decide)) (denotes_a [] (by decide)) .nil))
  have h := DenotesEntries.cons _ _ _ _ _ _ (denotes_a (ascii "announce") (by decide)) (denotes_a (ascii "a") (by decide))
    (.cons _ _ _ _ _ _ (denotes_a (ascii "info") (by decide)) (.dict _ _ hi) .nil)
  exact parse_complete (.dict _ _ h) []

/-- C89 is false of the code: a torrent file that is accepted in both orders, under two different names. -/
theorem C89_violated : ∃ data v w x y, parse data = .ok v ∧ Reorder v w ∧
    unmarshalMetainfo data = (x, .ok) ∧ processTarget (.ptr (.struct metainfoFields)) newMetainfo w = (y, .ok) ∧
    (∃ n, (metaInfo x).field 2 = .string n ∧ (metaInfo y).field 2 ≠ .string n) := by
  refine ⟨oddTorrent, oddParsed [(ascii "a", .str (ascii "x")), (ascii "b", .str (ascii "y"))],
    oddParsed [(ascii "b", .str (ascii "y")), (ascii "a", .str (ascii "x"))], _, _, odd_parse, ?_, Prod.ext rfl ?_, Prod.ext rfl ?_, ?_⟩
  · exact .inDict _ _ _ _ _ (.inDict _ _ _ _ _ (.dict _ _ (List.Perm.swap _ _ _)))
  all_goals
    have hint : parseInt0 (Bencode.int 1).toText 64 = .ok 1 := by
      simp only [Bencode.toText, prettyPrint]
      rw [parseInt0_itoa _ _ (by decide) (by decide)]; rfl
    simp [unmarshalMetainfo, newMetainfo, unmarshal, odd_parse, oddParsed, processTarget, metainfoFields, fld, setFields, ascii,
      tagKey, tagOptional, splitComma, lookupKey, Bencode.isNil, setField.eq_def, setValue.eq_def, infoFields, zeros, zero,
      hint, metaInfo, GoVal.field]
  simp [Bencode.toText, prettyPrint, prettyEntries, newLine]

/-- Non-vacuity of `C89_same_partial`: the minimal torrent has strings only where texts are stored, and can be reordered. -/
example : ∃ v w, parse miniTorrent = .ok v ∧ Reorder v w ∧ v ≠ w ∧ NoMapsIn metainfoFields ∧
    ∀ x, InText (.struct metainfoFields) v x → NoTwoKeys x := by
  refine ⟨_, _, mini_parse, .dict _ _ (List.Perm.swap _ _ _), ?_, by simp [metainfoFields, fld, NoMapsIn, NoMaps, infoFields, torrentFileFields], ?_⟩
  · intro e
    simp [ascii] at e
  · have hstr : ∀ s, NoTwoKeys (.str s) := by
      intro s p k r hs; cases hs
    intro x hx
    cases hx with
    | struct _ _ h1 h0 h2 h3 =>
      simp only [List.mem_cons, List.not_mem_nil, or_false, Prod.mk.injEq] at h2
      rcases h2 with ⟨hk, rfl⟩ | ⟨hk, rfl⟩
      · cases h3 with
        | string => exact hstr _
        | ptr h3 =>
          exfalso
          simp [metainfoFields, fld] at h1
      · cases h3 with
        | string =>
          exfalso
          simp [metainfoFields, fld] at h1
          rcases h1 with ⟨_, rfl⟩ | ⟨_, rfl⟩ | ⟨_, rfl⟩ | ⟨_, rfl⟩ <;> exact absurd hk (by decide)
        | ptr h3 =>
          exfalso
          simp [metainfoFields, fld] at h1
        | map =>
          exfalso
          simp [metainfoFields, fld] at h1
        | struct _ _ g1 g0 g2 g3 =>
          simp only [List.mem_cons, List.not_mem_nil, or_false, Prod.mk.injEq] at g2
          rcases g2 with ⟨_, rfl⟩ | ⟨gk, rfl⟩ | ⟨_, rfl⟩
          · cases g3 with
            | string => exact hstr _
            | ptr g3 => exfalso; simp [metainfoFields, fld] at h1; rw [h1.2] at g1; simp [infoFields, fld] at g1
          · cases g3 with
            | string => intro p k r hs; cases hs
            | ptr g3 => exfalso; simp [metainfoFields, fld] at h1; rw [h1.2] at g1; simp [infoFields, fld] at g1
          · cases g3 with
            | string => exact hstr _
            | ptr g3 => exfalso; simp [metainfoFields, fld] at h1; rw [h1.2] at g1; simp [infoFields, fld] at g1

end Gotit.Props
