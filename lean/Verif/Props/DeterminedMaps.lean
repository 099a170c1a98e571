import Verif.Props.Determined
/-
  C89 for target types that contain maps: maps are filled in the order of Go's map iteration (tag_parser.go:160-181).
-/
namespace Gotit.Props
open Gotit Spec

/-! ### Filling a map -/

theorem setEntries_ok (s : Bool) (g : Bencode → GoVal × Outcome) : ∀ (kvs : List (Bytes × Bencode)) (m : List (Bytes × GoVal)),
    (setEntries s g kvs m).2 = .ok ↔ (∀ e ∈ kvs, (g e.2).2 = .ok) ∧ (s = true ∨ kvs = []) := by
  intro kvs
  induction kvs with
  | nil => intro m; simp [setEntries]
  | cons e kvs ih =>
    obtain ⟨k, v⟩ := e
    intro m
    rcases hx : g v with ⟨x, o⟩
    simp only [setEntries, hx]
    cases o with
    | ok =>
      cases s with
      | false => simp
      | true => simp [ih, hx]
    | err e => simp [hx]
    | panic e => simp [hx]

theorem putMap_fresh (k : Bytes) (x : GoVal) : ∀ m : List (Bytes × GoVal), k ∉ m.map Prod.fst → putMap k x m = m ++ [(k, x)] := by
  intro m
  induction m with
  | nil => intro _; rfl
  | cons e m ih =>
    obtain ⟨k', x'⟩ := e
    intro h
    simp only [List.map_cons, List.mem_cons, not_or] at h
    simp only [putMap, if_neg (fun e => h.1 (Eq.symm e)), ih h.2, List.cons_append]

theorem setEntries_val (s : Bool) (g : Bencode → GoVal × Outcome) : ∀ (kvs : List (Bytes × Bencode)) (m : List (Bytes × GoVal)),
    (setEntries s g kvs m).2 = .ok → (m.map Prod.fst ++ kvs.map Prod.fst).Nodup →
    (setEntries s g kvs m).1 = m ++ kvs.map (fun e => (e.1, (g e.2).1)) := by
  intro kvs
  induction kvs with
  | nil => intro m _ _; simp [setEntries]
  | cons e kvs ih =>
    obtain ⟨k, v⟩ := e
    intro m
    rcases hx : g v with ⟨x, o⟩
    simp only [setEntries, hx]
    cases o with
    | ok =>
      cases s with
      | false => simp
      | true =>
        intro h hn
        have hk : k ∉ m.map Prod.fst := by
          intro hk
          exact (List.nodup_append.1 hn).2.2 k hk k (by simp) rfl
        simp only [Bool.not_true, Bool.false_eq_true, if_false] at h ⊢
        rw [putMap_fresh _ _ _ hk] at h ⊢
        rw [ih _ h (by simpa using hn)]
        simp [hx]
    | err e => simp
    | panic e => simp

theorem setValue_map (s : Bool) (t : Ty) (old : GoVal) (p : Bool) (kvs : List (Bytes × Bencode)) (raw : Bytes)
    (hn : (kvs.map Prod.fst).Nodup) :
    ((setValue (.map s t) old (.dict p kvs raw)).2 = .ok ↔ (∀ e ∈ kvs, (setField t (zero t) e.2).2 = .ok) ∧ (s = true ∨ kvs = [])) ∧
    ((setValue (.map s t) old (.dict p kvs raw)).2 = .ok →
      (setValue (.map s t) old (.dict p kvs raw)).1 = .map (kvs.map (fun e => (e.1, (setField t (zero t) e.2).1)))) ∧
    ((setValue (.map s t) old (.dict p kvs raw)).2 ≠ .ok → (setValue (.map s t) old (.dict p kvs raw)).1 = old) := by
  have h1 := setEntries_ok s (fun x => setField t (zero t) x) kvs []
  have h2 := setEntries_val s (fun x => setField t (zero t) x) kvs []
  rcases hx : setEntries s (fun x => setField t (zero t) x) kvs [] with ⟨m, o⟩
  rw [hx] at h1 h2
  have e : setValue (.map s t) old (.dict p kvs raw) = match (m, o) with
      | (m, .ok) => (.map m, .ok)
      | (_, o) => (old, o) := by simp only [setValue, hx]; cases o <;> rfl
  rw [e]
  cases o with
  | ok => exact ⟨h1, fun _ => by rw [show m = _ from h2 rfl (by simpa using hn)]; rfl, fun h => absurd rfl h⟩
  | err e => exact ⟨h1, fun h => by simp at h, fun _ => rfl⟩
  | panic e => exact ⟨h1, fun h => by simp at h, fun _ => rfl⟩

/-! ### Same values -/

/-- The two results are the same up to `f` on strings, and both calls succeed or both fail. -/
def Alike (f : Bytes → Bytes) (x y : GoVal × Outcome) : Prop := SameVal f x.1 y.1 ∧ (x.2 = .ok ↔ y.2 = .ok)

theorem alike_refl (f : Bytes → Bytes) (x : GoVal × Outcome) : Alike f x x := ⟨.refl _, Iff.rfl⟩

theorem alike_trans {f : Bytes → Bytes} {x y z : GoVal × Outcome} (h : Alike f x y) (g : Alike f y z) : Alike f x z :=
  ⟨.trans h.1 g.1, h.2.trans g.2⟩

inductive SameAll (f : Bytes → Bytes) : List GoVal → List GoVal → Prop
  | nil : SameAll f [] []
  | cons {v w vs ws} : SameVal f v w → SameAll f vs ws → SameAll f (v :: vs) (w :: ws)

theorem sameAll_refl (f : Bytes → Bytes) : ∀ vs, SameAll f vs vs
  | [] => .nil
  | v :: vs => .cons (.refl v) (sameAll_refl f vs)

theorem sameAll_slice {f : Bytes → Bytes} {vs ws : List GoVal} (h : SameAll f vs ws) :
    ∀ a, SameVal f (.slice (a ++ vs)) (.slice (a ++ ws)) := by
  induction h with
  | nil => exact fun a => .refl _
  | @cons v w vs ws h _ ih =>
    intro a
    refine .trans (.inSlice a vs h) ?_
    have := ih (a ++ [w])
    simpa using this

theorem sameAll_struct {f : Bytes → Bytes} {vs ws : List GoVal} (h : SameAll f vs ws) :
    ∀ a, SameVal f (.struct (a ++ vs)) (.struct (a ++ ws)) := by
  induction h with
  | nil => exact fun a => .refl _
  | @cons v w vs ws h _ ih =>
    intro a
    refine .trans (.inStruct a vs h) ?_
    have := ih (a ++ [w])
    simpa using this

def AlikeAll (f : Bytes → Bytes) (x y : List GoVal × Outcome) : Prop := SameAll f x.1 y.1 ∧ (x.2 = .ok ↔ y.2 = .ok)

theorem setEach_alike (f : Bytes → Bytes) (g : Bencode → GoVal × Outcome) {vs ws : List Bencode} (h : EachReorder vs ws) :
    (∀ v w, v ∈ vs → Reorder v w → Alike f (g v) (g w)) →
    ((setEach g vs).2 = .ok ↔ (setEach g ws).2 = .ok) ∧ ((setEach g vs).2 = .ok → SameAll f (setEach g vs).1 (setEach g ws).1) := by
  induction h with
  | nil => exact fun _ => ⟨Iff.rfl, fun _ => .nil⟩
  | @cons v w vs ws h _ ih =>
    intro hg
    obtain ⟨a1, a2⟩ := hg v w (by simp) h
    obtain ⟨b1, b2⟩ := ih (fun v w hv => hg v w (by simp [hv]))
    rcases hx : g v with ⟨x, o⟩
    rcases hy : g w with ⟨y, o'⟩
    rw [hx, hy] at a1 a2
    simp only at a1 a2
    simp only [setEach, hx, hy]
    cases o with
    | ok =>
      have := a2.1 rfl; subst this
      exact ⟨b1, fun h => .cons a1 (b2 h)⟩
    | err e => cases o' <;> simp_all
    | panic e => cases o' <;> simp_all

theorem blind_reorder {f : Bytes → Bytes} {t : Ty} {v w : Bencode} (h : Blind f t v) (hr : Reorder v w) : Blind f t w := by
  intro y y' hy hyy
  obtain ⟨x, g1, g2⟩ := inText_reorder hr t y hy
  rw [← h x y g1 g2, h x y' g1 (.trans g2 hyy)]

/-- Filling a map is blind to the order if storing its values is. -/
theorem map_alike (f : Bytes → Bytes) (s : Bool) (t : Ty) (old : GoVal)
    (hg : ∀ v w, Reorder v w → OneEntryPerKey v → Blind f t v → Alike f (setField t (zero t) v) (setField t (zero t) w))
    {v w : Bencode} (h : Reorder v w) : OneEntryPerKey v → Blind f (.map s t) v →
    Alike f (setValue (.map s t) old v) (setValue (.map s t) old w) := by
  induction h with
  | refl v => exact fun _ _ => alike_refl _ _
  | trans g1 _ h1 h2 => exact fun ho hb => alike_trans (h1 ho hb) (h2 (reorder_oneEntry g1 ho) (blind_reorder hb g1))
  | inList p a b raw hr _ => intro _ _; simp only [setValue]; exact alike_refl _ _
  | @dict kvs kvs' p raw hp =>
    intro ho _
    have n1 : (kvs.map Prod.fst).Nodup := ho _ _ _ (.refl _)
    have n2 : (kvs'.map Prod.fst).Nodup := (hp.map _).nodup_iff.1 n1
    obtain ⟨a1, a2, a3⟩ := setValue_map s t old p kvs raw n1
    obtain ⟨b1, b2, b3⟩ := setValue_map s t old p kvs' raw n2
    have hi : (setValue (.map s t) old (.dict p kvs raw)).2 = .ok ↔ (setValue (.map s t) old (.dict p kvs' raw)).2 = .ok := by
      rw [a1, b1]
      constructor
      · rintro ⟨h1, h2⟩
        exact ⟨fun e he => h1 e (hp.mem_iff.2 he), h2.imp id (fun e => by subst e; simpa using hp.symm)⟩
      · rintro ⟨h1, h2⟩
        exact ⟨fun e he => h1 e (hp.mem_iff.1 he), h2.imp id (fun e => by subst e; simpa using hp)⟩
    refine ⟨?_, hi⟩
    by_cases h : (setValue (.map s t) old (.dict p kvs raw)).2 = .ok
    · rw [a2 h, b2 (hi.1 h)]
      exact .map (hp.map _)
    · rw [a3 h, b3 (fun g => h (hi.2 g))]
      exact .refl _
  | @inDict v v' p a b k raw hr _ =>
    intro ho hb
    have n1 : ((a ++ (k, v) :: b).map Prod.fst).Nodup := ho _ _ _ (.refl _)
    have n2 : ((a ++ (k, v') :: b).map Prod.fst).Nodup := by simpa using n1
    have hm : (k, v) ∈ a ++ (k, v) :: b := by simp
    obtain ⟨g1, g2⟩ := hg v v' hr (oneEntry_dict ho hm) (fun x x' hx => hb x x' (.map _ _ _ hm hx))
    obtain ⟨a1, a2, a3⟩ := setValue_map s t old p (a ++ (k, v) :: b) raw n1
    obtain ⟨b1, b2, b3⟩ := setValue_map s t old p (a ++ (k, v') :: b) raw n2
    have hi : (setValue (.map s t) old (.dict p (a ++ (k, v) :: b) raw)).2 = .ok ↔
        (setValue (.map s t) old (.dict p (a ++ (k, v') :: b) raw)).2 = .ok := by
      rw [a1, b1]
      have e : (∀ e ∈ a ++ (k, v) :: b, (setField t (zero t) e.2).2 = .ok) ↔ (∀ e ∈ a ++ (k, v') :: b, (setField t (zero t) e.2).2 = .ok) := by
        constructor <;> intro h e he
        · rcases List.mem_append.1 he with h' | h'
          · exact h e (by simp [h'])
          · rcases List.mem_cons.1 h' with h' | h'
            · subst h'; exact g2.1 (h (k, v) (by simp))
            · exact h e (by simp [h'])
        · rcases List.mem_append.1 he with h' | h'
          · exact h e (by simp [h'])
          · rcases List.mem_cons.1 h' with h' | h'
            · subst h'; exact g2.2 (h (k, v') (by simp))
            · exact h e (by simp [h'])
      rw [e]; simp
    refine ⟨?_, hi⟩
    by_cases h : (setValue (.map s t) old (.dict p (a ++ (k, v) :: b) raw)).2 = .ok
    · rw [a2 h, b2 (hi.1 h)]
      simp only [List.map_append, List.map_cons]
      exact .inMap _ _ k g1
    · rw [a3 h, b3 (fun g => h (hi.2 g))]
      exact .refl _

/-- Numbers, raw bytes and unsupported types: nothing there depends on the order (the cases without maps). -/
theorem alike_of_agree {f : Bytes → Bytes} {x y : GoVal × Outcome} (h : x = y) : Alike f x y := by
  subst h; exact alike_refl _ _

theorem setNumber_same (bits : Nat) (old : GoVal) {v w : Bencode} (hr : Reorder v w) (ho : OneEntryPerKey v) :
    setValue (.int bits) old v = setValue (.int bits) old w ∧ setValue (.uint bits) old v = setValue (.uint bits) old w ∧
    v.rawBytes = w.rawBytes := by
  have hf := reorder_sameForm hr ho
  cases v with
  | list p vs raw =>
    obtain ⟨ws, rfl, _⟩ := hf
    obtain ⟨c1, e1⟩ := text_list p vs raw
    obtain ⟨c2, e2⟩ := text_list p ws raw
    obtain ⟨x1, g1⟩ := parseInt0_bracket (Or.inl rfl) c1 bits
    obtain ⟨x2, g2⟩ := parseInt0_bracket (Or.inl rfl) c2 bits
    obtain ⟨y1, k1⟩ := parseUint0_bracket (Or.inl rfl) c1 bits
    obtain ⟨y2, k2⟩ := parseUint0_bracket (Or.inl rfl) c2 bits
    simp only [setValue, e1, e2, g1, g2, k1, k2]; exact ⟨trivial, trivial, rfl⟩
  | dict p kvs raw =>
    obtain ⟨ws, rfl, _⟩ := hf
    obtain ⟨c1, e1⟩ := text_dict p kvs raw
    obtain ⟨c2, e2⟩ := text_dict p ws raw
    obtain ⟨x1, g1⟩ := parseInt0_bracket (Or.inr rfl) c1 bits
    obtain ⟨x2, g2⟩ := parseInt0_bracket (Or.inr rfl) c2 bits
    obtain ⟨y1, k1⟩ := parseUint0_bracket (Or.inr rfl) c1 bits
    obtain ⟨y2, k2⟩ := parseUint0_bracket (Or.inr rfl) c2 bits
    simp only [setValue, e1, e2, g1, g2, k1, k2]; exact ⟨trivial, trivial, rfl⟩
  | _ => simp only [SameForm] at hf; subst hf; exact ⟨rfl, rfl, rfl⟩

mutual
theorem setValue_alike (f : Bytes → Bytes) : ∀ (t : Ty) (old : GoVal) (v w : Bencode), Reorder v w → OneEntryPerKey v →
    Blind f t v → Alike f (setValue t old v) (setValue t old w)
  | .string, old, v, w, hr, _, hb => by
    simp only [setValue]
    exact ⟨.text (hb _ _ (.string v) hr), Iff.rfl⟩
  | .int bits, old, v, w, hr, ho, _ => alike_of_agree (setNumber_same bits old hr ho).1
  | .uint bits, old, v, w, hr, ho, _ => alike_of_agree (setNumber_same bits old hr ho).2.1
  | .slice t, old, v, w, hr, ho, hb => by
    by_cases ht : t = .uint 8
    · subst ht
      have e := (setNumber_same 0 old hr ho).2.2
      simp only [setValue, e]; exact alike_refl _ _
    · have hf := reorder_sameForm hr ho
      cases v with
      | list p vs raw =>
        obtain ⟨ws, rfl, he⟩ := hf
        obtain ⟨a1, a2⟩ := setEach_alike f (fun x => setField t (zero t) x) he (fun v w hv hvw =>
          setField_alike f t (zero t) v w hvw (oneEntry_list ho hv) (fun x x' hx => hb x x' (.slice _ _ hv hx)))
        rcases hx : setEach (fun x => setField t (zero t) x) vs with ⟨xs, o⟩
        rcases hy : setEach (fun x => setField t (zero t) x) ws with ⟨ys, o'⟩
        rw [hx, hy] at a1 a2
        simp only at a1 a2
        simp only [setValue, hx, hy]
        cases o with
        | ok =>
          have := a1.1 rfl; subst this
          exact ⟨by simpa using sameAll_slice (a2 rfl) [], Iff.rfl⟩
        | err e => cases o' <;> simp_all [Alike, SameVal.refl]
        | panic e => cases o' <;> simp_all [Alike, SameVal.refl]
      | dict p kvs raw => obtain ⟨ws, rfl, _⟩ := hf; simp only [setValue]; exact alike_refl _ _
      | _ => simp only [SameForm] at hf; subst hf; exact alike_refl _ _
  | .struct fs, old, v, w, hr, ho, hb => by
    have hf := reorder_sameForm hr ho
    cases v with
    | dict p kvs raw =>
      obtain ⟨ws, rfl, he⟩ := hf
      have e1 := setValue.eq_def (.struct fs) old (.dict p kvs raw)
      have e2 := setValue.eq_def (.struct fs) old (.dict p ws raw)
      simp only at e1 e2
      rw [e1, e2]
      have hg := fun olds => setFields_alike f fs olds p kvs ws raw he ho hb
      exact ⟨by simpa using sameAll_struct (hg _).1 [], (hg _).2⟩
    | list p kvs raw => obtain ⟨ws, rfl, _⟩ := hf; simp only [setValue]; exact alike_refl _ _
    | _ => simp only [SameForm] at hf; subst hf; exact alike_refl _ _
  | .map s t, old, v, w, hr, ho, hb => map_alike f s t old (fun v w => setField_alike f t (zero t) v w) hr ho hb
  | .ptr _, old, _, _, _, _, _ => by simp only [setValue]; exact alike_refl _ _
  | .other, old, _, _, _, _, _ => by simp only [setValue]; exact alike_refl _ _

theorem setField_alike (f : Bytes → Bytes) : ∀ (t : Ty) (old : GoVal) (v w : Bencode), Reorder v w → OneEntryPerKey v →
    Blind f t v → Alike f (setField t old v) (setField t old w)
  | .ptr t, old, v, w, hr, ho, hb => by
    have hg := fun o => setValue_alike f t o v w hr ho (fun x x' hx => hb x x' (.ptr hx))
    have e1 := setField.eq_def (.ptr t) old v
    have e2 := setField.eq_def (.ptr t) old w
    simp only at e1 e2
    rw [e1, e2]
    exact ⟨.inPtr (hg _).1, (hg _).2⟩
  | .string, old, v, w, hr, ho, hb => by simp only [setField]; exact setValue_alike f _ old v w hr ho hb
  | .int b, old, v, w, hr, ho, hb => by simp only [setField]; exact setValue_alike f _ old v w hr ho hb
  | .uint b, old, v, w, hr, ho, hb => by simp only [setField]; exact setValue_alike f _ old v w hr ho hb
  | .slice t, old, v, w, hr, ho, hb => by simp only [setField]; exact setValue_alike f (.slice t) old v w hr ho hb
  | .struct fs, old, v, w, hr, ho, hb => by simp only [setField]; exact setValue_alike f (.struct fs) old v w hr ho hb
  | .map s t, old, v, w, hr, ho, hb => by simp only [setField]; exact setValue_alike f (.map s t) old v w hr ho hb
  | .other, old, v, w, hr, ho, hb => by simp only [setField]; exact setValue_alike f _ old v w hr ho hb

theorem setFields_alike (f : Bytes → Bytes) : ∀ (fs : List ((Bytes × Bytes × Bool) × Ty)) (olds : List GoVal) (p : Bool)
    (kvs kvs' : List (Bytes × Bencode)) (raw : Bytes), (∀ key, Reorder (lookupKey key kvs) (lookupKey key kvs')) →
    OneEntryPerKey (.dict p kvs raw) → Blind f (.struct fs) (.dict p kvs raw) →
    AlikeAll f (setFields fs olds (.dict p kvs raw)) (setFields fs olds (.dict p kvs' raw))
  | [], _, _, _, _, _, _, _, _ => by simp only [setFields]; exact ⟨.nil, Iff.rfl⟩
  | ((name, tag, canSet), t) :: fs, olds, p, kvs, kvs', raw, hr, ho, hb => by
    obtain ⟨r1, r2⟩ := setFields_alike f fs olds.tail p kvs kvs' raw hr ho (fun x x' hx => hb x x' (by
      cases hx with
      | struct _ _ h1 h0 h2 h3 => exact .struct _ _ (List.mem_cons_of_mem _ h1) h0 h2 h3))
    simp only [setFields]
    split
    · exact ⟨.cons (.refl _) r1, r2⟩
    · rename_i hc
      have hn := reorder_nil (hr (tagKey tag))
      simp only [hn]
      split
      · split
        · exact ⟨.cons (.refl _) r1, r2⟩
        · exact ⟨sameAll_refl f _, Iff.rfl⟩
      · rename_i hnil
        have hmem : (tagKey tag, lookupKey (tagKey tag) kvs) ∈ kvs := lookupKey_mem (by intro e; rw [e] at hn; rw [← hn] at hnil; exact hnil rfl)
        have hcs : canSet = true := by
          cases canSet
          · simp at hc
          · rfl
        have htag : tag ≠ [] := by
          intro e; simp [e] at hc
        obtain ⟨a1, a2⟩ := setField_alike f t (olds.headD (zero t)) _ _ (hr (tagKey tag)) (oneEntry_dict ho hmem)
          (fun x x' hx => hb x x' (.struct (name := name) (tag := tag) _ _ (by rw [hcs]; exact List.mem_cons_self) htag hmem hx))
        rcases hx : setField t (olds.headD (zero t)) (lookupKey (tagKey tag) kvs) with ⟨x, o⟩
        rcases hy : setField t (olds.headD (zero t)) (lookupKey (tagKey tag) kvs') with ⟨y, o'⟩
        rw [hx, hy] at a1 a2
        simp only at a1 a2
        cases o with
        | ok =>
          have := a2.1 rfl; subst this
          exact ⟨.cons a1 r1, r2⟩
        | err e =>
          cases o' with
          | ok => simp at a2
          | err _ => exact ⟨.cons a1 (sameAll_refl f _), by simp⟩
          | panic _ => exact ⟨.cons a1 (sameAll_refl f _), by simp⟩
        | panic e =>
          cases o' with
          | ok => simp at a2
          | err _ => exact ⟨.cons a1 (sameAll_refl f _), by simp⟩
          | panic _ => exact ⟨.cons a1 (sameAll_refl f _), by simp⟩
end

theorem processTarget_alike (f : Bytes → Bytes) (fs : List ((Bytes × Bytes × Bool) × Ty)) (old : GoVal) (v w : Bencode)
    (h : ∀ olds, AlikeAll f (setFields fs olds v) (setFields fs olds w)) :
    Alike f (processTarget (.ptr (.struct fs)) old v) (processTarget (.ptr (.struct fs)) old w) := by
  by_cases ho : ∃ olds, old = .ptr (some (.struct olds))
  · obtain ⟨olds, rfl⟩ := ho
    simp only [processTarget]
    exact ⟨.inPtr (by simpa using sameAll_struct (h _).1 []), (h _).2⟩
  · have e : ∀ u, processTarget (.ptr (.struct fs)) old u = (old, .err "bencode: pointer to struct expected as target") := by
      intro u
      unfold processTarget
      split
      · exact absurd ⟨_, rfl⟩ ho
      · rfl
    rw [e, e]; exact alike_refl _ _

theorem unmarshal_alike (f : Bytes → Bytes) (fs : List ((Bytes × Bytes × Bool) × Ty)) (old : GoVal) (data : Bytes)
    (v w : Bencode) (hp : parse data = .ok v) (hr : Reorder v w) (hb : Blind f (.struct fs) v) :
    Alike f (unmarshal (.ptr (.struct fs)) old data) (processTarget (.ptr (.struct fs)) old w) := by
  simp only [unmarshal, hp]
  have ho := parse_oneEntry hp
  have hf := reorder_sameForm hr ho
  cases v with
  | dict p kvs raw =>
    obtain ⟨ws, rfl, he⟩ := hf
    exact processTarget_alike f fs old _ _ (fun olds => setFields_alike f fs olds p kvs ws raw he ho hb)
  | list p vs raw =>
    obtain ⟨ws, rfl, he⟩ := hf
    have hg : ∀ (fs : List ((Bytes × Bytes × Bool) × Ty)) (olds : List GoVal),
        setFields fs olds (.list p vs raw) = setFields fs olds (.list p ws raw) := by
      intro fs
      induction fs with
      | nil => intro olds; simp only [setFields]
      | cons f fs ih =>
        obtain ⟨⟨a, b, c⟩, t⟩ := f
        intro olds
        simp only [setFields, ih]
    exact processTarget_alike f fs old _ _ (fun olds => by rw [hg]; exact ⟨sameAll_refl f _, Iff.rfl⟩)
  | _ => simp only [SameForm] at hf; subst hf; exact alike_refl _ _

/-- C89, part: for every target type, maps included, and whatever order Go's map iterations take: the call succeeds in every
order or in none, and what is stored is the same up to the contents of strings, whether or not it succeeds.
Missing: the contents of strings; which failure it is. -/
theorem C89_maps_partial (fs : List ((Bytes × Bytes × Bool) × Ty)) (old : GoVal) (data : Bytes)
    (v w : Bencode) (hp : parse data = .ok v) (hr : Reorder v w) :
    SameVal (fun _ => []) (unmarshal (.ptr (.struct fs)) old data).1 (processTarget (.ptr (.struct fs)) old w).1 ∧
    ((unmarshal (.ptr (.struct fs)) old data).2 = .ok ↔ (processTarget (.ptr (.struct fs)) old w).2 = .ok) :=
  unmarshal_alike (fun _ => []) fs old data v w hp hr (fun _ _ _ _ => rfl)

/-- C89, part: if moreover no element whose text ends up in a string has a dictionary with two keys in it, the strings are the
same too. Missing: which failure it is. -/
theorem C89_maps_same_partial (fs : List ((Bytes × Bytes × Bool) × Ty)) (old : GoVal) (data : Bytes)
    (v w : Bencode) (hp : parse data = .ok v) (hr : Reorder v w) (hs : ∀ x, InText (.struct fs) v x → NoTwoKeys x) :
    SameVal id (unmarshal (.ptr (.struct fs)) old data).1 (processTarget (.ptr (.struct fs)) old w).1 ∧
    ((unmarshal (.ptr (.struct fs)) old data).2 = .ok ↔ (processTarget (.ptr (.struct fs)) old w).2 = .ok) :=
  unmarshal_alike id fs old data v w hp hr (fun x _ hx hr => reorder_text hr (hs x hx) [])

/-! ### What `SameVal` tells apart -/

/-- Kind of a value, its number or bytes, how many entries it has. -/
def outline : GoVal → Nat × Int × Bytes × Nat
  | .string _ => (0, 0, [], 0)
  | .int n => (1, n, [], 0)
  | .uint n => (2, n, [], 0)
  | .nilSlice => (3, 0, [], 0)
  | .bytes b => (4, 0, b, 0)
  | .slice vs => (5, 0, [], vs.length)
  | .struct vs => (6, 0, [], vs.length)
  | .map kvs => (7, 0, [], kvs.length)
  | .ptr none => (8, 0, [], 0)
  | .ptr (some _) => (9, 0, [], 0)
  | .other => (10, 0, [], 0)

theorem sameVal_outline {f : Bytes → Bytes} {v w : GoVal} (h : SameVal f v w) : outline v = outline w := by
  induction h with
  | refl => rfl
  | trans _ _ a b => exact a.trans b
  | text => rfl
  | map h => simp only [outline, h.length_eq]
  | inPtr => rfl
  | inSlice a b _ _ => simp [outline]
  | inStruct a b _ _ => simp [outline]
  | inMap a b k _ _ => simp [outline]

/-- The text of a string is told apart by `SameVal id`. -/
theorem sameVal_string {v w : GoVal} (h : SameVal id v w) : ∀ s, v = .string s → w = .string s := by
  induction h with
  | refl => exact fun s e => e
  | trans _ _ a b => exact fun s e => b s (a s e)
  | text e => intro s h; cases h; exact congrArg _ (Eq.symm e)
  | _ => intro s e; cases e

/-! ### Which failure it is depends on the order -/

/-- `struct { M map[string]map[int]int "ben:\"m\"" }`. -/
def mapOfMaps : List ((Bytes × Bytes × Bool) × Ty) := [((ascii "M", ascii "m", true), .map true (.map false (.int 64)))]

def mapDoc : Bytes := ascii "d1:md1:ai1e1:bd1:xi1eeee"

def mapParsed (m : List (Bytes × Bencode)) : Bencode := .dict true [(ascii "m", .dict true m (ascii "d1:ai1e1:bd1:xi1eee"))] mapDoc

def mapEntries : List (Bytes × Bencode) := [(ascii "a", .int 1), (ascii "b", .dict true [(ascii "x", .int 1)] (ascii "d1:xi1ee"))]

theorem map_parse : parse mapDoc = .ok (mapParsed mapEntries) := by
  have h1 : Denotes (ascii "i1e") (.int 1) :=
    denotes_int (ds := ascii "1") (isDigits_of_all (by decide)) (by decide)
  have hx := DenotesEntries.cons _ _ _ _ _ _ (denotes_a (ascii "x") (by decide)) h1 .nil
  have hi := DenotesEntries.cons _ _ _ _ _ _ (denotes_a (ascii "a") (by decide)) h1
    (.cons _ _ _ _ _ _ (denotes_a (ascii "b") (by decide)) (.dict _ _ hx) .nil)
  have h := DenotesEntries.cons _ _ _ _ _ _ (denotes_a (ascii "m") (by decide)) (.dict _ _ hi) .nil
  exact parse_complete (.dict _ _ h) []

/-- C89 is false of the code for failures as well: with a map of maps as target, the same document gives an error or a panic, as the
iteration order has it. -/
theorem C89_maps_violated : ∃ fs old data v w, parse data = .ok v ∧ Reorder v w ∧
    (∃ e, (unmarshal (.ptr (.struct fs)) old data).2 = .err e) ∧
    (∃ e, (processTarget (.ptr (.struct fs)) old w).2 = .panic e) := by
  refine ⟨mapOfMaps, .ptr (some (.struct [.map []])), mapDoc, mapParsed mapEntries, mapParsed mapEntries.reverse, map_parse,
    .inDict _ [] [] _ _ (.dict _ _ (List.reverse_perm _).symm), ?_, ?_⟩
  all_goals
    have hint : parseInt0 (Bencode.int 1).toText 64 = .ok 1 := by
      simp only [Bencode.toText, prettyPrint]
      rw [parseInt0_itoa _ _ (by decide) (by decide)]; rfl
    simp [unmarshal, map_parse, mapParsed, mapEntries, processTarget, mapOfMaps, setFields, ascii,
      tagKey, tagOptional, splitComma, lookupKey, Bencode.isNil, setField.eq_def, setValue.eq_def, setEntries, zeros, zero, hint]

/-- Non-vacuity of `C89_maps_partial` and `C89_maps_same_partial`: a map of strings to numbers, filled in either order. -/
example : ∃ v w, parse (ascii "d1:md1:ai1e1:bi1eee") = .ok v ∧ Reorder v w ∧ v ≠ w ∧
    (processTarget (.ptr (.struct [((ascii "M", ascii "m", true), .map true (.int 64))])) (.ptr (some (.struct [.map []]))) v) =
      (.ptr (some (.struct [.map [(ascii "a", .int 1), (ascii "b", .int 1)]])), .ok) ∧
    (processTarget (.ptr (.struct [((ascii "M", ascii "m", true), .map true (.int 64))])) (.ptr (some (.struct [.map []]))) w) =
      (.ptr (some (.struct [.map [(ascii "b", .int 1), (ascii "a", .int 1)]])), .ok) := by
  have h1 : Denotes (ascii "i1e") (.int 1) :=
    denotes_int (ds := ascii "1") (isDigits_of_all (by decide)) (by decide)
  have hi := DenotesEntries.cons _ _ _ _ _ _ (denotes_a (ascii "a") (by decide)) h1
    (.cons _ _ _ _ _ _ (denotes_a (ascii "b") (by decide)) h1 .nil)
  have h := DenotesEntries.cons _ _ _ _ _ _ (denotes_a (ascii "m") (by decide)) (.dict _ _ hi) .nil
  have hp : parse (ascii "d1:md1:ai1e1:bi1eee") = .ok (.dict true [(ascii "m", .dict true [(ascii "a", .int 1), (ascii "b", .int 1)]
      (ascii "d1:ai1e1:bi1ee"))] (ascii "d1:md1:ai1e1:bi1eee")) := parse_complete (.dict _ _ h) []
  refine ⟨_, _, hp, .inDict _ [] [] _ _ (.dict _ _ (List.Perm.swap _ _ _)), ?_, ?_, ?_⟩
  · intro e
    simp [ascii] at e
  all_goals
    have hint : parseInt0 (Bencode.int 1).toText 64 = .ok 1 := by
      simp only [Bencode.toText, prettyPrint]
      rw [parseInt0_itoa _ _ (by decide) (by decide)]; rfl
    simp [processTarget, setFields, ascii,
      tagKey, tagOptional, splitComma, lookupKey, Bencode.isNil, setField.eq_def, setValue.eq_def, setEntries, zeros, zero, hint, putMap]

/-- `SameVal` is not everything: numbers, and with `id` strings, are told apart. -/
example : ¬ SameVal (fun _ => []) (.int 1) (.int 2) ∧ ¬ SameVal id (.string [1]) (.string [2]) :=
  ⟨fun h => by simpa [outline] using sameVal_outline h, fun h => by simpa using sameVal_string h _ rfl⟩

end Gotit.Props
