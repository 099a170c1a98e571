import Verif.Spec.Trips
import Verif.Props.MapKeys
/-
  C12, exactly, for all targets.
-/
namespace Gotit.Props
open Gotit Spec

def ValueTrips (t : Ty) : Prop := NotPointer t → ∀ old v, Shaped t old → InDoc v → ((setValue t old v).2.isPanic = true ↔ Trips t old v)
def FieldTrips (t : Ty) : Prop := ∀ old v, Shaped t old → InDoc v → ((setField t old v).2.isPanic = true ↔ Trips t old v)
def FieldsTrips (fs : List ((Bytes × Bytes × Bool) × Ty)) : Prop :=
  ∀ olds p kvs raw, ShapedIn fs olds → InDoc (.dict p kvs raw) → ((setFields fs olds (.dict p kvs raw)).2.isPanic = true ↔ TripsFields fs olds (.dict p kvs raw))

theorem isPanic_ok {o : Outcome} (h : o.isPanic = true) : o ≠ .ok := by rintro rfl; cases h

theorem trips_of {t : Ty} (h : ∀ old v, setField t old v = setValue t old v) (hv : ValueTrips t) (hp : NotPointer t) : ValueTrips t ∧ FieldTrips t :=
  ⟨hv, fun old v hs hd => by rw [h]; exact hv hp old v hs hd⟩

theorem setEach_trips {t : Ty} {vs : List Bencode} (g : Bencode → GoVal × Outcome)
    (hg : ∀ v ∈ vs, ∀ x, g v = (x, .ok) ↔ Stored t (zero t) v x) (hp : ∀ v ∈ vs, (g v).2.isPanic = true ↔ Trips t (zero t) v) :
    (setEach g vs).2.isPanic = true ↔ TripsSeq t vs := by
  induction vs with
  | nil => simp only [setEach]; exact ⟨fun h => (by cases h), fun h => (by cases h)⟩
  | cons v vs ih =>
    have ih := ih (fun v hv => hg v (List.mem_cons_of_mem _ hv)) (fun v hv => hp v (List.mem_cons_of_mem _ hv))
    have hg := hg v (by simp)
    have hp := hp v (by simp)
    rw [setEach]
    rcases hv : g v with ⟨x, o⟩
    rw [hv] at hp
    cases o with
    | ok =>
      simp only
      rw [ih]
      constructor
      · exact .later ((hg x).1 hv)
      · intro h
        cases h with
        | here h => cases hp.2 h
        | later _ h => exact h
    | err m =>
      simp only
      refine ⟨fun h => (by cases h), fun h => ?_⟩
      cases h with
      | here h => cases hp.2 h
      | later h _ => have := (hg _).2 h; rw [hv] at this; cases this
    | panic m => exact ⟨fun _ => .here (hp.1 rfl), fun _ => rfl⟩

theorem setEntries_trips {t : Ty} {kvs : List (Bytes × Bencode)} (g : Bencode → GoVal × Outcome)
    (hg : ∀ e ∈ kvs, ∀ x, g e.2 = (x, .ok) ↔ Stored t (zero t) e.2 x) (hp : ∀ e ∈ kvs, (g e.2).2.isPanic = true ↔ Trips t (zero t) e.2)
    (sk : Bool) (m : List (Bytes × GoVal)) : (setEntries sk g kvs m).2.isPanic = true ↔ TripsEntries sk t kvs := by
  induction kvs generalizing m with
  | nil => simp only [setEntries]; exact ⟨fun h => (by cases h), fun h => (by cases h)⟩
  | cons e kvs ih =>
    have ih := ih (fun v hv => hg v (List.mem_cons_of_mem _ hv)) (fun v hv => hp v (List.mem_cons_of_mem _ hv))
    have hg := hg e (by simp)
    have hp := hp e (by simp)
    rw [setEntries]
    rcases hv : g e.2 with ⟨x, o⟩
    rw [hv] at hp
    cases o with
    | ok =>
      cases sk with
      | false => exact ⟨fun _ => .key ((hg x).1 hv), fun _ => rfl⟩
      | true =>
        simp only [Bool.not_true, Bool.false_eq_true, if_false]
        rw [ih]
        constructor
        · exact .later ((hg x).1 hv)
        · intro h
          cases h with
          | here h => cases hp.2 h
          | later _ h => exact h
    | err m =>
      simp only
      refine ⟨fun h => (by cases h), fun h => ?_⟩
      cases h with
      | key h => have := (hg _).2 h; rw [hv] at this; cases this
      | here h => cases hp.2 h
      | later h _ => have := (hg _).2 h; rw [hv] at this; cases this
    | panic m => exact ⟨fun _ => .here (hp.1 rfl), fun _ => rfl⟩

theorem fieldsTrips_cons {f : (Bytes × Bytes × Bool) × Ty} {fs : List ((Bytes × Bytes × Bool) × Ty)} (ho : FieldOk f.2) (hf : FieldTrips f.2)
    (hfs : FieldsTrips fs) : FieldsTrips (f :: fs) := by
  obtain ⟨⟨nm, tag, c⟩, t⟩ := f
  intro olds p kvs raw hs hd
  rw [ShapedIn] at hs
  obtain ⟨o, os, rfl, hso, hos⟩ := hs
  have hfs := hfs os p kvs raw hos hd
  by_cases ha : Active ((nm, tag, c), t)
  · obtain ⟨hc, ht⟩ := ha
    simp only at hc ht
    subst hc
    have ha : Active ((nm, tag, true), t) := ⟨rfl, ht⟩
    obtain ⟨hd1, hd2⟩ := inDoc_dict hd
    have hnn : ∀ e ∈ kvs, e.2 ≠ .nil := fun e he => inDoc_ne_nil (hd1 e he)
    rw [setFields_active_cons nm tag t fs ht]
    have look : ∀ {key w}, TagNames tag key → HasEntry (.dict p kvs raw) key w → lookupKey (tagKey tag) kvs = w ∧ w ≠ .nil := by
      intro key w h1 h2
      rw [← tagKey_of h1] at h2
      obtain ⟨p', kvs', raw', e, hm⟩ := h2
      injection e with _ e _
      subst e
      exact ⟨(lookup_mem hd2 hnn _ (hnn _ hm)).2 hm, hnn _ hm⟩
    have lack : ∀ {key}, TagNames tag key → LacksKey (.dict p kvs raw) key → lookupKey (tagKey tag) kvs = .nil := by
      intro key h1 h2
      rw [← tagKey_of h1] at h2
      obtain ⟨p', kvs', raw', e, hm⟩ := h2
      injection e with _ e _
      subst e
      exact (lookup_none hd2 hnn).2 hm
    by_cases hl : lookupKey (tagKey tag) kvs = .nil
    · rw [if_pos ((isNil_iff _).2 hl)]
      have hlk : LacksKey (.dict p kvs raw) (tagKey tag) := ⟨p, kvs, raw, rfl, (lookup_none hd2 hnn).1 hl⟩
      constructor
      · intro h
        split at h
        · rename_i hopt
          exact .absent ha (tagNames_key tag) ((tagOptional_iff tag).1 hopt) hlk (hfs.1 h)
        · cases h
      · intro h
        cases h with
        | skip h => exact absurd ha h
        | absent _ h1 h2 h3 h4 => rw [if_pos ((tagOptional_iff tag).2 h2)]; exact hfs.2 h4
        | here _ h1 h2 h3 => exact absurd hl (by rw [(look h1 h2).1]; exact (look h1 h2).2)
        | later _ h1 h2 h3 h4 => exact absurd hl (by rw [(look h1 h2).1]; exact (look h1 h2).2)
    · rw [if_neg (fun e => hl ((isNil_iff _).1 e))]
      have hm := (lookup_mem hd2 hnn _ hl).1 rfl
      have hfo := fun x => ho o (lookupKey (tagKey tag) kvs) x hso (hd1 _ hm)
      have hft : (setField t o (lookupKey (tagKey tag) kvs)).2.isPanic = true ↔ Trips t o (lookupKey (tagKey tag) kvs) := hf o (lookupKey (tagKey tag) kvs) hso (hd1 _ hm)
      constructor
      · intro h
        split at h
        · rename_i hok
          exact .later ha (tagNames_key tag) ⟨p, kvs, raw, rfl, hm⟩ ((hfo _).1 (Prod.ext rfl hok)) (hfs.1 h)
        · exact .here ha (tagNames_key tag) ⟨p, kvs, raw, rfl, hm⟩ (hft.1 h)
      · intro h
        cases h with
        | skip h => exact absurd ha h
        | absent _ h1 h2 h3 h4 => exact absurd (lack h1 h3) hl
        | here _ h1 h2 h3 =>
          rw [← (look h1 h2).1] at h3
          have := hft.2 h3
          rw [if_neg (isPanic_ok this)]
          exact this
        | later _ h1 h2 h3 h4 =>
          rw [← (look h1 h2).1] at h3
          have e1 := (hfo _).2 h3
          simp only at e1
          rw [if_pos (by rw [e1])]
          exact hfs.2 h4
  · rw [setFields_cons_inactive nm tag c t fs ha]
    constructor
    · exact fun h => .skip ha (hfs.1 h)
    · intro h
      cases h with
      | skip _ h => exact hfs.2 h
      | absent h => exact absurd h ha
      | here h => exact absurd h ha
      | later h => exact absurd h ha

theorem valueTrips_struct {fs : List ((Bytes × Bytes × Bool) × Ty)} (hfs : FieldsTrips fs) : ValueTrips (.struct fs) := by
  intro _ old v hs hd
  rw [Shaped] at hs
  obtain ⟨olds, rfl, hs⟩ := hs
  match v, hd with
  | .dict p kvs raw, hd =>
    rw [setValue]
    exact (hfs olds p kvs raw hs hd).trans ⟨.struct, fun h => by cases h with | struct h => exact h⟩
  | .int _, _ => simp only [setValue]; exact ⟨fun h => (by cases h), fun h => (by cases h)⟩
  | .str _, _ => simp only [setValue]; exact ⟨fun h => (by cases h), fun h => (by cases h)⟩
  | .list _ _ _, _ => simp only [setValue]; exact ⟨fun h => (by cases h), fun h => (by cases h)⟩
  | .nil, hd => exact absurd rfl (inDoc_ne_nil hd)

theorem valueTrips_slice {t : Ty} (hne : t ≠ .uint 8) (ho : FieldOk t) (ht : FieldTrips t) : ValueTrips (.slice t) := by
  intro _ old v _ hd
  by_cases hl : ∃ p vs raw, v = .list p vs raw
  · obtain ⟨p, vs, raw, rfl⟩ := hl
    rw [setValue_slice hne]
    have he := setEach_trips (t := t) (vs := vs) (fun x => setField t (zero t) x)
      (fun v hv x => ho _ v x (zero_shaped t) (inDoc_list hd v hv)) (fun v hv => ht _ v (zero_shaped t) (inDoc_list hd v hv))
    have e : Trips (.slice t) old (.list p vs raw) ↔ TripsSeq t vs := ⟨fun h => by cases h with | slice _ h => exact h, .slice hne⟩
    rw [e, ← he]
    split <;> (rename_i hx; rw [hx])
  · have hl' : ∀ p vs raw, v ≠ .list p vs raw := fun p vs raw e => hl ⟨p, vs, raw, e⟩
    rw [setValue_slice_other hne _ _ hl']
    refine ⟨fun h => (by cases h), fun h => ?_⟩
    cases h with
    | slice => exact absurd rfl (hl' _ _ _)

theorem valueTrips_map {t : Ty} (sk : Bool) (ho : FieldOk t) (ht : FieldTrips t) : ValueTrips (.map sk t) := by
  intro _ old v _ hd
  match v, hd with
  | .dict p kvs raw, hd =>
    rw [setValue]
    obtain ⟨hd1, hd2⟩ := inDoc_dict hd
    have he := setEntries_trips (t := t) (kvs := kvs) (fun x => setField t (zero t) x)
      (fun e hv x => ho _ e.2 x (zero_shaped t) (hd1 e hv)) (fun e hv => ht _ e.2 (zero_shaped t) (hd1 e hv)) sk []
    have e : Trips (.map sk t) old (.dict p kvs raw) ↔ TripsEntries sk t kvs := ⟨fun h => by cases h with | map h => exact h, .map⟩
    rw [e, ← he]
    split <;> (rename_i hx; rw [hx])
  | .int _, _ => simp only [setValue]; exact ⟨fun h => (by cases h), fun h => (by cases h)⟩
  | .str _, _ => simp only [setValue]; exact ⟨fun h => (by cases h), fun h => (by cases h)⟩
  | .list _ _ _, _ => simp only [setValue]; exact ⟨fun h => (by cases h), fun h => (by cases h)⟩
  | .nil, hd => exact absurd rfl (inDoc_ne_nil hd)

theorem fieldTrips_ptr {t : Ty} (ht : ValueTrips t) : FieldTrips (.ptr t) := by
  intro old v hs hd
  rw [Shaped] at hs
  by_cases hp : NotPointer t
  · have ht := ht hp
    rcases hs with rfl | ⟨y, rfl, hy⟩
    · rw [setField_ptrNil]
      exact (ht (zero t) v (zero_shaped t) hd).trans ⟨.ptrNil hp, fun h => by cases h with | ptrNil _ h => exact h⟩
    · rw [setField_ptr]
      exact (ht y v hy hd).trans ⟨.ptr hp, fun h => by cases h with | ptr _ h => exact h⟩
  · have : ∃ u, t = .ptr u := Classical.byContradiction fun hc => hp (fun u e => hc ⟨u, e⟩)
    obtain ⟨u, rfl⟩ := this
    have he : (setField (.ptr (.ptr u)) old v).2.isPanic ≠ true := by
      rcases hs with rfl | ⟨y, rfl, _⟩
      · rw [setField_ptrNil, setValue]; simp [Outcome.isPanic]
      · rw [setField_ptr, setValue]; simp [Outcome.isPanic]
    refine ⟨fun h => absurd h he, fun h => ?_⟩
    cases h with
    | ptrNil h => exact absurd h hp
    | ptr h => exact absurd h hp

mutual
theorem both_trip : ∀ t : Ty, Machine t → ValueTrips t ∧ FieldTrips t
  | .string, _ => trips_of (fun _ _ => by rw [setField]) (by intro _ old v _ _; rw [setValue]; exact ⟨fun h => (by cases h), fun h => (by cases h)⟩) (by intro u; simp)
  | .int bits, hm => trips_of (fun _ _ => by rw [setField])
      (by intro _ old v _ _; rw [setValue]; split <;> exact ⟨fun h => (by cases h), fun h => (by cases h)⟩) (by intro u; simp)
  | .uint bits, hm => trips_of (fun _ _ => by rw [setField])
      (by intro _ old v _ _; rw [setValue]; split <;> exact ⟨fun h => (by cases h), fun h => (by cases h)⟩) (by intro u; simp)
  | .slice t, hm => by
    rw [Machine] at hm
    by_cases ht : t = .uint 8
    · rw [ht]
      refine trips_of (fun _ _ => by rw [setField]) ?_ (by intro u; simp)
      intro _ old v _ _
      rw [setValue]
      exact ⟨fun h => (by cases h), fun h => (by cases h with | slice h => exact absurd rfl h)⟩
    · exact trips_of (fun _ _ => by rw [setField]) (valueTrips_slice ht (both_ok t hm).2 (both_trip t hm).2) (by intro u; simp)
  | .struct fs, hm => by
    rw [Machine] at hm
    exact trips_of (fun _ _ => by rw [setField]) (valueTrips_struct (fields_trip fs hm)) (by intro u; simp)
  | .map sk t, hm => by
    rw [Machine] at hm
    exact trips_of (fun _ _ => by rw [setField]) (valueTrips_map sk (both_ok t hm).2 (both_trip t hm).2) (by intro u; simp)
  | .ptr t, hm => by
    rw [Machine] at hm
    exact ⟨fun h => absurd rfl (h t), fieldTrips_ptr (both_trip t hm).1⟩
  | .other, _ => trips_of (fun _ _ => by rw [setField]) (by intro _ old v _ _; rw [setValue]; exact ⟨fun h => (by cases h), fun h => (by cases h)⟩) (by intro u; simp)
theorem fields_trip : ∀ fs : List ((Bytes × Bytes × Bool) × Ty), MachineIn fs → FieldsTrips fs
  | [], _ => by
    intro olds p kvs raw hs _
    rw [setFields]
    exact ⟨fun h => (by cases h), fun h => (by cases h)⟩
  | (f, t) :: fs, hm => by
    rw [MachineIn] at hm
    exact fieldsTrips_cons (f := (f, t)) (both_ok t hm.1).2 (both_trip t hm.1).2 (fields_trip fs hm.2)
end

/-- C12, exactly, for every target that is a pointer to a struct, whatever its types: `Unmarshal` panics if and only if `Parse` does; or
the document is not a dictionary and the struct has a tagged exported field; or the document is a dictionary and, going through the
fields, a value is to be put into a map whose keys are not strings before anything is refused. -/
theorem C12_all_partial (fs : List ((Bytes × Bytes × Bool) × Ty)) (hm : MachineIn fs) (olds : List GoVal) (hs : ShapedIn fs olds) (data : Bytes) :
    (unmarshal (.ptr (.struct fs)) (.ptr (some (.struct olds))) data).2.isPanic = true ↔
      Crashes data ∨ ∃ b r v, data = b ++ r ∧ Denotes b v ∧
        (((∀ p kvs raw, v ≠ .dict p kvs raw) ∧ ∃ f ∈ fs, Active f) ∨ ((∃ p kvs raw, v = .dict p kvs raw) ∧ TripsFields fs olds v)) := by
  unfold unmarshal
  cases hp : parse data with
  | err e =>
    simp only
    refine ⟨fun h => (by cases h), fun h => ?_⟩
    rcases h with h | ⟨b, r, v, rfl, hd, _⟩
    · rw [crash_parse h] at hp; cases hp
    · rw [parse_complete hd r] at hp; cases hp
  | panic w => exact ⟨fun _ => .inl (parse_panic hp), fun _ => rfl⟩
  | outOfFuel => exact absurd hp (parse_not_fuel data)
  | ok v =>
    obtain ⟨b, r, rfl, hd⟩ := parse_sound hp
    have hnc : ¬ Crashes (b ++ r) := by intro h; rw [crash_parse h] at hp; cases hp
    have hu : ∀ b' r' v', b ++ r = b' ++ r' → Denotes b' v' → v' = v := by
      intro b' r' v' e hd'
      have := parse_complete hd' r'
      rw [← e, hp] at this
      injection this with this
      exact this.symm
    have hx : (∃ b' r' v', b ++ r = b' ++ r' ∧ Denotes b' v' ∧
        (((∀ p kvs raw, v' ≠ .dict p kvs raw) ∧ ∃ f ∈ fs, Active f) ∨ ((∃ p kvs raw, v' = .dict p kvs raw) ∧ TripsFields fs olds v'))) ↔
        (((∀ p kvs raw, v ≠ .dict p kvs raw) ∧ ∃ f ∈ fs, Active f) ∨ ((∃ p kvs raw, v = .dict p kvs raw) ∧ TripsFields fs olds v)) := by
      constructor
      · rintro ⟨b', r', v', e, hd', h⟩
        rw [hu b' r' v' e hd'] at h; exact h
      · exact fun h => ⟨b, r, v, rfl, hd, h⟩
    rw [hx]
    simp only [hnc, false_or, processTarget]
    by_cases hv : ∃ p kvs raw, v = .dict p kvs raw
    · obtain ⟨p, kvs, raw, rfl⟩ := hv
      rw [fields_trip fs hm olds p kvs raw hs ⟨b, hd⟩]
      exact ⟨fun h => .inr ⟨⟨_, _, _, rfl⟩, h⟩, fun h => h.elim (fun h => absurd rfl (h.1 _ _ _)) (·.2)⟩
    · have hv' : ∀ p kvs raw, v ≠ .dict p kvs raw := fun p kvs raw e => hv ⟨p, kvs, raw, e⟩
      rw [setFields_nonDict fs v hv' olds]
      exact ⟨fun h => .inl ⟨hv', h⟩, fun h => h.elim (·.2) (fun h => absurd h.1 hv)⟩

/-- A target with a list of maps whose keys are not strings: `[]map[int]uint16`. -/
def oddFields : List ((Bytes × Bytes × Bool) × Ty) := [((ascii "M", ascii "m", true), .slice (.map false (.uint 16)))]

theorem odd_shaped (old : GoVal) : MachineIn oddFields ∧ ShapedIn oddFields [old] :=
  ⟨by simp [oddFields, MachineIn, Machine], by simp only [oddFields, ShapedIn, Shaped]; exact ⟨_, _, rfl, trivial, rfl⟩⟩

/-- `d1:mlded1:ai5eeee`: the second map of the list trips. -/
example (old : GoVal) : (unmarshal (.ptr (.struct oddFields)) (.ptr (some (.struct [old]))) (ascii "d1:mlded1:ai5eeee")).2.isPanic = true := by
  have k : ∀ c : UInt8, Denotes [49, 58, c] (.str [c]) := fun c => .str [49] [c] (isDigits_of_all (by decide)) (by show machineNumber [49] = 1; decide)
  have d5 : Denotes (ascii "i5e") (.int 5) := denotes_int (ds := ascii "5") (isDigits_of_all (by decide)) (by decide)
  have de := Denotes.dict _ _ .nil
  rw [mapOf_nodup (by decide)] at de
  have da := Denotes.dict _ _ (.cons _ _ _ _ _ _ (k 97) d5 .nil)
  rw [mapOf_nodup (by decide)] at da
  have dl := Denotes.list _ _ (.cons _ _ _ _ de (.cons _ _ _ _ da .nil))
  have dd := Denotes.dict _ _ (.cons _ _ _ _ _ _ (k 109) dl .nil)
  rw [mapOf_nodup (by decide)] at dd
  refine (C12_all_partial _ (odd_shaped old).1 _ (odd_shaped old).2 _).2 (.inr ⟨_, [], _, (List.append_nil _).symm, dd, .inr ⟨⟨_, _, _, rfl⟩, ?_⟩⟩)
  exact .here (key := [109]) ⟨rfl, by decide⟩ ⟨by decide, .inl rfl⟩ ⟨_, _, _, rfl, List.mem_cons_self⟩
    (.slice (by simp) (.later (.map false (.inr rfl) (.nil _)) (.here (.map (.key (.uint (.int 5) (by decide)))))))

/-- `d1:mldeee`: only an empty map, no panic. -/
example (old : GoVal) : (unmarshal (.ptr (.struct oddFields)) (.ptr (some (.struct [old]))) (ascii "d1:mldeee")).2.isPanic ≠ true := by
  have k : ∀ c : UInt8, Denotes [49, 58, c] (.str [c]) := fun c => .str [49] [c] (isDigits_of_all (by decide)) (by show machineNumber [49] = 1; decide)
  have de := Denotes.dict _ _ .nil
  rw [mapOf_nodup (by decide)] at de
  have dl := Denotes.list _ _ (.cons _ _ _ _ de .nil)
  have dd := Denotes.dict _ _ (.cons _ _ _ _ _ _ (k 109) dl .nil)
  rw [mapOf_nodup (by decide)] at dd
  have := (C94_stored oddFields (odd_shaped old).1 [old] (odd_shaped old).2 (ascii "d1:mldeee") _).2
    ⟨_, [], _, [.slice [.map []]], (List.append_nil _).symm, dd, .present (key := [109]) ⟨rfl, by decide⟩ ⟨by decide, .inl rfl⟩
      ⟨_, _, _, rfl, List.mem_cons_self⟩ (.slice (by simp) (.cons (.map false (.inr rfl) (.nil _)) (.nil _))) (.nil _), rfl⟩
  rw [this]
  simp [Outcome.isPanic]

end Gotit.Props
