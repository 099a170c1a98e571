import Verif.Props.Stored
import Verif.Lemmas.Faithful
import Verif.Props.Open
/-
  C12 for maps whose keys are not strings.
-/
namespace Gotit.Props
open Gotit Spec

/-- C12 is false of the code for maps whose key type is not `string`: if the document has an entry for such a map, and the map's first
value can be stored, `Unmarshal` panics (`SetMapIndex`, tag_parser.go:179), whatever else the target and the document hold. -/
theorem C12_key_violated (nm tag : Bytes) (ht : tag ≠ []) (t : Ty) (hm : Machine t) (fs : List ((Bytes × Bytes × Bool) × Ty))
    (old : GoVal) (olds : List GoVal) (b r : Bytes) (v : Bencode) (hd : Denotes b v) (k : Bytes) (hk : TagNames tag k) (q : Bool)
    (e : Bytes × Bencode) (es : List (Bytes × Bencode)) (raw : Bytes) (he : HasEntry v k (.dict q (e :: es) raw)) (x : GoVal)
    (hx : Stored t (zero t) e.2 x) :
    (unmarshal (.ptr (.struct (((nm, tag, true), .map false t) :: fs))) (.ptr (some (.struct (old :: olds)))) (b ++ r)).2.isPanic = true := by
  obtain ⟨p, kvs, raw', rfl, hmem⟩ := he
  have hin := inDoc_dict (⟨b, hd⟩ : InDoc _)
  have hl : lookupKey (tagKey tag) kvs = .dict q (e :: es) raw := by
    rw [tagKey_of hk]
    exact lookupKey_of_mem hin.2 hmem
  have hv : InDoc e.2 := (inDoc_dict (hin.1 _ hmem)).1 e (by simp)
  have hs : setField t (zero t) e.2 = (x, .ok) := ((both_ok t hm).2 _ _ _ (zero_shaped t) hv).2 hx
  unfold unmarshal
  rw [parse_complete hd r]
  simp only [processTarget]
  rw [setFields_cons_active _ _ _ _ ht, hl]
  have : setField (.map false t) old (.dict q (e :: es) raw) =
      (old, .panic "reflect.Value.SetMapIndex: string is not assignable to key type") := by
    rw [setField, setValue]
    simp [setEntries, hs]
  simp [this, Bencode.isNil, Outcome.isPanic]

/-- C12, exactly, for a struct with one such map: a document that is a dictionary makes `Unmarshal` panic if and only if the entry for
the map is a dictionary whose first value (in the order in which the entries are visited, see C89) can be stored. In particular an
empty dictionary is accepted. -/
theorem C12_key_iff_partial (nm tag : Bytes) (ht : tag ≠ []) (t : Ty) (hm : Machine t) (hsk : StringKeyed t) (old : GoVal) (b r : Bytes)
    (v : Bencode) (hd : Denotes b v) (hv : ∃ p kvs raw, v = .dict p kvs raw) (k : Bytes) (hk : TagNames tag k) :
    (unmarshal (.ptr (.struct [((nm, tag, true), .map false t)])) (.ptr (some (.struct [old]))) (b ++ r)).2.isPanic = true ↔
      ∃ q e es raw x, HasEntry v k (.dict q (e :: es) raw) ∧ Stored t (zero t) e.2 x := by
  constructor
  · obtain ⟨p, kvs, raw', rfl⟩ := hv
    have hin := inDoc_dict (⟨b, hd⟩ : InDoc _)
    unfold unmarshal
    rw [parse_complete hd r]
    simp only [processTarget]
    rw [setFields_cons_active _ _ _ _ ht, tagKey_of hk]
    intro h
    by_cases hnil : (lookupKey k kvs).isNil = true
    · rw [if_pos hnil] at h
      split at h <;> simp [setFields, Outcome.isPanic] at h
    · have hne : lookupKey k kvs ≠ .nil := by intro e; rw [e] at hnil; exact hnil rfl
      have hmem := lookupKey_mem hne
      rw [if_neg hnil] at h
      generalize lookupKey k kvs = w at h hmem
      cases w with
      | dict q es raw =>
        cases es with
        | nil => simp [setField, setValue, setEntries, setFields, Outcome.isPanic] at h
        | cons e es =>
          have hv : InDoc e.2 := (inDoc_dict (hin.1 _ hmem)).1 e (by simp)
          have hnp := setField_noPanic t hsk (zero t) e.2
          rcases hs : setField t (zero t) e.2 with ⟨x, o⟩
          cases o with
          | ok => exact ⟨q, e, es, raw, x, ⟨p, kvs, raw', rfl, hmem⟩, ((both_ok t hm).2 _ _ _ (zero_shaped t) hv).1 hs⟩
          | err m => simp [setField, setValue, setEntries, hs, Outcome.isPanic] at h
          | panic m => rw [hs] at hnp; simp [Outcome.isPanic] at hnp
      | _ => simp [setField, setValue, Outcome.isPanic] at h
  · rintro ⟨q, e, es, raw, x, he, hx⟩
    exact C12_key_violated nm tag ht t hm [] old [] b r v hd k hk q e es raw he x hx

/-- `d1:md1:a1:bee` for a struct with a field of type `map[int]string`. -/
example (old : GoVal) : (unmarshal (.ptr (.struct [((ascii "M", ascii "m", true), .map false .string)])) (.ptr (some (.struct [old])))
    (ascii "d1:md1:a1:bee")).2.isPanic = true := by
  have k : ∀ c : UInt8, Denotes [49, 58, c] (.str [c]) := fun c => .str [49] [c] (isDigits_of_all (by decide)) (by show machineNumber [49] = 1; decide)
  have di := Denotes.dict _ _ (.cons _ _ _ _ _ _ (k 97) (k 98) .nil)
  rw [mapOf_nodup (by decide)] at di
  have dd := Denotes.dict _ _ (.cons _ _ _ _ _ _ (k 109) di .nil)
  rw [mapOf_nodup (by decide)] at dd
  exact C12_key_violated (ascii "M") (ascii "m") (by decide) .string trivial [] old [] _ [] _ dd [109] ⟨by decide, .inl rfl⟩ _ _ _ _
    ⟨_, _, _, rfl, List.mem_cons_self⟩ _ (.strOfStr _ _)

/-- `d1:mdee` for the same struct: no panic. -/
example (old : GoVal) : (unmarshal (.ptr (.struct [((ascii "M", ascii "m", true), .map false .string)])) (.ptr (some (.struct [old])))
    (ascii "d1:mdee")).2.isPanic ≠ true := by
  have k : ∀ c : UInt8, Denotes [49, 58, c] (.str [c]) := fun c => .str [49] [c] (isDigits_of_all (by decide)) (by show machineNumber [49] = 1; decide)
  have dd := Denotes.dict _ _ (.cons _ _ _ _ _ _ (k 109) (.dict _ _ .nil) .nil)
  rw [mapOf_nodup (by decide)] at dd
  intro h
  obtain ⟨q, e, es, raw, x, ⟨_, _, _, he, hm⟩, _⟩ := (C12_key_iff_partial (ascii "M") (ascii "m") (by decide) .string trivial
    (by simp [StringKeyed]) old _ [] _ dd ⟨_, _, _, rfl⟩ [109] ⟨by decide, .inl rfl⟩).1 h
  cases he
  simp [mapOf, distinct] at hm

end Gotit.Props
