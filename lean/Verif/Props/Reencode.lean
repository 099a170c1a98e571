import Verif.Spec.Plain
import Verif.Props.Canonical
import Verif.Props.Bencode
/-
  Property C92: re-encoding a parsed document.
-/
namespace Gotit.Props
open Gotit Gotit.Spec

/-! ### numbers -/

theorem head?_append_ne {a b : Bytes} (h : a ≠ []) : (a ++ b).head? = a.head? := by
  cases a with
  | nil => exact absurd rfl h
  | cons => rfl

theorem encodeList_ne {v : Bencode} (h : v ≠ .nil) (vs : List Bencode) : encodeList (v :: vs) = v.encode ++ encodeList vs := by
  rw [encodeList]; exact h

theorem encodeEntries_ne {v : Bencode} (h : v ≠ .nil) (k : Bytes) (kvs : List (Bytes × Bencode)) :
    encodeEntries ((k, v) :: kvs) = encodeStr k ++ v.encode ++ encodeEntries kvs := by
  rw [encodeEntries]; exact h

theorem natDigits_minimal (n : Nat) : Minimal (natDigits n) := by
  refine ⟨(natDigits_spec n).1, ?_⟩
  induction n using Nat.strongRecOn with
  | ind n ih =>
    rw [natDigits]
    split
    · refine ⟨by simp, ?_⟩
      intro h
      simpa using h
    · obtain ⟨h1, h2⟩ := ih (n / 10) (by omega)
      refine ⟨by simp, ?_⟩
      intro h
      rw [head?_append_ne h1] at h
      have h3 := h2 h
      have h4 := (natDigits_spec (n / 10)).2
      rw [h3] at h4
      simp [decimal] at h4
      omega

theorem decimal_pos {d : UInt8} {ds : Bytes} (h : 49 ≤ d.toNat) : 1 ≤ decimal (d :: ds) := by
  rw [decimal_cons]
  have : 1 ≤ (d.toNat - 48) * 10 ^ ds.length := Nat.mul_pos (by omega) (Nat.pow_pos (by omega))
  omega

theorem digit_ofNat {d : UInt8} (h : 48 ≤ d.toNat ∧ d.toNat ≤ 57) : UInt8.ofNat (48 + (d.toNat - 48)) = d := by
  rw [← UInt8.toNat_inj, UInt8.toNat_ofNat_of_lt' (by simp [UInt8.size]; omega)]; omega

/-- A number written without leading zeros is what `Itoa` writes. -/
theorem natDigits_decimal {ds : Bytes} (h : Minimal ds) : natDigits (decimal ds) = ds := by
  have key : ∀ l : Bytes, Minimal l.reverse → natDigits (decimal l.reverse) = l.reverse := by
    intro l
    induction l with
    | nil => intro h; exact absurd rfl h.2.1
    | cons d l ih =>
      intro h
      rw [List.reverse_cons] at h ⊢
      have hd := h.1 d (by simp)
      rw [decimal_append_one]
      by_cases hl : l = []
      · subst hl
        simp only [List.reverse_nil, decimal, List.foldl_nil, Nat.zero_mul, Nat.zero_add, List.nil_append]
        rw [natDigits, if_pos (by omega), digit_ofNat hd]
      · have hr : l.reverse ≠ [] := by simpa using hl
        have hh : l.reverse.head? ≠ some 48 := by
          intro e
          have := h.2.2 (by rw [head?_append_ne hr, e])
          have := congrArg List.length this
          simp at this
          exact hl this
        have hm : Minimal l.reverse := ⟨fun x hx => h.1 x (by simp at hx ⊢; exact .inl hx), hr, fun e => absurd e hh⟩
        have hp : 1 ≤ decimal l.reverse := by
          cases hc : l.reverse with
          | nil => exact absurd hc hr
          | cons a as =>
            apply decimal_pos
            rw [hc] at hm hh
            have := hm.1 a (by simp)
            have : a.toNat ≠ 48 := by
              intro e
              apply hh
              simp [← UInt8.toNat_inj, e]
            omega
        rw [natDigits, if_neg (by omega)]
        have e1 : (decimal l.reverse * 10 + (d.toNat - 48)) / 10 = decimal l.reverse := by omega
        have e2 : (decimal l.reverse * 10 + (d.toNat - 48)) % 10 = d.toNat - 48 := by omega
        rw [e1, e2, ih hm, digit_ofNat hd]
  have := key ds.reverse
  rw [List.reverse_reverse] at this
  exact this h

theorem itoa_nat (n : Nat) : itoa (n : Int) = natDigits n := by
  rw [itoa_nonneg _ (by omega)]; simp

theorem encodeStr_plain {ds s : Bytes} (h : Minimal ds) (hs : decimal ds = s.length) : encodeStr s = ds ++ 58 :: s := by
  rw [encodeStr, itoa_nat, ← hs, natDigits_decimal h]

/-! ### plain texts come back -/

mutual
theorem plain_back : ∀ {b : Bytes}, Plain b → ∃ v, Denotes b v ∧ v.encode = b
  | _, .int ds h hm => by
    refine ⟨_, .int ds h.1, ?_⟩
    rw [machineNumber_of_le _ hm, Bencode.encode, itoa_nat, natDigits_decimal h]
  | _, .str ds s h hs hm => by
    refine ⟨_, .str ds s h.1 ?_, ?_⟩
    · rw [machineNumber_of_le _ (by omega), hs]
    · rw [Bencode.encode, encodeStr_plain h hs]
  | _, .list body h => by
    obtain ⟨vs, h1, h2⟩ := plain_back_seq h
    exact ⟨_, .list _ _ h1, by rw [Bencode.encode, h2]⟩
  | _, .dict body ks h hn => by
    obtain ⟨es, h1, h2, h3⟩ := plain_back_entries h
    refine ⟨_, .dict _ _ h1, ?_⟩
    rw [mapOf_nodup (by rw [h3]; exact hn), Bencode.encode, h2]
theorem plain_back_seq : ∀ {b : Bytes}, PlainSeq b → ∃ vs, DenotesSeq b vs ∧ encodeList vs = b
  | _, .nil => ⟨[], .nil, by rw [encodeList]⟩
  | _, .cons b bs h hs => by
    obtain ⟨v, h1, h2⟩ := plain_back h
    obtain ⟨vs, h3, h4⟩ := plain_back_seq hs
    refine ⟨v :: vs, .cons _ _ _ _ h1 h3, ?_⟩
    rw [encodeList, h2, h4]
    exact h1.val_ne_nil
theorem plain_back_entries : ∀ {b : Bytes} {ks : List Bytes}, PlainEntries b ks →
    ∃ es, DenotesEntries b es ∧ encodeEntries es = b ∧ es.map Prod.fst = ks
  | _, _, .nil => ⟨[], .nil, by rw [encodeEntries], rfl⟩
  | _, _, .cons ds k vb bs ks h hk hl hv hs => by
    obtain ⟨v, h1, h2⟩ := plain_back hv
    obtain ⟨es, h3, h4, h5⟩ := plain_back_entries hs
    refine ⟨(k, v) :: es, .cons _ _ _ _ _ _ (.str ds k h.1 ?_) h1 h3, ?_, by simp [h5]⟩
    · rw [machineNumber_of_le _ (by omega), hk]
    · rw [encodeEntries, h2, h4, encodeStr_plain h hk, List.append_assoc]
      exact h1.val_ne_nil
end

/-! ### what comes back is plain -/

/-- What holds of every element of a parsed document. -/
def ParsedHead : Bencode → Prop
  | .nil => False
  | .int n => n ≤ maxNumber
  | .str s => s.length ≤ maxNumber
  | .list _ _ _ => True
  | .dict _ kvs _ => (kvs.map Prod.fst).Nodup ∧ ∀ e ∈ kvs, e.1.length ≤ maxNumber

def Parsed (v : Bencode) : Prop := ∀ x, Sub x v → ParsedHead x

theorem str_len {b s : Bytes} (h : Denotes b (.str s)) : s.length ≤ maxNumber := by
  cases h with
  | str ds _ _ hm =>
    have := (machineNumber_bounds ds).2
    omega

theorem denotesEntries_keys {b : Bytes} {es} (h : DenotesEntries b es) : ∀ e ∈ es, e.1.length ≤ maxNumber := by
  induction es generalizing b with
  | nil => simp
  | cons e es ih =>
    cases h with
    | cons kb vb bs k v _ hk hv hs =>
      intro e he
      rcases List.mem_cons.1 he with rfl | he
      · exact str_len hk
      · exact ih hs e he

theorem denotes_parsed {b : Bytes} {v : Bencode} (h : Denotes b v) : Parsed v := by
  intro x hx
  obtain ⟨_, xb, _, _, hd⟩ := sub_denotes hx h
  cases hd with
  | int ds => exact (machineNumber_bounds ds).2
  | str ds s h1 h2 => exact str_len (.str ds s h1 h2)
  | list => trivial
  | dict body es he => exact ⟨mapOf_keys es, fun e hm => denotesEntries_keys he e (mapOf_mem hm)⟩

theorem parsed_reorder {v w : Bencode} (h : Reorder v w) : Parsed v → Parsed w := by
  induction h with
  | refl => exact id
  | trans _ _ h1 h2 => exact fun h => h2 (h1 h)
  | @dict kvs kvs' ptr raw hp =>
    intro hv x hx
    cases hx with
    | refl =>
      obtain ⟨h1, h2⟩ := hv _ (.refl _)
      exact ⟨(hp.map Prod.fst).nodup_iff.1 h1, fun e he => h2 e (hp.mem_iff.2 he)⟩
    | dict _ _ hm hs => exact hv x (.dict _ _ (hp.mem_iff.2 hm) hs)
  | @inList v v' ptr a b raw hr ih =>
    intro hv x hx
    cases hx with
    | refl => trivial
    | list _ _ hm hs =>
      rcases List.mem_append.1 hm with hm | hm
      · exact hv x (.list _ _ (List.mem_append.2 (.inl hm)) hs)
      · rcases List.mem_cons.1 hm with rfl | hm
        · exact ih (fun y hy => hv y (.list _ _ (by simp) hy)) x hs
        · exact hv x (.list _ _ (List.mem_append.2 (.inr (List.mem_cons_of_mem _ hm))) hs)
  | @inDict v v' ptr a b k raw hr ih =>
    intro hv x hx
    cases hx with
    | refl =>
      obtain ⟨h1, h2⟩ := hv _ (.refl _)
      refine ⟨by simpa using h1, ?_⟩
      intro e he
      rcases List.mem_append.1 he with hm | hm
      · exact h2 e (List.mem_append.2 (.inl hm))
      · rcases List.mem_cons.1 hm with rfl | hm
        · exact h2 (k, v) (by simp)
        · exact h2 e (List.mem_append.2 (.inr (List.mem_cons_of_mem _ hm)))
    | dict _ _ hm hs =>
      rcases List.mem_append.1 hm with hm | hm
      · exact hv x (.dict _ _ (List.mem_append.2 (.inl hm)) hs)
      · rcases List.mem_cons.1 hm with e | hm
        · have e2 := (Prod.mk.inj e).2
          rw [e2] at hs
          exact ih (fun y hy => hv y (.dict (k := k) _ _ (by simp) hy)) x hs
        · exact hv x (.dict _ _ (List.mem_append.2 (.inr (List.mem_cons_of_mem _ hm))) hs)

theorem parsed_mem_list {p : Bool} {vs : List Bencode} {r : Bytes} (h : Parsed (.list p vs r)) {v} (hv : v ∈ vs) : Parsed v :=
  fun x hx => h x (.list _ _ hv hx)

theorem parsed_mem_dict {p : Bool} {kvs : List (Bytes × Bencode)} {r : Bytes} (h : Parsed (.dict p kvs r)) {e}
    (hv : e ∈ kvs) : Parsed e.2 := fun x hx => h x (.dict (k := e.1) _ _ hv hx)

theorem parsed_ne_nil {v : Bencode} (h : Parsed v) : v ≠ .nil := by
  intro e; subst e; exact h _ (.refl _)

/-- The texts of encodable elements are determined by how they begin. -/
theorem encode_split {w v : Bencode} {b r r' : Bytes} (hw : Parsed w) (he : Encodable w) (hd : Denotes b v)
    (h : w.encode ++ r = b ++ r') : w.encode = b ∧ r = r' := by
  obtain ⟨w', h1, _⟩ := encode_denotes w (parsed_ne_nil hw) he
  have := (Denotes_unique h1 hd h).1
  refine ⟨this, ?_⟩
  rw [this] at h
  exact List.append_cancel_left h

theorem encode_head {w : Bencode} (hw : w ≠ .nil) (r : Bytes) : (w.encode ++ r).head? ≠ some 101 ∧ w.encode ++ r ≠ [] := by
  have hs : ∀ n : Nat, ∃ d ds, natDigits n = d :: ds ∧ d ≠ 101 := by
    intro n
    obtain ⟨h1, h2, _⟩ := natDigits_minimal n
    cases hc : natDigits n with
    | nil => exact absurd hc h2
    | cons d ds =>
      refine ⟨d, ds, rfl, ?_⟩
      rw [hc] at h1
      have := h1 d (by simp)
      intro e; subst e; simp at this
  cases w with
  | nil => exact absurd rfl hw
  | int n => simp [Bencode.encode]
  | str s =>
    obtain ⟨d, ds, h1, h2⟩ := hs s.length
    simp only [Bencode.encode, encodeStr, itoa_nat, h1]
    simp [h2]
  | list => simp [Bencode.encode]
  | dict => simp [Bencode.encode]

theorem denotesSeq_nil {vs : List Bencode} (h : DenotesSeq [] vs) : vs = [] := by
  generalize hb : ([] : Bytes) = b at h
  cases h with
  | nil => rfl
  | cons b bs v vs h1 h2 =>
    have := h1.ne_nil
    simp at hb
    exact absurd hb.1 this

mutual
/-- If a text that denotes something begins with the encoding of an element (of a kind `Parse` returns), the element has
no negative number in it. -/
theorem encodable_of_text : ∀ (w : Bencode), Parsed w → ∀ {b r r' : Bytes} {v : Bencode}, Denotes b v →
    w.encode ++ r = b ++ r' → Encodable w
  | .nil, hw, _, _, _, _, _, _ => absurd rfl (parsed_ne_nil hw)
  | .int n, hw, b, r, r', v, hd, h => by
    intro x hx
    cases hx
    refine ⟨?_, hw _ (.refl _)⟩
    rcases Int.lt_or_le n 0 with hn | hn
    · exfalso
      simp only [Bencode.encode, itoa_neg_head hn] at h
      cases hd with
      | int ds hds =>
        cases ds with
        | nil => simp at h
        | cons d ds =>
          have := hds d (by simp)
          simp at h
          rw [← h.1] at this; simp at this
      | str ds s hds _ =>
        cases ds with
        | nil => simp at h
        | cons d ds =>
          have := hds d (by simp)
          simp at h
          rw [← h.1] at this; simp at this
      | list => simp at h
      | dict => simp at h
    · exact hn
  | .str s, hw, _, _, _, _, _, _ => by
    intro x hx
    cases hx
    exact hw _ (.refl _)
  | .list p vs raw, hw, b, r, r', v, hd, h => by
    have : ∀ v ∈ vs, Encodable v := by
      simp only [Bencode.encode] at h
      cases hd with
      | int => simp at h
      | str ds s hds _ =>
        exfalso
        cases ds with
        | nil => simp at h
        | cons d ds =>
          have := hds d (by simp)
          simp at h
          rw [← h.1] at this; simp at this
      | dict => simp at h
      | list body vs' hs =>
        refine encodableSeq_of_text vs (fun v hv => parsed_mem_list hw hv) (r := r) (r' := r') hs ?_
        simpa using h
    intro x hx
    cases hx with
    | refl => trivial
    | list _ _ hm hs => exact this _ hm _ hs
  | .dict p kvs raw, hw, b, r, r', v, hd, h => by
    have : ∀ e ∈ kvs, Encodable e.2 := by
      simp only [Bencode.encode] at h
      cases hd with
      | int => simp at h
      | str ds s hds _ =>
        exfalso
        cases ds with
        | nil => simp at h
        | cons d ds =>
          have := hds d (by simp)
          simp at h
          rw [← h.1] at this; simp at this
      | list => simp at h
      | dict body es hs =>
        refine encodableEntries_of_text kvs (fun v hv => parsed_mem_dict hw hv) (hw _ (.refl _)).2 (r := r) (r' := r') hs ?_
        simpa using h
    intro x hx
    cases hx with
    | refl => exact hw _ (.refl _)
    | dict _ _ hm hs => exact this _ hm _ hs
theorem encodableSeq_of_text : ∀ (ws : List Bencode), (∀ w ∈ ws, Parsed w) → ∀ {b r r' : Bytes} {vs : List Bencode},
    DenotesSeq b vs → encodeList ws ++ 101 :: r = b ++ 101 :: r' → ∀ w ∈ ws, Encodable w
  | [], _, _, _, _, _, _, _ => by simp
  | w :: ws, hw, b, r, r', vs, hd, h => by
    have hp := hw w (by simp)
    have hn := parsed_ne_nil hp
    rw [encodeList_ne hn, List.append_assoc] at h
    cases hd with
    | nil =>
      exfalso
      have := (encode_head hn (encodeList ws ++ 101 :: r)).1
      rw [h] at this
      simp at this
    | cons b1 bs v vs hv hs =>
      rw [List.append_assoc] at h
      have he := encodable_of_text w hp hv h
      have hc := (encode_split hp he hv h).2
      have ih := encodableSeq_of_text ws (fun w hw' => hw w (List.mem_cons_of_mem _ hw')) hs hc
      intro x hx
      rcases List.mem_cons.1 hx with rfl | hx
      · exact he
      · exact ih x hx
theorem encodableEntries_of_text : ∀ (kvs : List (Bytes × Bencode)), (∀ e ∈ kvs, Parsed e.2) →
    (∀ e ∈ kvs, e.1.length ≤ maxNumber) → ∀ {b r r' : Bytes} {es : List (Bytes × Bencode)},
    DenotesEntries b es → encodeEntries kvs ++ 101 :: r = b ++ 101 :: r' → ∀ e ∈ kvs, Encodable e.2
  | [], _, _, _, _, _, _, _, _ => by simp
  | (k, w) :: kvs, hw, hk, b, r, r', es, hd, h => by
    have hp : Parsed w := hw (k, w) (by simp)
    have hn := parsed_ne_nil hp
    have hkl := hk (k, w) (by simp)
    rw [encodeEntries_ne hn, List.append_assoc, List.append_assoc] at h
    cases hd with
    | nil =>
      exfalso
      have := (encode_head (w := .str k) (by simp) (w.encode ++ (encodeEntries kvs ++ 101 :: r))).1
      rw [Bencode.encode, h] at this
      simp at this
    | cons kb vb bs k' v es hk' hv hs =>
      rw [List.append_assoc, List.append_assoc] at h
      have hks := Denotes_unique (denotes_encodeStr k hkl) hk' h
      rw [hks.1] at h
      have h := List.append_cancel_left h
      have he := encodable_of_text w hp hv h
      have hc := (encode_split hp he hv h).2
      have ih := encodableEntries_of_text kvs (fun w hw' => hw w (List.mem_cons_of_mem _ hw'))
        (fun w hw' => hk w (List.mem_cons_of_mem _ hw')) hs hc
      intro x hx
      rcases List.mem_cons.1 hx with rfl | hx
      · exact he
      · exact ih x hx
end

mutual
theorem encode_plain : ∀ (w : Bencode), Parsed w → Encodable w → Plain w.encode
  | .nil, hw, _ => absurd rfl (parsed_ne_nil hw)
  | .int n, _, he => by
    have hn : 0 ≤ n ∧ n ≤ maxNumber := he _ (.refl _)
    rw [Bencode.encode, itoa_nonneg _ hn.1]
    refine .int _ (natDigits_minimal _) ?_
    rw [(natDigits_spec _).2]; omega
  | .str s, _, he => by
    rw [Bencode.encode, encodeStr, itoa_nat]
    exact .str _ _ (natDigits_minimal _) (natDigits_spec _).2 (he _ (.refl _))
  | .list p vs r, hw, he => by
    rw [Bencode.encode]
    exact .list _ (encodeList_plain vs (fun v hv => parsed_mem_list hw hv) (fun v hv x hx => he x (.list _ _ hv hx)))
  | .dict p kvs r, hw, he => by
    rw [Bencode.encode]
    have hh := hw _ (.refl _)
    exact .dict _ _ (encodeEntries_plain kvs (fun v hv => parsed_mem_dict hw hv)
      (fun e hv x hx => he x (.dict (k := e.1) _ _ hv hx)) hh.2) hh.1
theorem encodeList_plain : ∀ (ws : List Bencode), (∀ w ∈ ws, Parsed w) → (∀ w ∈ ws, Encodable w) → PlainSeq (encodeList ws)
  | [], _, _ => by rw [encodeList]; exact .nil
  | w :: ws, hw, he => by
    rw [encodeList_ne (parsed_ne_nil (hw w (by simp)))]
    exact .cons _ _ (encode_plain w (hw w (by simp)) (he w (by simp)))
      (encodeList_plain ws (fun w h => hw w (List.mem_cons_of_mem _ h)) (fun w h => he w (List.mem_cons_of_mem _ h)))
theorem encodeEntries_plain : ∀ (kvs : List (Bytes × Bencode)), (∀ e ∈ kvs, Parsed e.2) → (∀ e ∈ kvs, Encodable e.2) →
    (∀ e ∈ kvs, e.1.length ≤ maxNumber) → PlainEntries (encodeEntries kvs) (kvs.map Prod.fst)
  | [], _, _, _ => by rw [encodeEntries]; exact .nil
  | (k, w) :: kvs, hw, he, hk => by
    rw [encodeEntries_ne (parsed_ne_nil (hw (k, w) (by simp))), List.append_assoc, encodeStr, itoa_nat]
    exact .cons _ _ _ _ _ (natDigits_minimal _) (natDigits_spec _).2 (hk (k, w) (by simp))
      (encode_plain w (hw (k, w) (by simp)) (he (k, w) (by simp)))
      (encodeEntries_plain kvs (fun w h => hw w (List.mem_cons_of_mem _ h)) (fun w h => he w (List.mem_cons_of_mem _ h))
        (fun w h => hk w (List.mem_cons_of_mem _ h)))
end

/-! ## C92 -/

/-- C92, exact: `Parse` followed by `Encode` can give back the text that was parsed, with the maps iterated over in some
order, exactly if the text is plain. -/
theorem C92_some_order_partial {data : Bytes} {v : Bencode} (h : parse data = .ok v) :
    ∃ b r, data = b ++ r ∧ Denotes b v ∧ ((∃ w, Reorder v w ∧ w.encode = b) ↔ Plain b) := by
  obtain ⟨b, r, hb, hd⟩ := parse_sound h
  refine ⟨b, r, hb, hd, ?_, ?_⟩
  · rintro ⟨w, hr, hw⟩
    have hp := parsed_reorder hr (denotes_parsed hd)
    have he := encodable_of_text w hp hd (r := []) (r' := []) (by rw [hw])
    rw [← hw]
    exact encode_plain w hp he
  · intro hp
    obtain ⟨v', h1, h2⟩ := plain_back hp
    have := (Denotes_unique h1 hd (r := []) (r' := []) rfl).2
    exact ⟨v, .refl v, this ▸ h2⟩

/-- C92, exact: it gives back the text whatever the order of iteration exactly if the text is plain and no dictionary in
it has two keys. -/
theorem C92_partial {data : Bytes} {v : Bencode} (h : parse data = .ok v) :
    ∃ b r, data = b ++ r ∧ Denotes b v ∧ ((∀ w, Reorder v w → w.encode = b) ↔ Plain b ∧ NoTwoKeys v) := by
  obtain ⟨b, r, hb, hd, hs⟩ := C92_some_order_partial h
  refine ⟨b, r, hb, hd, ?_⟩
  have ho : OneEntryPerKey v := fun p kvs raw hx => (denotes_parsed hd _ hx).1
  constructor
  · intro ha
    have hv := ha v (.refl v)
    exact ⟨hs.1 ⟨v, .refl v, hv⟩, (C80_determined_partial v ho).1 (fun w hw => by rw [ha w hw, hv])⟩
  · rintro ⟨hp, hn⟩ w hw
    obtain ⟨v', h1, h2⟩ := plain_back hp
    have := (Denotes_unique h1 hd (r := []) (r' := []) rfl).2
    rw [(C80_determined_partial v ho).2 hn w hw, ← this, h2]

/-- C92 is violated: `i01e` is read as 1 and written as `i1e`; it never comes back as it was. -/
theorem C92_violated : ∃ data v, parse data = .ok v ∧ Denotes data v ∧ ∀ w, Reorder v w → w.encode ≠ data := by
  have hd : Denotes (ascii "i01e") (.int 1) := denotes_int (ds := ascii "01") (isDigits_of_all (by decide)) (by decide)
  refine ⟨ascii "i01e", .int 1, ?_, hd, ?_⟩
  · have := parse_complete hd []
    simpa using this
  · intro w hw e
    have hp := parsed_reorder hw (denotes_parsed hd)
    have he := encodable_of_text w hp hd (r := []) (r' := []) (by rw [e])
    obtain ⟨w', h1, h2⟩ := encode_denotes w (parsed_ne_nil hp) he
    rw [e] at h1
    have := (Denotes_unique h1 hd (r := []) (r' := []) rfl).2
    subst this
    cases h2
    rw [Bencode.encode, show itoa 1 = natDigits 1 from itoa_nat 1, natDigits, if_pos (by omega)] at e
    exact absurd e (by decide)

theorem minimal_one (d : UInt8) (hd : 48 ≤ d.toNat ∧ d.toNat ≤ 57) : Minimal [d] := by
  refine ⟨fun x hx => ?_, by simp, ?_⟩
  · rw [List.mem_singleton.1 hx]; exact hd
  · intro h; simpa using h

/-- `d1:ai1e1:bi2ee` is plain. -/
theorem two_plain : Plain (ascii "d1:ai1e1:bi2ee") := by
  have h1 : Plain (105 :: [49] ++ [101]) := .int [49] (minimal_one 49 (by decide)) (by decide)
  have h2 : Plain (105 :: [50] ++ [101]) := .int [50] (minimal_one 50 (by decide)) (by decide)
  exact .dict _ [[97], [98]] (.cons _ _ _ _ _ (minimal_one 49 (by decide)) (by decide) (by decide) h1
      (.cons _ _ _ _ _ (minimal_one 49 (by decide)) (by decide) (by decide) h2 .nil)) (by decide)

theorem two_denotes : Denotes (ascii "d1:ai1e1:bi2ee") (.dict true [([97], .int 1), ([98], .int 2)] (ascii "d1:ai1e1:bi2ee")) := by
  have h1 : Denotes (ascii "i1e") (.int 1) := denotes_int (ds := [49]) (isDigits_of_all (by decide)) (by decide)
  have h2 : Denotes (ascii "i2e") (.int 2) := denotes_int (ds := [50]) (isDigits_of_all (by decide)) (by decide)
  have h3 : Denotes (ascii "1:a") (.str [97]) := .str [49] [97] (isDigits_of_all (by decide)) (by decide)
  have h4 : Denotes (ascii "1:b") (.str [98]) := .str [49] [98] (isDigits_of_all (by decide)) (by decide)
  have := Denotes.dict _ _ (.cons _ _ _ _ _ _ h3 h1 (.cons _ _ _ _ _ _ h4 h2 .nil))
  rwa [mapOf_nodup (by decide)] at this

/-- C92 is violated even for plain texts: `d1:ai1e1:bi2ee` may come back as `d1:bi2e1:ai1ee`, because Go iterates over a
map in any order. -/
theorem C92_order_violated : ∃ data v w, parse data = .ok v ∧ Plain data ∧ Reorder v w ∧
    w.encode = ascii "d1:bi2e1:ai1ee" ∧ w.encode ≠ data := by
  have hw : (Bencode.dict true [([98], .int 2), ([97], .int 1)] (ascii "d1:ai1e1:bi2ee")).encode = ascii "d1:bi2e1:ai1ee" := by
    simp [Bencode.encode, encodeEntries, encodeStr, itoa, natDigits, ascii]
  refine ⟨_, _, _, by simpa using parse_complete two_denotes [], two_plain, .dict _ _ (List.Perm.swap _ _ _), hw, ?_⟩
  rw [hw]; decide

/-- Non-vacuity of C92: a document for which re-encoding does give back the text, whatever the order. -/
example : ∃ v, parse (ascii "d1:ai1ee") = .ok v ∧ ∀ w, Reorder v w → w.encode = ascii "d1:ai1ee" := by
  have h1 : Denotes (ascii "i1e") (.int 1) := denotes_int (ds := [49]) (isDigits_of_all (by decide)) (by decide)
  have h3 : Denotes (ascii "1:a") (.str [97]) := .str [49] [97] (isDigits_of_all (by decide)) (by decide)
  have hd := Denotes.dict _ _ (.cons _ _ _ _ _ _ h3 h1 .nil)
  rw [mapOf_nodup (by decide)] at hd
  have hp := parse_complete hd []
  rw [List.append_nil] at hp
  refine ⟨_, hp, ?_⟩
  obtain ⟨b, r, hb, hd', hi⟩ := C92_partial hp
  have := (Denotes_unique hd hd' (r := []) (r' := r) (by rw [← hb]; rfl)).1
  subst this
  refine hi.2 ⟨?_, ?_⟩
  · exact Plain.dict (ascii "1:ai1e") [[97]] (PlainEntries.cons [49] [97] (ascii "i1e") [] [] (minimal_one 49 (by decide)) (by decide) (by decide)
      (.int [49] (minimal_one 49 (by decide)) (by decide)) .nil) (by decide)
  · intro p kvs raw hs
    cases hs with
    | refl => decide
    | dict _ _ hm hs =>
      simp at hm
      rw [hm.2] at hs
      cases hs

end Gotit.Props
