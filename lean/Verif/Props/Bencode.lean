import Verif.Lemmas.Encode
/-
  Properties C01–C09 and C11: the bencode codec.
-/
namespace Gotit.Props
open Gotit Gotit.Spec

/-! ## C01 -/

/-- C01: parsing the encoding of a value returns that value (and the encoding is consumed completely). The
entry list of a dictionary is in the order in which the entries were emitted, so this holds for every map
iteration order. -/
theorem C01_encode_parse (v : Bencode) (hv : v ≠ .nil) (he : Encodable v) :
    ∃ w, parse v.encode = .ok w ∧ Same v w ∧ Denotes v.encode w := by
  obtain ⟨w, h1, h2⟩ := encode_denotes v hv he
  refine ⟨w, ?_, h2, h1⟩
  have := parse_complete h1 []
  simpa using this

/-- What `Same` gives a user who looks a key up: a non-nil value of `v` is found again. -/
theorem C01_lookup (p q : Bool) (kvs ws : List (Bytes × Bencode)) (r r' : Bytes)
    (h : Same (.dict p kvs r) (.dict q ws r')) (hn : (kvs.map Prod.fst).Nodup) (k : Bytes) :
    (lookupKey k kvs = .nil ∧ lookupKey k ws = .nil) ∨ Same (lookupKey k kvs) (lookupKey k ws) := by
  cases h with
  | dict h =>
    clear p q r r'
    induction kvs generalizing ws with
    | nil => cases h; exact .inl ⟨rfl, rfl⟩
    | cons e kvs ih =>
      simp only [List.map_cons, List.nodup_cons] at hn
      cases h with
      | skip h =>
        rename_i k'
        simp only [lookupKey]
        split
        · rename_i hk; subst hk
          left; refine ⟨rfl, ?_⟩
          have hs := sameEntries_keys h
          have : k' ∉ ws.map Prod.fst := fun hm => hn.1 (hs.subset hm)
          clear ih hs h
          induction ws with
          | nil => rfl
          | cons e ws ih =>
            simp only [List.map_cons, List.mem_cons, not_or] at this
            simp only [lookupKey]
            rw [if_neg (fun e => this.1 e.symm)]
            exact ih this.2
        · exact ih _ hn.2 h
      | cons hv h =>
        simp only [lookupKey]
        split
        · exact .inr hv
        · exact ih _ hn.2 h

/-- `{"a": [1, nil, "x"], "b": nil}`, a dictionary with nil entries. -/
def sample : Bencode := .dict false
  [(ascii "a", .list false [.int 1, .nil, .str (ascii "x")] []), (ascii "b", .nil)] []

theorem sample_encodable : Encodable sample := by
  intro x hx
  cases hx with
  | refl => simp [EncodableHead, sample, maxNumber, ascii]
  | dict _ _ hm hs =>
    simp only [List.mem_cons, Prod.mk.injEq, List.not_mem_nil, or_false] at hm
    rcases hm with ⟨_, rfl⟩ | ⟨_, rfl⟩
    · cases hs with
      | refl => simp [EncodableHead]
      | list _ _ hm hs =>
        simp only [List.mem_cons, List.not_mem_nil, or_false] at hm
        rcases hm with rfl | rfl | rfl <;> cases hs <;> simp [EncodableHead, maxNumber, ascii]
    · cases hs; simp [EncodableHead]

/-- Non-vacuity of C01. -/
example : ∃ w, parse sample.encode = .ok w ∧ Same sample w ∧ Denotes sample.encode w :=
  C01_encode_parse sample (by simp [sample]) sample_encodable
example : sample.encode = ascii "d1:ali1e1:xee" := by
  simp [sample, Bencode.encode, encodeEntries, encodeList, encodeStr, itoa, natDigits, ascii]

/-! ## C02 -/

theorem itoa_neg_head {n : Int} (h : n < 0) : itoa n = 45 :: natDigits n.natAbs := by
  simp [itoa, h]

/-- C02, exact: an `int` survives `Encode` followed by `Parse` if and only if it lies between 0 and
922337203685477580. -/
theorem C02_int_roundtrip_iff_partial (n : Int) :
    parse (Bencode.int n).encode = .ok (.int n) ↔ 0 ≤ n ∧ n ≤ maxNumber := by
  constructor
  · intro h
    by_cases hn : n < 0
    · obtain ⟨b, r, hb, hd⟩ := parse_sound h
      simp only [Bencode.encode, itoa_neg_head hn] at hb
      obtain ⟨ds, hds, rfl, _⟩ := denotes_int_inv hd
      simp only [List.cons_append, List.cons.injEq, true_and, List.append_assoc] at hb
      cases ds with
      | nil => simp at hb
      | cons d ds =>
        simp only [List.cons_append, List.cons.injEq] at hb
        have := hds d (by simp)
        rw [← hb.1] at this; simp at this
    · refine ⟨by omega, ?_⟩
      obtain ⟨b, r, hb, hd⟩ := parse_sound h
      obtain ⟨ds, _, _, hm⟩ := denotes_int_inv hd
      rw [hm]; exact (machineNumber_bounds ds).2
  · intro h
    have hd : Encodable (.int n) := by
      intro x hx; cases hx; exact h
    obtain ⟨w, h1, h2, _⟩ := C01_encode_parse (.int n) (by simp) hd
    cases h2; exact h1

/-- C02 as stated (for every Go `int`) is false. -/
theorem C02_int_roundtrip_violated :
    ¬ ∀ n : Int, -2^63 ≤ n → n < 2^63 → parse (Bencode.int n).encode = .ok (.int n) := by
  intro h
  have := (C02_int_roundtrip_iff_partial (-1)).1 (h (-1) (by decide) (by decide))
  omega

/-- … and what happens outside the range: a negative number is rejected, a large one silently becomes
another number. -/
theorem C02_negative_rejected_partial (n : Int) (h : n < 0) :
    ∃ e, parse (Bencode.int n).encode = .err e := by
  rw [parse_eq]
  simp only [Bencode.encode, itoa_neg_head h]
  rw [if_neg (by simp)]
  simp only [parseFuel]
  rw [pNext, if_neg (by simp), if_neg (by simp), if_pos (by simp)]
  have : digitB 45 = false := by decide
  simp [pInt, pEnd, this, PRes.bind]

theorem C02_large_corrupted_partial (n : Int) (h0 : 0 ≤ n) :
    ∃ m, parse (Bencode.int n).encode = .ok (.int m) ∧ m = (wrap64 (10 * n)).tdiv 10 := by
  obtain ⟨h1, h2⟩ := natDigits_spec n.toNat
  have hd := Denotes.int _ h1
  refine ⟨machineNumber (natDigits n.toNat), ?_, ?_⟩
  · have := parse_complete hd []
    simp only [Bencode.encode, itoa_nonneg n h0]
    simpa using this
  · unfold machineNumber; rw [h2]; congr 3; omega

example : parse (Bencode.int 922337203685477580).encode = .ok (.int 922337203685477580) :=
  (C02_int_roundtrip_iff_partial _).2 (by decide)
/-- 922337203685477581 comes back as −922337203685477580. -/
example : parse (Bencode.int 922337203685477581).encode = .ok (.int (-922337203685477580)) := by
  obtain ⟨m, h1, h2⟩ := C02_large_corrupted_partial 922337203685477581 (by decide)
  rw [h1, h2]
  have : (wrap64 (10 * 922337203685477581)).tdiv 10 = -922337203685477580 := by decide
  rw [this]

/-! ## C03 -/

/-- C03: `Parse` accepts exactly the documents that start with a derivation of the value. -/
theorem C03_grammar (data : Bytes) (v : Bencode) :
    parse data = .ok v ↔ ∃ b r, data = b ++ r ∧ Denotes b v := by
  constructor
  · exact parse_sound
  · rintro ⟨b, r, rfl, h⟩
    exact parse_complete h r

/-- C03: derivations are unambiguous: the prefix and its value are unique. -/
theorem C03_unique (b b' r r' : Bytes) (v v' : Bencode) (h : Denotes b v) (h' : Denotes b' v')
    (e : b ++ r = b' ++ r') : b = b' ∧ v = v' := Denotes_unique h h' e

/-- C03: the scanner stops exactly at the end of the derivation. -/
theorem C03_consumed (data : Bytes) (v : Bencode) (s : Scanner)
    (h : parseWith (parseFuel data) data = .ok (v, s)) :
    ∃ b r, data = b ++ r ∧ Denotes b v ∧ s.current = b.length := parseWith_ok h

/-- In the grammar numbers are ordinary decimal numbers up to 922337203685477580. -/
theorem C03_numbers (ds : Bytes) (h : decimal ds ≤ maxNumber) : machineNumber ds = decimal ds :=
  machineNumber_of_le ds h

/-- `d1:al0:i7eee` followed by rubbish. -/
example : parse (ascii "d1:ai7eezz") = .ok (.dict true [(ascii "a", .int 7)] (ascii "d1:ai7ee")) := by
  have h1 : Denotes (ascii "1:a") (.str (ascii "a")) :=
    .str (ascii "1") (ascii "a") (isDigits_of_all (by decide)) (by decide)
  have h2 : Denotes (ascii "i7e") (.int 7) :=
    denotes_int (ds := ascii "7") (isDigits_of_all (by decide)) (by decide)
  have h3 := DenotesEntries.cons _ _ _ _ _ _ h1 h2 .nil
  exact (C03_grammar _ _).2 ⟨_, ascii "zz", rfl, .dict _ _ h3⟩

/-! ## C04 -/

/-- C04, exact: `Parse` panics precisely on the inputs `Crashes` describes. -/
theorem C04_panic_iff_partial (data : Bytes) : (∃ w, parse data = .panic w) ↔ Crashes data :=
  ⟨fun ⟨_, h⟩ => parse_panic h, fun h => ⟨_, crash_parse h⟩⟩

/-- C04 as stated is false: `922337203685477581:` makes `Parse` panic. -/
theorem C04_no_panic_violated : ¬ ∀ data w, parse data ≠ .panic w := by
  intro h
  refine h (ascii "922337203685477581:") _ (crash_parse (.len ⟨ascii "922337203685477581", [], rfl, ?_, ?_⟩))
  · exact isDigits_of_all (by decide)
  · decide

theorem crashes_digits {data : Bytes} (h : Crashes data) :
    ∃ pre ds post, data = pre ++ (ds ++ 58 :: post) ∧ IsDigits ds ∧ machineNumber ds < 0 := by
  induction h with
  | len h => obtain ⟨ds, r, rfl, h1, h2⟩ := h; exact ⟨[], ds, r, rfl, h1, h2⟩
  | list p vs x _ _ ih =>
    obtain ⟨pre, ds, post, rfl, h1, h2⟩ := ih
    exact ⟨108 :: p ++ pre, ds, post, by simp, h1, h2⟩
  | key p es x _ h =>
    obtain ⟨ds, r, rfl, h1, h2⟩ := h; exact ⟨100 :: p, ds, r, by simp, h1, h2⟩
  | val p es kb k x _ _ _ ih =>
    obtain ⟨pre, ds, post, rfl, h1, h2⟩ := ih
    exact ⟨100 :: p ++ kb ++ pre, ds, post, by simp, h1, h2⟩

/-- C04, usable form: no panic if no run of digits in front of a ':' denotes more than 922337203685477580
(in particular if no such run is longer than 17 digits). -/
theorem C04_no_panic_partial (data : Bytes)
    (h : ∀ pre ds post, data = pre ++ (ds ++ 58 :: post) → IsDigits ds → decimal ds ≤ maxNumber) (w : String) :
    parse data ≠ .panic w := by
  intro hp
  obtain ⟨pre, ds, post, e, hd, hn⟩ := crashes_digits (parse_panic hp)
  have := machineNumber_of_le ds (h _ _ _ e hd)
  omega

example : ∀ w, parse (ascii "3:ab") ≠ .panic w := by
  refine C04_no_panic_partial _ ?_
  intro pre ds post e hd
  have hl := congrArg List.length e
  simp [ascii] at hl
  rcases ds with _ | ⟨a, _ | ⟨b, ds⟩⟩
  · decide
  · have := hd a (by simp)
    simp only [decimal, List.foldl_cons, List.foldl_nil, maxNumber]; omega
  · exfalso
    rcases pre with _ | ⟨x, _ | ⟨y, pre⟩⟩
    · have := hd b (by simp)
      simp [ascii] at e; rw [← e.2.1] at this; simp at this
    · simp [ascii] at e
      rcases ds with _ | ⟨c, ds⟩
      · simp at e
      · simp at hl; omega
    · simp at hl; omega

/-! ## C05 -/

/-- C05: the parser never runs out of fuel, where one unit of fuel is spent per nested call and per loop
iteration on the call path and `3 * length + 4` units are supplied. -/
theorem C05_terminates (data : Bytes) : parse data ≠ .outOfFuel := parse_not_fuel data

/-- C05: the bound is not part of the result: any larger amount of fuel gives the same answer. -/
theorem C05_fuel_irrelevant (data : Bytes) (f : Nat) (hf : parseFuel data ≤ f) :
    ((parseWith f data).bind fun (v, _) => .ok v) = parse data := by
  have key : ∀ g, ((parseWith g data).bind fun (v, _) => .ok v) =
      if data = [] then .err "bencode: no data" else (pNext g data).bind fun (v, _) => .ok v := by
    intro g
    cases data with
    | nil => simp [parseWith, Scanner.new, Scanner.isFinished, PRes.bind]
    | cons b bs =>
      have hat : At (b :: bs) (Scanner.new (b :: bs)) (b :: bs) := by
        constructor <;> simp [Scanner.new]
      have hff : (Scanner.new (b :: bs)).isFinished = false := by
        simp [Scanner.new, Scanner.isFinished]
      have := (parser_corr (b :: bs) g).1 _ _ hat
      simp only [parseWith, hff, Bool.false_eq_true, if_false]
      rw [if_neg (by simp)]
      revert this
      generalize Scanner.next g (Scanner.new (b :: bs)) = x
      generalize pNext g (b :: bs) = y
      intro h
      cases x <;> cases y <;> simp_all [Corr, PRes.bind]
  rw [key, parse_eq]
  split
  · rfl
  · rw [pNext_mono _ hf]
    exact (nofuel_aux _).1 _ (by simp only [parseFuel]; omega)

/-! ## C06 -/

/-- C06: `Raw()` of any list or dictionary in a parsed value is a contiguous piece of the input, and
parsing it gives that same element. -/
theorem C06_raw (data : Bytes) (v x : Bencode) (h : parse data = .ok v) (hs : Sub x v) (hc : IsContainer x) :
    (∃ pre post, data = pre ++ (x.rawBytes ++ post)) ∧ parse x.rawBytes = .ok x := by
  obtain ⟨b, r, rfl, hd⟩ := parse_sound h
  obtain ⟨pre, xb, post, rfl, hx⟩ := sub_denotes hs hd
  have hr : x.rawBytes = xb := by
    cases hx with
    | int => simp [IsContainer] at hc
    | str => simp [IsContainer] at hc
    | list => rfl
    | dict => rfl
  rw [hr]
  refine ⟨⟨pre, post ++ r, by simp⟩, ?_⟩
  have := parse_complete hx []
  simpa using this

/-- C06 for the elements that keep no source text: `Raw()` of a string in a parsed value is its content, which stands in the input
after its length and a colon, and `Raw()` of an integer is its decimal text. -/
theorem C06_atoms (data : Bytes) (v x : Bencode) (h : parse data = .ok v) (hs : Sub x v) :
    (∀ s, x = .str s → ∃ pre ds post, data = pre ++ (ds ++ 58 :: x.rawBytes ++ post) ∧ IsDigits ds ∧ parse (ds ++ 58 :: x.rawBytes) = .ok x) ∧
    (∀ n, x = .int n → 0 ≤ n → IsDigits x.rawBytes ∧ decimal x.rawBytes = n) ∧
    (∀ n, x = .int n → n < 0 → ∃ ds, x.rawBytes = 45 :: ds ∧ IsDigits ds ∧ -(decimal ds : Int) = n) := by
  obtain ⟨b, r, rfl, hd⟩ := parse_sound h
  obtain ⟨pre, xb, post, rfl, hx⟩ := sub_denotes hs hd
  refine ⟨?_, ?_, ?_⟩
  · rintro s rfl
    cases hx with
    | str ds s h1 h2 =>
      refine ⟨pre, ds, post ++ r, by simp [Bencode.rawBytes], h1, ?_⟩
      have := parse_complete (.str ds s h1 h2) []
      simpa [Bencode.rawBytes] using this
  · rintro n rfl h0
    obtain ⟨g1, g2⟩ := natDigits_spec n.toNat
    simp only [Bencode.rawBytes, itoa_nonneg n h0]
    exact ⟨g1, by rw [g2]; omega⟩
  · rintro n rfl h0
    obtain ⟨g1, g2⟩ := natDigits_spec n.natAbs
    exact ⟨natDigits n.natAbs, itoa_neg_head h0, g1, by rw [g2]; omega⟩

/-- the string of `l2:abe`, and the integer 5 -/
example : (∃ v, parse (ascii "l2:abe") = .ok v ∧ Sub (.str (ascii "ab")) v) ∧ ∃ v, parse (ascii "i5e") = .ok v ∧ Sub (.int 5) v := by
  have h1 : Denotes (ascii "2:ab") (.str (ascii "ab")) := .str (ascii "2") (ascii "ab") (isDigits_of_all (by decide)) (by decide)
  have h2 : Denotes (ascii "i5e") (.int 5) := denotes_int (ds := ascii "5") (isDigits_of_all (by decide)) (by decide)
  exact ⟨⟨_, (C03_grammar _ _).2 ⟨_, [], by simp [ascii], .list _ _ (.cons _ _ _ _ h1 .nil)⟩, .list _ _ (by simp) (.refl _)⟩,
    _, (C03_grammar _ _).2 ⟨_, [], by simp, h2⟩, .refl _⟩

/-- the inner list of `d1:alee` -/
example : ∃ v, parse (ascii "d1:aleez") = .ok v ∧ Sub (.list true [] (ascii "le")) v := by
  have h1 : Denotes (ascii "1:a") (.str (ascii "a")) :=
    .str (ascii "1") (ascii "a") (isDigits_of_all (by decide)) (by decide)
  have h2 : Denotes (ascii "le") (.list true [] (ascii "le")) := .list [] [] .nil
  have h3 := DenotesEntries.cons _ _ _ _ _ _ h1 h2 .nil
  exact ⟨_, (C03_grammar _ _).2 ⟨_, ascii "z", rfl, .dict _ _ h3⟩,
    .dict _ _ (k := ascii "a") (by simp [mapOf, distinct, lastValue]) (.refl _)⟩

/-! ## C07, C08 -/

/-- C07: every strict prefix of a complete document is rejected with an error. -/
theorem C07_truncation (doc : Bytes) (v : Bencode) (hd : Denotes doc v) (p q : Bytes) (e : doc = p ++ q)
    (hq : q ≠ []) : ∃ msg, parse p = .err msg := by
  have hfull : parse (p ++ q) = .ok v := by
    have := parse_complete hd []
    rw [← e]; simpa using this
  match hp : parse p with
  | .err m => exact ⟨m, rfl⟩
  | .outOfFuel => exact absurd hp (parse_not_fuel p)
  | .panic w =>
    have := crash_parse ((parse_panic hp).append q)
    rw [hfull] at this; simp at this
  | .ok v' =>
    exfalso
    obtain ⟨b, r, hb, hd'⟩ := parse_sound hp
    have : doc ++ [] = b ++ (r ++ q) := by rw [e, hb]; simp
    obtain ⟨h1, _⟩ := Denotes_unique hd hd' this
    have hl := congrArg List.length e
    rw [h1, hb] at hl
    simp only [List.length_append] at hl
    exact hq (List.length_eq_zero_iff.1 (by omega))

/-- C07 in terms of the API only: "accepts and consumes all of it" read off the scanner. -/
theorem C07_truncation_api (doc : Bytes) (v : Bencode) (s : Scanner)
    (h : parseWith (parseFuel doc) doc = .ok (v, s)) (hall : s.current = doc.length)
    (p q : Bytes) (e : doc = p ++ q) (hq : q ≠ []) : ∃ msg, parse p = .err msg := by
  obtain ⟨b, r, hb, hd, hc⟩ := parseWith_ok h
  have hr : r = [] := by
    have := congrArg List.length hb
    rw [List.length_append] at this
    exact List.length_eq_zero_iff.1 (by omega)
  subst hr
  rw [List.append_nil] at hb
  subst hb
  exact C07_truncation doc v hd p q e hq

example : ∃ msg, parse (ascii "li5") = .err msg :=
  C07_truncation (ascii "li5ee") (.list true [.int 5] (ascii "li5ee"))
    (.list (ascii "i5e") _ (.cons _ _ _ _
      (denotes_int (ds := ascii "5") (isDigits_of_all (by decide)) (by decide)) .nil))
    _ (ascii "ee") rfl (by simp [ascii])

/-- C08: what follows the first element does not matter. -/
theorem C08_trailing (data r : Bytes) (v : Bencode) (h : parse data = .ok v) : parse (data ++ r) = .ok v := by
  obtain ⟨b, r', rfl, hd⟩ := parse_sound h
  rw [List.append_assoc]
  exact parse_complete hd _

/-! ## C09 -/

/-- C09: for any dictionary inside a parsed value, `Value(k)` is the value of the last occurrence of `k` in
the source text, nil exactly when `k` does not occur. -/
theorem C09_last_wins (data : Bytes) (v : Bencode) (h : parse data = .ok v) (ptr : Bool)
    (kvs : List (Bytes × Bencode)) (raw : Bytes) (hs : Sub (.dict ptr kvs raw) v) :
    (∃ pre post, data = pre ++ (raw ++ post)) ∧
    ∃ body es, raw = 100 :: body ++ [101] ∧ DenotesEntries body es ∧
      (∀ k, lookupKey k kvs = lastValue k es) ∧
      (∀ k, lookupKey k kvs = .nil ↔ k ∉ es.map Prod.fst) ∧
      (kvs.map Prod.fst).Nodup := by
  refine ⟨(C06_raw data v _ h hs trivial).1, ?_⟩
  obtain ⟨b, r, rfl, hd⟩ := parse_sound h
  obtain ⟨pre, xb, post, rfl, hx⟩ := sub_denotes hs hd
  cases hx with
  | dict body es hes =>
    refine ⟨body, es, rfl, hes, fun k => lookup_mapOf k es, fun k => ?_, mapOf_keys es⟩
    rw [lookup_mapOf]
    exact lastValue_nil_iff hes k

example : lastValue (ascii "a") [(ascii "a", .int 1), (ascii "b", .int 2), (ascii "a", .int 3)] = .int 3 := rfl

/-- Non-vacuity: a document with a duplicate key. -/
example : ∃ v, parse (ascii "d1:ai1e1:ai3ee") = .ok v ∧ ∃ kvs raw, v = .dict true kvs raw ∧
    lookupKey (ascii "a") kvs = .int 3 := by
  have hk : Denotes (ascii "1:a") (.str (ascii "a")) :=
    .str (ascii "1") (ascii "a") (isDigits_of_all (by decide)) (by decide)
  have h1 : Denotes (ascii "i1e") (.int 1) :=
    denotes_int (ds := ascii "1") (isDigits_of_all (by decide)) (by decide)
  have h3 : Denotes (ascii "i3e") (.int 3) :=
    denotes_int (ds := ascii "3") (isDigits_of_all (by decide)) (by decide)
  have := DenotesEntries.cons _ _ _ _ _ _ hk h1 (.cons _ _ _ _ _ _ hk h3 .nil)
  exact ⟨_, (C03_grammar _ _).2 ⟨_, [], by simp [ascii], .dict _ _ this⟩, _, _, rfl, rfl⟩

/-! ## C11 -/

theorem same_text {v w : Bencode} (h : Same v w) (hv : ¬ IsContainer v) (t : Bytes) :
    prettyPrint v t = prettyPrint w t := by
  cases h <;> simp_all [IsContainer, prettyPrint]

theorem sameSeq_text {vs ws : List Bencode} (t : Bytes) (hv : ∀ v ∈ vs, ¬ IsContainer v) (h : SameSeq vs ws) :
    prettyList vs t = prettyList ws t := by
  induction vs generalizing ws with
  | nil => cases h; rfl
  | cons v vs ih =>
    have ih' := fun ws h => ih (ws := ws) (fun v hm => hv v (List.mem_cons_of_mem _ hm)) h
    cases h with
    | skip h => simp only [prettyList]; exact ih' _ h
    | cons h1 h2 =>
      rename_i w ws
      have hw : w ≠ .nil := by cases h1 <;> simp
      rw [prettyList.eq_3 _ _ _ h1.ne_nil, prettyList.eq_3 _ _ _ hw,
        same_text h1 (hv v List.mem_cons_self), ih' _ h2]

theorem sameEntries_text {vs ws : List (Bytes × Bencode)} (t : Bytes) (hv : ∀ v ∈ vs, ¬ IsContainer v.2)
    (h : SameEntries vs ws) : prettyEntries vs t = prettyEntries ws t := by
  induction vs generalizing ws with
  | nil => cases h; rfl
  | cons v vs ih =>
    have ih' := fun ws h => ih (ws := ws) (fun v hm => hv v (List.mem_cons_of_mem _ hm)) h
    cases h with
    | skip h => simp only [prettyEntries]; exact ih' _ h
    | cons h1 h2 =>
      rename_i w ws
      have hw : w ≠ .nil := by cases h1 <;> simp
      rw [prettyEntries.eq_3 _ _ _ _ h1.ne_nil, prettyEntries.eq_3 _ _ _ _ hw,
        same_text h1 (hv _ List.mem_cons_self), ih' _ h2]

/-- C11, partial: for values without nested containers the text is the same. Missing: nested containers, for
which the property is false (`C11_text_violated`). -/
theorem C11_text_partial (v w : Bencode) (hv : v ≠ .nil) (he : Encodable v) (hf : Flat v)
    (h : parse v.encode = .ok w) : w.toText = v.toText := by
  obtain ⟨w', h1, h2, _⟩ := C01_encode_parse v hv he
  rw [h] at h1; cases h1
  cases h2 with
  | int => rfl
  | str => rfl
  | list h' => simp only [Bencode.toText, prettyPrint, sameSeq_text _ hf h']; simp
  | dict h' => simp only [Bencode.toText, prettyPrint, sameEntries_text _ hf h']; simp

/-- C11 as stated is false: `[[1]]` built with `List` and the same value parsed print differently. -/
theorem C11_text_violated :
    ¬ ∀ v w : Bencode, v ≠ .nil → Encodable v → parse v.encode = .ok w → w.toText = v.toText := by
  intro hall
  have hd1 : Denotes (ascii "i1e") (.int 1) :=
    denotes_int (ds := ascii "1") (isDigits_of_all (by decide)) (by decide)
  have hd2 := Denotes.list _ _ (.cons _ _ _ _ (Denotes.list _ _ (.cons _ _ _ _ hd1 .nil)) .nil)
  have hp := parse_complete hd2 []
  have henc : (Bencode.list false [.list false [.int 1] []] []).encode = ascii "lli1eee" := by
    simp [Bencode.encode, encodeList, itoa, natDigits, ascii]
  have hE : Encodable (Bencode.list false [.list false [.int 1] []] []) := by
    intro x hx
    cases hx with
    | refl => trivial
    | list _ _ hm hs =>
      simp only [List.mem_cons, List.not_mem_nil, or_false] at hm; subst hm
      cases hs with
      | refl => trivial
      | list _ _ hm hs =>
        simp only [List.mem_cons, List.not_mem_nil, or_false] at hm; subst hm
        cases hs; simp [EncodableHead, maxNumber]
  have := hall _ _ (by simp) hE (by rw [henc]; simpa [ascii] using hp)
  simp [Bencode.toText, prettyPrint, prettyList, newLine, itoa, natDigits] at this

/-- Non-vacuity of the partial theorem. -/
example : ∃ w, parse (Bencode.list false [.int 1, .nil] []).encode = .ok w ∧
    w.toText = (Bencode.list false [.int 1, .nil] []).toText := by
  have hE : Encodable (Bencode.list false [.int 1, .nil] []) := by
    intro x hx
    cases hx with
    | refl => trivial
    | list _ _ hm hs =>
      simp only [List.mem_cons, List.not_mem_nil, or_false] at hm
      rcases hm with rfl | rfl <;> cases hs <;> simp [EncodableHead, maxNumber]
  obtain ⟨w, h1, _⟩ := C01_encode_parse _ (by simp) hE
  exact ⟨w, h1, C11_text_partial _ _ (by simp) hE (by simp [Flat, IsContainer]) h1⟩

end Gotit.Props
