import Verif.Spec.Describe
import Verif.Lemmas.Query
import Verif.Props.StatusLine
import Verif.Props.Open
/-
  C104: the description of a torrent. C105, C106: what the commands say.
-/
namespace Gotit.Props
open Gotit Spec

/-! ### base64 -/

theorem sextet_char : ∀ n, n < 64 → sextet (base64Char n) = some n ∧ base64Char n ≠ 61 ∧ base64Char n ≠ 10 := by decide +kernel

theorem base64Char_mod (n : Nat) : base64Char n = base64Char (n % 64) := by simp [base64Char]

theorem sextet_char' (n : Nat) : sextet (base64Char n) = some (n % 64) ∧ base64Char n ≠ 61 ∧ base64Char n ≠ 10 := by
  rw [base64Char_mod]; exact sextet_char _ (Nat.mod_lt _ (by omega))

theorem ofNat_eq {n : Nat} {a : UInt8} (h : n = a.toNat) : UInt8.ofNat n = a := by subst h; simp

/-- Encoding, then decoding. -/
theorem base64_decode : ∀ b : Bytes, base64Decode (base64Url b) = some b
  | [] => rfl
  | [a] => by
    have ha := a.toNat_lt
    simp only [base64Url, base64Decode, (sextet_char' _).1]
    rw [if_pos trivial, if_pos ⟨trivial, trivial⟩, ofNat_eq (a := a) (by omega)]
  | [a, b] => by
    have ha := a.toNat_lt
    have hb := b.toNat_lt
    simp only [base64Url, base64Decode, (sextet_char' _).1, if_neg (sextet_char' _).2.1]
    rw [if_pos trivial, if_pos trivial, ofNat_eq (a := a) (by omega), ofNat_eq (a := b) (by omega)]
  | a :: b :: c :: rest => by
    have ha := a.toNat_lt
    have hb := b.toNat_lt
    have hc := c.toNat_lt
    simp only [base64Url, base64Decode, (sextet_char' _).1, if_neg (sextet_char' _).2.1, base64_decode rest]
    rw [Option.map_some, ofNat_eq (a := a) (by omega), ofNat_eq (a := b) (by omega), ofNat_eq (a := c) (by omega)]

theorem base64_oneLine : ∀ b : Bytes, OneLine (base64Url b)
  | [] => by simp [base64Url, OneLine]
  | [a] => by
    intro c hc
    simp only [base64Url, List.mem_cons, List.not_mem_nil, or_false] at hc
    rcases hc with rfl | rfl | rfl | rfl
    · exact (sextet_char' _).2.2
    · exact (sextet_char' _).2.2
    · decide
    · decide
  | [a, b] => by
    intro c hc
    simp only [base64Url, List.mem_cons, List.not_mem_nil, or_false] at hc
    rcases hc with rfl | rfl | rfl | rfl
    · exact (sextet_char' _).2.2
    · exact (sextet_char' _).2.2
    · exact (sextet_char' _).2.2
    · decide
  | a :: b :: c :: rest => by
    intro x hx
    simp only [base64Url, List.mem_cons] at hx
    rcases hx with rfl | rfl | rfl | rfl | hx
    · exact (sextet_char' _).2.2
    · exact (sextet_char' _).2.2
    · exact (sextet_char' _).2.2
    · exact (sextet_char' _).2.2
    · exact base64_oneLine rest x hx

/-! ### Lines -/

/-- Lines, each with its line break. -/
def unlines (ls : List Bytes) : Bytes := (ls.map (· ++ [10])).flatten

theorem unlines_append (a b : List Bytes) : unlines (a ++ b) = unlines a ++ unlines b := by simp [unlines]

theorem splitAt_unlines : ∀ (ls : List Bytes), (∀ l ∈ ls, OneLine l) → splitAt 10 (unlines ls) = ls ++ [[]]
  | [], _ => rfl
  | l :: ls, h => by
    have : unlines (l :: ls) = l ++ 10 :: unlines ls := by simp [unlines]
    rw [this, splitAt_append 10 l _ (h l (by simp)), splitAt_unlines ls (fun x hx => h x (by simp [hx]))]
    rfl

/-- The line of one value. -/
def valueLine (name value : Bytes) (ident : Nat) : List Bytes := if value ≠ [] then [tabs ident ++ name ++ ascii ": " ++ value] else []

/-- The lines of a list. -/
def listLines (name : Bytes) (items : List Bytes) (ident : Nat) : List Bytes :=
  if items.length ≠ 0 then (tabs ident ++ name ++ ascii ": [") :: items.map (tabs (ident + 1) ++ ·) ++ [tabs ident ++ ascii "]"] else []

theorem printString_lines (name value : Bytes) (ident : Nat) : printString name value ident = unlines (valueLine name value ident) := by
  unfold printString valueLine
  split <;> simp [unlines]

theorem itoa_ne_nil (n : Int) : itoa n ≠ [] := by
  unfold itoa; split
  · simp
  · exact natDigits_ne_nil _

theorem printInt_lines (name : Bytes) (n : Int) (ident : Nat) :
    printInt name n ident = unlines (valueLine name (if n = 0 then [] else itoa n) ident) := by
  unfold printInt valueLine
  by_cases h : n = 0
  · simp [h, unlines]
  · simp [h, itoa_ne_nil, unlines]

theorem printList_lines {α : Type} (name : Bytes) (item : α → Bytes) (vs : List α) (ident : Nat) :
    printList name item vs ident = unlines (listLines name (vs.map item) ident) := by
  unfold printList listLines
  rw [List.length_map]
  split
  · have e1 : ascii ": [\n" = ascii ": [" ++ [10] := by decide
    have e2 : ascii "]\n" = ascii "]" ++ [10] := by decide
    rw [e1, e2]
    simp [unlines, List.map_map, Function.comp_def]
  · simp [unlines]

/-- The lines of the description: those about the info dictionary, and the others. -/
def infoLines (m : MetaText) : List Bytes :=
  [ascii "{", ascii "\tinfo: {"] ++ (valueLine (ascii "name") m.info.name 2 ++ (valueLine (ascii "length") (byteSize (toUint64 m.info.infoLength)) 2 ++
  (valueLine (ascii "piece-length") (if m.info.pieceLength = 0 then [] else itoa m.info.pieceLength) 2 ++
  listLines (ascii "files") (m.info.files.map fun f => describeFile f ++ [44]) 2)))

def outerLines (sha1 : Bytes → Bytes) (date : Int → Bytes) (m : MetaText) : List Bytes :=
  valueLine (ascii "comment") m.comment 1 ++ (valueLine (ascii "created-by") m.createdBy 1 ++
  (valueLine (ascii "creation-date") (date m.creationDate) 1 ++ (valueLine (ascii "announce") m.info.announce 1 ++
  (listLines (ascii "announce-list") (m.info.announceList.map bracketed) 1 ++
  (listLines (ascii "url-list") (m.info.urlList.map fun s => s ++ [44]) 1 ++
  (valueLine (ascii "(calculated) info-hash") (base64Url (sha1 m.info.infoDictRaw)) 1 ++ [ascii "}"]))))))

theorem describe_lines (sha1 : Bytes → Bytes) (date : Int → Bytes) (m : MetaText) :
    describe sha1 date m = unlines (infoLines m ++ ascii "\t}" :: outerLines sha1 date m) := by
  unfold describe infoLines outerLines
  rw [show ascii "\t}" :: (valueLine (ascii "comment") m.comment 1 ++ (valueLine (ascii "created-by") m.createdBy 1 ++
  (valueLine (ascii "creation-date") (date m.creationDate) 1 ++ (valueLine (ascii "announce") m.info.announce 1 ++
  (listLines (ascii "announce-list") (m.info.announceList.map bracketed) 1 ++
  (listLines (ascii "url-list") (m.info.urlList.map fun s => s ++ [44]) 1 ++
  (valueLine (ascii "(calculated) info-hash") (base64Url (sha1 m.info.infoDictRaw)) 1 ++ [ascii "}"])))))) ) = [ascii "\t}"] ++ (valueLine (ascii "comment") m.comment 1 ++ (valueLine (ascii "created-by") m.createdBy 1 ++
  (valueLine (ascii "creation-date") (date m.creationDate) 1 ++ (valueLine (ascii "announce") m.info.announce 1 ++
  (listLines (ascii "announce-list") (m.info.announceList.map bracketed) 1 ++
  (listLines (ascii "url-list") (m.info.urlList.map fun s => s ++ [44]) 1 ++
  (valueLine (ascii "(calculated) info-hash") (base64Url (sha1 m.info.infoDictRaw)) 1 ++ [ascii "}"])))))) ) from rfl]
  simp only [unlines_append, printString_lines, printInt_lines, printList_lines]
  have e1 : unlines [ascii "{", ascii "\tinfo: {"] = ascii "{\n" ++ ascii "\tinfo: {\n" := by decide
  have e2 : unlines [ascii "\t}"] = ascii "\t}\n" := by decide
  have e3 : unlines [ascii "}"] = ascii "}\n" := by decide
  rw [e1, e2, e3]
  simp only [List.append_assoc]

/-! ### Line breaks -/

theorem oneLine_append {a b : Bytes} (ha : OneLine a) (hb : OneLine b) : OneLine (a ++ b) := by
  intro c hc
  rcases List.mem_append.1 hc with h | h
  · exact ha c h
  · exact hb c h

theorem oneLine_tabs (n : Nat) : OneLine (tabs n) := by
  intro c hc
  rw [List.eq_of_mem_replicate hc]; decide

theorem oneLine_digits {b : Bytes} (h : IsDigits b) : OneLine b := by
  intro c hc e
  have := (h c hc).1
  subst e; simp at this

theorem oneLine_tenths {b : Bytes} {n : Nat} (h : TenthsText b n) : OneLine b := by
  cases h with
  | whole _ hd _ => exact oneLine_digits hd
  | tenth ds d hd _ h1 =>
    refine oneLine_append (oneLine_digits hd) ?_
    intro c hc
    simp at hc
    rcases hc with rfl | rfl
    · decide
    · exact oneLine_digits h1 c (by simp)

theorem oneLine_size {s : Bytes} {m k : Nat} (h : SizeText s m k) : OneLine s := by
  obtain ⟨num, letter, rfl, ht, hl⟩ := h
  refine oneLine_append (oneLine_tenths ht) ?_
  intro c hc
  simp at hc; subst hc
  intro e; subst e
  revert hl; simp [unitPower]

theorem oneLine_byteSize (n : Nat) : OneLine (byteSize n) := by
  by_cases h : n = 0
  · subst h
    intro c hc
    simp [byteSize] at hc
    rcases hc with rfl | rfl <;> decide
  · exact oneLine_size (byteSize_reads n h)

theorem byteSize_ne_nil (n : Nat) : byteSize n ≠ [] := by
  unfold byteSize; split <;> simp

theorem oneLine_itoa (n : Int) : OneLine (itoa n) := by
  unfold itoa; split
  · intro c hc
    rcases List.mem_cons.1 hc with rfl | h
    · decide
    · exact oneLine_digits (natDigits_spec _).1 c h
  · exact oneLine_digits (natDigits_spec _).1

theorem oneLine_ascii {s : String} (h : (ascii s).all (· ≠ 10) = true) : OneLine (ascii s) := by
  intro c hc
  have := List.all_eq_true.1 h c hc
  simpa using this

theorem joinSlash_eq : ∀ l : List Bytes, joinSlash l = List.intercalate [47] l
  | [] => rfl
  | [c] => by simp [joinSlash, List.intercalate]
  | c :: d :: l => by
    rw [joinSlash, joinSlash_eq (d :: l)]
    · simp [List.intercalate, List.intersperse, slash]
    · simp

theorem oneLine_intercalate (c : UInt8) (hc : c ≠ 10) : ∀ l : List Bytes, (∀ x ∈ l, OneLine x) → OneLine (List.intercalate [c] l)
  | [], _ => by simp [List.intercalate, OneLine]
  | [x], h => by simpa [List.intercalate] using h x (by simp)
  | x :: y :: l, h => by
    have := oneLine_intercalate c hc (y :: l) (fun z hz => h z (by simp [hz]))
    have e : List.intercalate [c] (x :: y :: l) = x ++ ([c] ++ List.intercalate [c] (y :: l)) := by simp [List.intercalate, List.intersperse]
    rw [e]
    exact oneLine_append (h x (by simp)) (oneLine_append (by intro d hd; simp at hd; subst hd; exact hc) this)

theorem valueLine_oneLine {name value : Bytes} {ident : Nat} (hn : OneLine name) (hv : OneLine value) : ∀ l ∈ valueLine name value ident, OneLine l := by
  intro l hl
  unfold valueLine at hl
  split at hl
  · simp only [List.mem_singleton] at hl
    subst hl
    exact oneLine_append (oneLine_append (oneLine_append (oneLine_tabs _) hn) (oneLine_ascii (by decide))) hv
  · simp at hl

theorem listLines_oneLine {name : Bytes} {items : List Bytes} {ident : Nat} (hn : OneLine name) (hv : ∀ x ∈ items, OneLine x) :
    ∀ l ∈ listLines name items ident, OneLine l := by
  intro l hl
  unfold listLines at hl
  split at hl
  · simp only [List.cons_append, List.mem_cons, List.mem_append, List.mem_map, List.not_mem_nil, or_false] at hl
    rcases hl with rfl | ⟨x, hx, rfl⟩ | rfl
    · exact oneLine_append (oneLine_append (oneLine_tabs _) hn) (oneLine_ascii (by decide))
    · exact oneLine_append (oneLine_tabs _) (hv x hx)
    · exact oneLine_append (oneLine_tabs _) (oneLine_ascii (by decide))
  · simp at hl

theorem forall_append {P : Bytes → Prop} {a b : List Bytes} (ha : ∀ l ∈ a, P l) (hb : ∀ l ∈ b, P l) : ∀ l ∈ a ++ b, P l := by
  intro l hl
  rcases List.mem_append.1 hl with h | h
  · exact ha l h
  · exact hb l h

theorem lines_oneLine {sha1 : Bytes → Bytes} {date : Int → Bytes} {m : MetaText} (h : Tidy date m) :
    ∀ l ∈ infoLines m ++ ascii "\t}" :: outerLines sha1 date m, OneLine l := by
  obtain ⟨h1, h2, h3, h4, h5, h6, h7, h8⟩ := h
  refine forall_append (forall_append ?_ (forall_append (valueLine_oneLine (oneLine_ascii (by decide)) h1)
    (forall_append (valueLine_oneLine (oneLine_ascii (by decide)) (oneLine_byteSize _)) (forall_append (valueLine_oneLine (oneLine_ascii (by decide)) ?_)
      (listLines_oneLine (oneLine_ascii (by decide)) ?_))))) (show ∀ l ∈ [ascii "\t}"] ++ _, OneLine l from
    forall_append ?_ (forall_append (valueLine_oneLine (oneLine_ascii (by decide)) h2)
      (forall_append (valueLine_oneLine (oneLine_ascii (by decide)) h3) (forall_append (valueLine_oneLine (oneLine_ascii (by decide)) h4)
        (forall_append (valueLine_oneLine (oneLine_ascii (by decide)) h5) (forall_append (listLines_oneLine (oneLine_ascii (by decide)) ?_)
          (forall_append (listLines_oneLine (oneLine_ascii (by decide)) ?_)
            (forall_append (valueLine_oneLine (oneLine_ascii (by decide)) (base64_oneLine _)) ?_))))))))
  · intro l hl; simp only [List.mem_cons, List.not_mem_nil, or_false] at hl
    rcases hl with rfl | rfl <;> exact oneLine_ascii (by decide)
  · split
    · simp [OneLine]
    · exact oneLine_itoa _
  · intro x hx
    obtain ⟨f, hf, rfl⟩ := List.mem_map.1 hx
    refine oneLine_append ?_ (by simp [OneLine])
    unfold describeFile
    rw [joinSlash_eq]
    exact oneLine_append (oneLine_append (oneLine_append (oneLine_append (oneLine_ascii (by decide))
      (oneLine_intercalate 47 (by decide) _ (h6 f hf))) (oneLine_ascii (by decide))) (oneLine_byteSize _)) (oneLine_ascii (by decide))
  · intro l hl; simp only [List.mem_cons, List.not_mem_nil, or_false] at hl
    subst hl; exact oneLine_ascii (by decide)
  · intro x hx
    obtain ⟨t, ht, rfl⟩ := List.mem_map.1 hx
    exact oneLine_append (oneLine_append (oneLine_ascii (by decide)) (oneLine_intercalate 32 (by decide) _ (h7 t ht))) (oneLine_ascii (by decide))
  · intro x hx
    obtain ⟨u, hu, rfl⟩ := List.mem_map.1 hx
    exact oneLine_append (h8 u hu) (by simp [OneLine])
  · intro l hl; simp only [List.mem_cons, List.not_mem_nil, or_false] at hl
    subst hl; exact oneLine_ascii (by decide)

/-! ### Looking for a key -/

/-- `key` is not the beginning of any line of a value / of a list. -/
theorem find_skip {key name : Bytes} {ident : Nat} (value : Bytes) (rest : List Bytes)
    (h : ∀ v, afterPrefix key (tabs ident ++ name ++ ascii ": " ++ v) = none) :
    (valueLine name value ident ++ rest).findSome? (afterPrefix key) = rest.findSome? (afterPrefix key) := by
  unfold valueLine
  split
  · rw [List.singleton_append, List.findSome?_cons, h]
  · rfl

theorem find_hit {key name : Bytes} {ident : Nat} (value : Bytes) (rest : List Bytes)
    (h : ∀ v, afterPrefix key (tabs ident ++ name ++ ascii ": " ++ v) = some v) (hr : rest.findSome? (afterPrefix key) = none) :
    ((valueLine name value ident ++ rest).findSome? (afterPrefix key)).getD [] = value := by
  unfold valueLine
  split
  · rw [List.singleton_append, List.findSome?_cons, h]; rfl
  · rename_i hv
    rw [List.nil_append, hr]
    simp at hv; simp [hv]

theorem find_skip_list {key name : Bytes} {ident : Nat} (items : List Bytes) (rest : List Bytes)
    (h1 : afterPrefix key (tabs ident ++ name ++ ascii ": [") = none) (h2 : ∀ v, afterPrefix key (tabs (ident + 1) ++ v) = none)
    (h3 : afterPrefix key (tabs ident ++ ascii "]") = none) :
    (listLines name items ident ++ rest).findSome? (afterPrefix key) = rest.findSome? (afterPrefix key) := by
  unfold listLines
  split
  · rw [List.append_assoc, List.cons_append, List.findSome?_cons, h1]
    simp only
    rw [List.findSome?_append, List.findSome?_eq_none_iff.2 (by
      intro x hx
      obtain ⟨v, _, rfl⟩ := List.mem_map.1 hx
      exact h2 v), Option.none_or, List.singleton_append, List.findSome?_cons, h3]
  · rfl

theorem dropWhile_skip {first : Bytes} {pre : List Bytes} (rest : List Bytes) (h : ∀ l ∈ pre, l ≠ first) :
    (pre ++ rest).dropWhile (· ≠ first) = rest.dropWhile (· ≠ first) := by
  induction pre with
  | nil => rfl
  | cons l pre ih =>
    rw [List.cons_append, List.dropWhile_cons_of_pos (by simpa using h l (by simp)), ih (fun x hx => h x (by simp [hx]))]

theorem takeWhile_stop {last : Bytes} {pre : List Bytes} (rest : List Bytes) (h : ∀ l ∈ pre, l ≠ last) :
    (pre ++ last :: rest).takeWhile (· ≠ last) = pre := by
  induction pre with
  | nil => simp
  | cons l pre ih =>
    rw [List.cons_append, List.takeWhile_cons_of_pos (by simpa using h l (by simp)), ih (fun x hx => h x (by simp [hx]))]

/-- The entries of a list are its items. -/
theorem entries_hit {name : Bytes} {ident : Nat} {first last indent : String} (pre items rest : List Bytes)
    (hpre : ∀ l ∈ pre, l ≠ ascii first) (hrest : ∀ l ∈ rest, l ≠ ascii first)
    (h1 : ascii first = tabs ident ++ name ++ ascii ": [") (h2 : ascii last = tabs ident ++ ascii "]") (h3 : ascii indent = tabs (ident + 1))
    (h4 : ∀ v, tabs (ident + 1) ++ v ≠ ascii last) :
    entriesIn (pre ++ (listLines name items ident ++ rest)) first last indent = items := by
  unfold entriesIn
  rw [dropWhile_skip _ hpre]
  unfold listLines
  split
  · rw [← h1, ← h2, List.append_assoc, List.cons_append, List.dropWhile_cons_of_neg (by simp), List.drop_one, List.tail_cons, List.singleton_append,
      takeWhile_stop _ (by
        intro l hl
        obtain ⟨v, _, rfl⟩ := List.mem_map.1 hl
        exact h4 v), h3]
    rw [List.filterMap_map]
    have : (afterPrefix (tabs (ident + 1)) ∘ fun x => tabs (ident + 1) ++ x) = some := by
      funext x
      simp only [Function.comp_apply, afterPrefix]
      rw [if_pos (by rw [List.isPrefixOf_iff_prefix]; exact List.prefix_append _ _)]
      simp
    rw [this, List.filterMap_some]
  · rename_i h
    have : items = [] := by
      cases items with
      | nil => rfl
      | cons _ _ => simp at h
    subst this
    have : rest.dropWhile (· ≠ ascii first) = [] := by
      have := dropWhile_skip (first := ascii first) (pre := rest) [] hrest
      simpa using this
    rw [List.nil_append, this]; rfl

/-! ### Lines that are not a certain one -/

theorem valueLine_ne {name value x : Bytes} {ident : Nat} (h : ∀ v, tabs ident ++ name ++ ascii ": " ++ v ≠ x) : ∀ l ∈ valueLine name value ident, l ≠ x := by
  intro l hl
  unfold valueLine at hl
  split at hl
  · simp only [List.mem_singleton] at hl
    subst hl; exact h _
  · simp at hl

theorem listLines_ne {name x : Bytes} {items : List Bytes} {ident : Nat} (h1 : tabs ident ++ name ++ ascii ": [" ≠ x)
    (h2 : ∀ v, tabs (ident + 1) ++ v ≠ x) (h3 : tabs ident ++ ascii "]" ≠ x) : ∀ l ∈ listLines name items ident, l ≠ x := by
  intro l hl
  unfold listLines at hl
  split at hl
  · simp only [List.cons_append, List.mem_cons, List.mem_append, List.mem_map, List.not_mem_nil, or_false] at hl
    rcases hl with rfl | ⟨v, _, rfl⟩ | rfl
    · exact h1
    · exact h2 v
    · exact h3
  · simp at hl

/-- Two texts are different if they are at some place. -/
theorem ne_at {a b : Bytes} (i : Nat) (x y : UInt8) (ha : a[i]? = some x) (hb : b[i]? = some y) (h : x ≠ y) : a ≠ b := by
  intro e
  rw [e, hb] at ha
  exact h (Option.some.inj ha).symm

theorem info_ne (m : MetaText) : ∀ l ∈ infoLines m, l ≠ ascii "\t}" := by
  refine forall_append ?_ (forall_append (valueLine_ne fun v => ne_at 1 9 125 rfl rfl (by decide)) (forall_append (valueLine_ne fun v => ne_at 1 9 125 rfl rfl (by decide))
    (forall_append (valueLine_ne fun v => ne_at 1 9 125 rfl rfl (by decide)) (listLines_ne (ne_at 1 9 125 rfl rfl (by decide)) (fun v => ne_at 1 9 125 rfl rfl (by decide)) (ne_at 1 9 125 rfl rfl (by decide))))))
  intro l hl; simp only [List.mem_cons, List.not_mem_nil, or_false] at hl
  rcases hl with rfl | rfl <;> decide

theorem infoPart_eq {sha1 : Bytes → Bytes} {date : Int → Bytes} {m : MetaText} (h : Tidy date m) : infoPart (describe sha1 date m) = infoLines m := by
  unfold infoPart
  rw [describe_lines, splitAt_unlines _ (lines_oneLine h), List.append_assoc, List.cons_append, takeWhile_stop _ (info_ne m)]

theorem outerPart_eq {sha1 : Bytes → Bytes} {date : Int → Bytes} {m : MetaText} (h : Tidy date m) :
    outerPart (describe sha1 date m) = ascii "\t}" :: outerLines sha1 date m ++ [[]] := by
  unfold outerPart
  rw [describe_lines, splitAt_unlines _ (lines_oneLine h), List.append_assoc, dropWhile_skip _ (info_ne m), List.cons_append,
    List.dropWhile_cons_of_neg (by simp)]

/-! ### Reading the fields -/

theorem find_start (key : String) (rest : List Bytes) (h1 : afterPrefix (ascii key) (ascii "{") = none) (h2 : afterPrefix (ascii key) (ascii "\tinfo: {") = none) :
    ([ascii "{", ascii "\tinfo: {"] ++ rest).findSome? (afterPrefix (ascii key)) = rest.findSome? (afterPrefix (ascii key)) := by
  simp only [List.cons_append, List.nil_append, List.findSome?_cons, h1, h2]

theorem read_name (m : MetaText) : valueIn (infoLines m) "\t\tname: " = m.info.name := by
  unfold valueIn infoLines
  rw [find_start _ _ (by decide) (by decide)]
  refine find_hit _ _ (fun v => rfl) ?_
  rw [find_skip _ _ (fun v => rfl), find_skip _ _ (fun v => rfl), ← List.append_nil (listLines _ _ _),
    find_skip_list _ _ (by decide) (fun v => rfl) (by decide)]
  rfl

theorem read_length (m : MetaText) : valueIn (infoLines m) "\t\tlength: " = byteSize (toUint64 m.info.infoLength) := by
  unfold valueIn infoLines
  rw [find_start _ _ (by decide) (by decide), find_skip _ _ (fun v => rfl)]
  refine find_hit _ _ (fun v => rfl) ?_
  rw [find_skip _ _ (fun v => rfl), ← List.append_nil (listLines _ _ _), find_skip_list _ _ (by decide) (fun v => rfl) (by decide)]
  rfl

theorem read_pieceLength (m : MetaText) :
    valueIn (infoLines m) "\t\tpiece-length: " = if m.info.pieceLength = 0 then [] else itoa m.info.pieceLength := by
  unfold valueIn infoLines
  rw [find_start _ _ (by decide) (by decide), find_skip _ _ (fun v => rfl), find_skip _ _ (fun v => rfl)]
  refine find_hit _ _ (fun v => rfl) ?_
  rw [← List.append_nil (listLines _ _ _), find_skip_list _ _ (by decide) (fun v => rfl) (by decide)]
  rfl

theorem read_files (m : MetaText) :
    entriesIn (infoLines m) "\t\tfiles: [" "\t\t]" "\t\t\t" = m.info.files.map fun f => describeFile f ++ [44] := by
  unfold infoLines
  rw [← List.append_nil (listLines _ _ _), ← List.append_assoc (valueLine (ascii "length") _ _), ← List.append_assoc (valueLine (ascii "name") _ _),
    ← List.append_assoc]
  refine entries_hit _ _ [] ?_ (by simp) (by decide) (by decide) (by decide) (fun v => ne_at 2 9 93 rfl rfl (by decide))
  refine forall_append ?_ (forall_append (valueLine_ne fun v => ne_at 2 110 102 rfl rfl (by decide)) (forall_append
    (valueLine_ne fun v => ne_at 2 108 102 rfl rfl (by decide)) (valueLine_ne fun v => ne_at 2 112 102 rfl rfl (by decide))))
  intro l hl; simp only [List.mem_cons, List.not_mem_nil, or_false] at hl
  rcases hl with rfl | rfl <;> decide

section
variable (sha1 : Bytes → Bytes) (date : Int → Bytes) (m : MetaText)

theorem find_end (key : String) (rest : List Bytes) (h : afterPrefix (ascii key) (ascii "\t}") = none) :
    (ascii "\t}" :: rest).findSome? (afterPrefix (ascii key)) = rest.findSome? (afterPrefix (ascii key)) := by
  rw [List.findSome?_cons, h]

theorem read_comment : valueIn (ascii "\t}" :: outerLines sha1 date m ++ [[]]) "\tcomment: " = m.comment := by
  unfold valueIn outerLines
  simp only [List.append_assoc, List.cons_append]
  rw [find_end _ _ (by decide)]
  refine find_hit _ _ (fun v => rfl) ?_
  rw [find_skip _ _ (fun v => rfl), find_skip _ _ (fun v => rfl), find_skip _ _ (fun v => rfl),
    find_skip_list _ _ (by decide) (fun v => rfl) (by decide), find_skip_list _ _ (by decide) (fun v => rfl) (by decide), find_skip _ _ (fun v => rfl)]
  rfl

theorem read_createdBy : valueIn (ascii "\t}" :: outerLines sha1 date m ++ [[]]) "\tcreated-by: " = m.createdBy := by
  unfold valueIn outerLines
  simp only [List.append_assoc, List.cons_append]
  rw [find_end _ _ (by decide), find_skip _ _ (fun v => rfl)]
  refine find_hit _ _ (fun v => rfl) ?_
  rw [find_skip _ _ (fun v => rfl), find_skip _ _ (fun v => rfl),
    find_skip_list _ _ (by decide) (fun v => rfl) (by decide), find_skip_list _ _ (by decide) (fun v => rfl) (by decide), find_skip _ _ (fun v => rfl)]
  rfl

theorem read_date : valueIn (ascii "\t}" :: outerLines sha1 date m ++ [[]]) "\tcreation-date: " = date m.creationDate := by
  unfold valueIn outerLines
  simp only [List.append_assoc, List.cons_append]
  rw [find_end _ _ (by decide), find_skip _ _ (fun v => rfl), find_skip _ _ (fun v => rfl)]
  refine find_hit _ _ (fun v => rfl) ?_
  rw [find_skip _ _ (fun v => rfl),
    find_skip_list _ _ (by decide) (fun v => rfl) (by decide), find_skip_list _ _ (by decide) (fun v => rfl) (by decide), find_skip _ _ (fun v => rfl)]
  rfl

theorem read_announce : valueIn (ascii "\t}" :: outerLines sha1 date m ++ [[]]) "\tannounce: " = m.info.announce := by
  unfold valueIn outerLines
  simp only [List.append_assoc, List.cons_append]
  rw [find_end _ _ (by decide), find_skip _ _ (fun v => rfl), find_skip _ _ (fun v => rfl), find_skip _ _ (fun v => rfl)]
  refine find_hit _ _ (fun v => rfl) ?_
  rw [find_skip_list _ _ (by decide) (fun v => rfl) (by decide), find_skip_list _ _ (by decide) (fun v => rfl) (by decide), find_skip _ _ (fun v => rfl)]
  rfl

theorem read_hash : valueIn (ascii "\t}" :: outerLines sha1 date m ++ [[]]) "\t(calculated) info-hash: " = base64Url (sha1 m.info.infoDictRaw) := by
  unfold valueIn outerLines
  simp only [List.append_assoc, List.cons_append]
  rw [find_end _ _ (by decide), find_skip _ _ (fun v => rfl), find_skip _ _ (fun v => rfl), find_skip _ _ (fun v => rfl), find_skip _ _ (fun v => rfl),
    find_skip_list _ _ (by decide) (fun v => rfl) (by decide), find_skip_list _ _ (by decide) (fun v => rfl) (by decide)]
  exact find_hit _ _ (fun v => rfl) rfl

theorem read_announceList : entriesIn (ascii "\t}" :: outerLines sha1 date m ++ [[]]) "\tannounce-list: [" "\t]" "\t\t" = m.info.announceList.map bracketed := by
  unfold outerLines
  have e : ∀ a b c d l r : List Bytes, ascii "\t}" :: (a ++ (b ++ (c ++ (d ++ (l ++ r))))) ++ [[]] =
      ([ascii "\t}"] ++ (a ++ (b ++ (c ++ d)))) ++ (l ++ (r ++ [[]])) := by intros; simp
  rw [e]
  refine entries_hit _ _ _ ?_ ?_ (by decide) (by decide) (by decide) (fun v => ne_at 1 9 93 rfl rfl (by decide))
  · refine forall_append ?_ (forall_append (valueLine_ne fun v => ne_at 1 99 97 rfl rfl (by decide)) (forall_append
      (valueLine_ne fun v => ne_at 1 99 97 rfl rfl (by decide)) (forall_append (valueLine_ne fun v => ne_at 1 99 97 rfl rfl (by decide))
        (valueLine_ne fun v => ne_at 9 58 45 rfl rfl (by decide)))))
    intro l hl; simp only [List.mem_cons, List.not_mem_nil, or_false] at hl
    subst hl; decide
  · refine forall_append (forall_append (listLines_ne (by decide) (fun v => ne_at 1 9 97 rfl rfl (by decide)) (by decide)) (forall_append
      (valueLine_ne fun v => ne_at 1 40 97 rfl rfl (by decide)) ?_)) ?_
    · intro l hl; simp only [List.mem_cons, List.not_mem_nil, or_false] at hl
      subst hl; decide
    · intro l hl; simp only [List.mem_cons, List.not_mem_nil, or_false] at hl
      subst hl; decide

theorem read_urlList : entriesIn (ascii "\t}" :: outerLines sha1 date m ++ [[]]) "\turl-list: [" "\t]" "\t\t" = m.info.urlList.map fun s => s ++ [44] := by
  unfold outerLines
  have e : ∀ a b c d d' l r : List Bytes, ascii "\t}" :: (a ++ (b ++ (c ++ (d ++ (d' ++ (l ++ r)))))) ++ [[]] =
      ([ascii "\t}"] ++ (a ++ (b ++ (c ++ (d ++ d'))))) ++ (l ++ (r ++ [[]])) := by intros; simp
  rw [e]
  refine entries_hit _ _ _ ?_ ?_ (by decide) (by decide) (by decide) (fun v => ne_at 1 9 93 rfl rfl (by decide))
  · refine forall_append ?_ (forall_append (valueLine_ne fun v => ne_at 1 99 117 rfl rfl (by decide)) (forall_append
      (valueLine_ne fun v => ne_at 1 99 117 rfl rfl (by decide)) (forall_append (valueLine_ne fun v => ne_at 1 99 117 rfl rfl (by decide))
        (forall_append (valueLine_ne fun v => ne_at 1 97 117 rfl rfl (by decide))
          (listLines_ne (by decide) (fun v => ne_at 1 9 117 rfl rfl (by decide)) (by decide))))))
    intro l hl; simp only [List.mem_cons, List.not_mem_nil, or_false] at hl
    subst hl; decide
  · refine forall_append (forall_append (valueLine_ne fun v => ne_at 1 40 117 rfl rfl (by decide)) ?_) ?_
    · intro l hl; simp only [List.mem_cons, List.not_mem_nil, or_false] at hl
      subst hl; decide
    · intro l hl; simp only [List.mem_cons, List.not_mem_nil, or_false] at hl
      subst hl; decide

end

/-! ### C104 -/

theorem toUint64_nonneg {n : Int} (h0 : 0 ≤ n) (h : n < 2 ^ 63) : toUint64 n = n.toNat := by
  unfold toUint64
  rw [Int.emod_eq_of_lt h0 (by omega)]

/-- C104 for torrents whose texts have no line breaks: every field that is printed can be read from the description. (Missing: texts with
line breaks; the size of a torrent of several files; that an absent date is not shown.) -/
theorem C104_reads_partial (sha1 : Bytes → Bytes) (date : Int → Bytes) (m : MetaText) (h : Tidy date m) :
    ReadsAs sha1 date m (describe sha1 date m) where
  name := by rw [infoPart_eq h, read_name]
  length h0 h1 := by
    rw [infoPart_eq h, read_length, toUint64_nonneg h0 h1]
    exact C101_sizes _ (by omega)
  noPieceLength h0 := by rw [infoPart_eq h, read_pieceLength, if_pos h0]
  pieceLength h0 := by
    rw [infoPart_eq h, read_pieceLength, if_neg (by omega), itoa_nonneg _ (by omega)]
    exact ⟨(natDigits_spec _).1, by rw [(natDigits_spec _).2]; omega⟩
  filesNum := by rw [infoPart_eq h, read_files]; simp
  files i f hf h0 h1 := by
    refine ⟨byteSize f.length.toNat, C101_sizes _ (by omega), ?_⟩
    rw [infoPart_eq h, read_files, List.getElem?_map, hf]
    simp only [Option.map_some, describeFile, toUint64_nonneg h0 h1, joinSlash_eq, List.append_assoc]
    rfl
  comment := by rw [outerPart_eq h, read_comment]
  createdBy := by rw [outerPart_eq h, read_createdBy]
  creationDate := by rw [outerPart_eq h, read_date]
  announce := by rw [outerPart_eq h, read_announce]
  announceList := by rw [outerPart_eq h, read_announceList]; rfl
  urlList := by rw [outerPart_eq h, read_urlList]; rfl
  infoHash := by rw [outerPart_eq h, read_hash, base64_decode]

theorem splitAt_oneLine : ∀ (s : Bytes), ∀ l ∈ splitAt 10 s, OneLine l
  | [], l, hl => by simp [splitAt] at hl; subst hl; simp [OneLine]
  | c :: cs, l, hl => by
    have ih := splitAt_oneLine cs
    rw [splitAt] at hl
    split at hl
    · rcases List.mem_cons.1 hl with rfl | h
      · simp [OneLine]
      · exact ih l h
    · rename_i hc
      split at hl
      · simp at hl; subst hl
        intro d hd; simp at hd; subst hd; exact hc
      · rename_i w ws e
        rw [e] at ih
        rcases List.mem_cons.1 hl with rfl | h
        · intro d hd
          rcases List.mem_cons.1 hd with rfl | h
          · exact hc
          · exact ih w (by simp) d h
        · exact ih l (by simp [h])

theorem value_oneLine {ls : List Bytes} (key : String) (h : ∀ l ∈ ls, OneLine l) : OneLine (valueIn ls key) := by
  unfold valueIn
  cases e : ls.findSome? (afterPrefix (ascii key)) with
  | none => simp [OneLine]
  | some v =>
    obtain ⟨l, hl, hv⟩ := List.exists_of_findSome?_eq_some e
    unfold afterPrefix at hv
    split at hv
    · cases hv
      intro c hc
      exact h l hl c (List.mem_of_mem_drop hc)
    · simp at hv

/-- The name can be read exactly if it has no line break, whatever the other fields are. -/
theorem C104_name_partial (sha1 : Bytes → Bytes) (date : Int → Bytes) (m : MetaText) (hne : m.info.name ≠ []) :
    valueIn (infoPart (describe sha1 date m)) "\t\tname: " = m.info.name ↔ OneLine m.info.name := by
  constructor
  · intro h
    rw [← h]
    exact value_oneLine _ fun l hl => splitAt_oneLine _ l (List.takeWhile_prefix _ |>.subset hl)
  · intro h
    unfold describe
    simp only [List.append_assoc]
    generalize printString (ascii "length") _ 2 ++ _ = rest
    rw [printString, if_pos hne]
    rw [show ascii "{\n" ++ (ascii "\tinfo: {\n" ++ (tabs 2 ++ ascii "name" ++ ascii ": " ++ m.info.name ++ [10] ++ rest)) =
      ascii "{" ++ 10 :: (ascii "\tinfo: {" ++ 10 :: ((ascii "\t\tname: " ++ m.info.name) ++ 10 :: rest)) by
        rw [show ascii "{\n" = ascii "{" ++ [10] by decide, show ascii "\tinfo: {\n" = ascii "\tinfo: {" ++ [10] by decide,
          show ascii "\t\tname: " = tabs 2 ++ ascii "name" ++ ascii ": " by decide]
        simp]
    unfold infoPart
    rw [splitAt_append 10 _ _ (oneLine_ascii (by decide)), splitAt_append 10 _ _ (oneLine_ascii (by decide)),
      splitAt_append 10 _ _ (oneLine_append (oneLine_ascii (by decide)) h)]
    rw [List.takeWhile_cons_of_pos (by decide), List.takeWhile_cons_of_pos (by decide),
      List.takeWhile_cons_of_pos (by
        have : ascii "\t\tname: " ++ m.info.name ≠ ascii "\t}" := ne_at 1 9 125 rfl rfl (by decide)
        simpa using this)]
    unfold valueIn
    rw [List.findSome?_cons, show afterPrefix (ascii "\t\tname: ") (ascii "{") = none by decide]
    simp only
    rw [List.findSome?_cons, show afterPrefix (ascii "\t\tname: ") (ascii "\tinfo: {") = none by decide]
    simp only
    rw [List.findSome?_cons, show afterPrefix (ascii "\t\tname: ") (ascii "\t\tname: " ++ m.info.name) = some m.info.name from rfl]
    rfl

theorem zero_size {n : Nat} (h : SaysSize 0 n [48, 66]) : n = 0 := by
  obtain ⟨m, k, hs, h1, h2, _⟩ := h
  obtain ⟨m', k', hs', h1', _, h3', _⟩ := zero_says 0
  obtain ⟨rfl, rfl⟩ := size_unique hs hs'
  rcases h3' with h | rfl
  · have := Nat.pow_pos (n := k) (show 0 < 2 by omega)
    omega
  · simp at h1' h2; omega

/-- The size shown of a torrent without the key `length`, as those of several files are, is `0B`: right only if there is no content. -/
theorem C104_size_partial (sha1 : Bytes → Bytes) (date : Int → Bytes) (m : MetaText) (h : Tidy date m) (h0 : m.info.infoLength = 0) :
    valueIn (infoPart (describe sha1 date m)) "\t\tlength: " = ascii "0B" ∧
    (0 ≤ describedSize m → (SaysSize 0 (describedSize m).toNat (valueIn (infoPart (describe sha1 date m)) "\t\tlength: ") ↔ describedSize m = 0)) := by
  have e : valueIn (infoPart (describe sha1 date m)) "\t\tlength: " = [48, 66] := by
    rw [infoPart_eq h, read_length, h0]; decide
  refine ⟨by rw [e]; decide, fun hc => ?_⟩
  rw [e]
  constructor
  · intro hs
    have := zero_size hs
    omega
  · intro h
    rw [h]; exact zero_says 0

/-- A torrent with everything, two files, and no date. -/
def sampleText : MetaText where
  info := { announce := ascii "http://t/a", announceList := [[ascii "http://t/a", ascii "udp://u:1"], [ascii "udp://v:2"]], urlList := [ascii "http://w/"],
            files := [⟨[ascii "a", ascii "b.txt"], 1536⟩, ⟨[ascii "c"], 3⟩], infoLength := 0, name := ascii "things", pieceLength := 16384, pieces := [],
            infoDictRaw := ascii "de" }
  comment := ascii "hello"
  createdBy := ascii "me"
  creationDate := 0

theorem sampleText_tidy : Tidy (fun _ => ascii "1970-01-01 00:00:00") sampleText := by
  refine ⟨?_, ?_, ?_, ?_, ?_, ?_, ?_, ?_⟩
  · exact oneLine_ascii (by decide)
  · exact oneLine_ascii (by decide)
  · exact oneLine_ascii (by decide)
  · exact oneLine_ascii (by decide)
  · exact oneLine_ascii (by decide)
  all_goals
    simp only [sampleText, List.mem_cons, List.not_mem_nil, or_false, forall_eq_or_imp, forall_eq]
  · exact ⟨⟨oneLine_ascii (by decide), oneLine_ascii (by decide)⟩, oneLine_ascii (by decide)⟩
  · exact ⟨⟨oneLine_ascii (by decide), oneLine_ascii (by decide)⟩, oneLine_ascii (by decide)⟩
  · exact oneLine_ascii (by decide)

/-- C104 fails in three ways: a name with a line break makes a line that reads as a comment of the torrent; a torrent of several files is
said to have no bytes; a torrent without a date is said to be of 1970. -/
theorem C104_violated : ¬ DescribesIt ∧
    (∀ (sha1 : Bytes → Bytes) (date : Int → Bytes) (m : MetaText),
      m.info.name = ascii "x\n\t}\n\tcomment: forged" → valueIn (outerPart (describe sha1 date m)) "\tcomment: " = ascii "forged") ∧
    (∀ (sha1 : Bytes → Bytes) (date : Int → Bytes) (m : MetaText), Tidy date m →
      valueIn (outerPart (describe sha1 date m)) "\tcreation-date: " = date m.creationDate) := by
  refine ⟨fun h => ?_, ?_, fun sha1 date m h => by rw [outerPart_eq h, read_date]⟩
  · have h4 := (h (fun _ => []) (fun _ => ascii "1970-01-01 00:00:00") sampleText (fun _ => sampleText_tidy.2.2.2.1)).2.2.2.2 rfl
    rw [outerPart_eq sampleText_tidy, read_date] at h4
    revert h4; decide
  · intro sha1 date m hm
    unfold describe
    simp only [List.append_assoc]
    generalize printString (ascii "length") _ 2 ++ _ = rest
    rw [printString, hm, if_pos (by decide)]
    rw [show ascii "{\n" ++ (ascii "\tinfo: {\n" ++ (tabs 2 ++ ascii "name" ++ ascii ": " ++ ascii "x\n\t}\n\tcomment: forged" ++ [10] ++ rest)) =
      ascii "{" ++ 10 :: (ascii "\tinfo: {" ++ 10 :: (ascii "\t\tname: x" ++ 10 :: (ascii "\t}" ++ 10 :: (ascii "\tcomment: forged" ++ 10 :: rest)))) by
        rw [← List.append_assoc, ← List.append_assoc]
        exact congrArg (· ++ rest) (show _ = ascii "{\n\tinfo: {\n\t\tname: x\n\t}\n\tcomment: forged\n" by decide)]
    unfold outerPart
    rw [splitAt_append 10 _ _ (oneLine_ascii (by decide)), splitAt_append 10 _ _ (oneLine_ascii (by decide)),
      splitAt_append 10 _ _ (oneLine_ascii (by decide)), splitAt_append 10 _ _ (oneLine_ascii (by decide)),
      splitAt_append 10 _ _ (oneLine_ascii (by decide))]
    rw [List.dropWhile_cons_of_pos (by decide), List.dropWhile_cons_of_pos (by decide), List.dropWhile_cons_of_pos (by decide),
      List.dropWhile_cons_of_neg (by decide)]
    unfold valueIn
    rw [List.findSome?_cons, show afterPrefix (ascii "\tcomment: ") (ascii "\t}") = none by decide]
    simp only
    rw [List.findSome?_cons, show afterPrefix (ascii "\tcomment: ") (ascii "\tcomment: forged") = some (ascii "forged") by decide]
    rfl

example : describe (fun _ => [255, 0, 17, 4]) (fun _ => ascii "1970-01-01 00:00:00") sampleText =
  ascii ("{\n\tinfo: {\n\t\tname: things\n\t\tlength: 0B\n\t\tpiece-length: 16384\n\t\tfiles: [\n\t\t\t[path: a/b.txt, size: 1.5K],\n" ++
    "\t\t\t[path: c, size: 3B],\n\t\t]\n\t}\n\tcomment: hello\n\tcreated-by: me\n\tcreation-date: 1970-01-01 00:00:00\n\tannounce: http://t/a\n" ++
    "\tannounce-list: [\n\t\t[http://t/a udp://u:1]\n\t\t[udp://v:2]\n\t]\n\turl-list: [\n\t\thttp://w/,\n\t]\n" ++
    "\t(calculated) info-hash: _wARBA==\n}\n") := by decide +kernel

example : ReadsAs (fun _ => [255, 0, 17, 4]) (fun _ => ascii "1970-01-01 00:00:00") sampleText
    (describe (fun _ => [255, 0, 17, 4]) (fun _ => ascii "1970-01-01 00:00:00") sampleText) := C104_reads_partial _ _ _ sampleText_tidy
example : describedSize sampleText = 1539 ∧ sampleText.info.infoLength = 0 := by decide

/-! ### C105 -/

/-- C105 fails for every torrent file that can be read. -/
theorem C105_violated : ¬ InspectPrints ∧ ∀ file, (inspectCommand file).stdout = [] := by
  have key : ∀ file, (inspectCommand file).stdout = [] := by
    intro file
    unfold inspectCommand
    split
    · rfl
    · rfl
    · split <;> rfl
  refine ⟨fun h => ?_, key⟩
  obtain ⟨m, hm, _⟩ := C73_roundtrip _ _ sampleMeta_encodable sampleMeta_is
  obtain ⟨pre, post, e⟩ := h (fun _ => []) (fun _ => []) sampleMeta.encode (by rw [hm])
  rw [key] at e
  have := congrArg List.length e
  simp [describe, ascii] at this

/-- What the command `bencode` does tell: its exit code is 0 exactly if the file can be read as a torrent, and every error is logged.
(Missing: the description.) -/
theorem C105_exit_partial (file : Except String (Except String Bytes)) :
    ((inspectCommand file).exit = 0 ↔ ∃ data, file = .ok (.ok data) ∧ (unmarshalMetainfo data).2 = .ok) ∧
    (∀ e, (file = .error e ∨ file = .ok (.error e) ∨ ∃ data, file = .ok (.ok data) ∧ (unmarshalMetainfo data).2 = .err e) →
      (inspectCommand file).exit = 1 ∧ SaysWhy e (inspectCommand file)) ∧
    (∀ data e, file = .ok (.ok data) → (unmarshalMetainfo data).2 = .panic e → (inspectCommand file).exit = 2 ∧ SaysWhy e (inspectCommand file)) := by
  refine ⟨?_, ?_, ?_⟩
  · unfold inspectCommand
    split
    · simp
    · simp
    · rename_i data
      split <;> rename_i h <;> simp [h]
  · rintro e (rfl | rfl | ⟨data, rfl, h⟩)
    · exact ⟨rfl, .inl (by simp [inspectCommand])⟩
    · exact ⟨rfl, .inl (by simp [inspectCommand])⟩
    · simp [inspectCommand, h, SaysWhy]
  · rintro data e rfl h
    refine ⟨by simp [inspectCommand, h], .inr ⟨[], [], by simp [inspectCommand, h]⟩⟩

example : (inspectCommand (.ok (.ok sampleMeta.encode))).exit = 0 := by
  obtain ⟨m, hm, _⟩ := C73_roundtrip _ _ sampleMeta_encodable sampleMeta_is
  exact ((C105_exit_partial _).1).2 ⟨_, rfl, by rw [hm]⟩

/-! ### C106 -/

/-- C106 fails: the text is the same for every error. Nobody learns that the output is not a directory. -/
theorem C106_violated : ¬ DownloadSaysWhy ∧ (∀ e e', downloadCommand (.err e) = downloadCommand (.err e')) ∧
    ∀ sha1 os outDir file disk, ∃ o, downloadCommand (openTorrent sha1 os outDir (.ok false) file disk).1 = some o ∧ ¬ SaysWhy "not a directory" o := by
  have key : ∀ o, downloadCommand (.err "not a directory") = some o → ¬ SaysWhy "not a directory" o := by
    intro o ho hw
    cases ho
    rcases hw with h | ⟨pre, post, e⟩
    · simp at h
    · have h1 : 15 + pre.length ≤ 18 := by
        have := congrArg List.length e
        simp only [List.length_append, show (ascii "not a directory").length = 15 by decide, show (ascii "error with the app").length = 18 by decide] at this
        omega
      have h2 : (ascii "error with the app")[pre.length]? = some 110 := by
        rw [show ascii "error with the app" = _ from e, List.append_assoc, List.getElem?_append_right (Nat.le_refl _), Nat.sub_self]; rfl
      have h3 : pre.length < 4 := by omega
      revert h2 h3
      generalize pre.length = n
      intro h2 h3
      have : n = 0 ∨ n = 1 ∨ n = 2 ∨ n = 3 := by omega
      rcases this with rfl | rfl | rfl | rfl <;> revert h2 <;> decide
  exact ⟨fun h => key _ rfl (h _ _ rfl), fun _ _ => rfl, fun sha1 os outDir file disk => ⟨_, rfl, key _ rfl⟩⟩

/-- What is told: that there was an error, by a text and by the exit code. (Missing: which one.) -/
theorem C106_exit_partial (r : Res Torrent) :
    ((∃ t, r = .ok t) ↔ downloadCommand r = none) ∧
    (∀ e, r = .err e → ∃ o, downloadCommand r = some o ∧ o.exit = 1 ∧ o.stderr ≠ []) ∧
    (∀ e, r = .panic e → ∃ o, downloadCommand r = some o ∧ o.exit = 2 ∧ SaysWhy e o) := by
  refine ⟨?_, ?_, ?_⟩
  · cases r <;> simp [downloadCommand]
  · rintro e rfl; exact ⟨_, rfl, rfl, by decide⟩
  · rintro e rfl; exact ⟨_, rfl, rfl, .inr ⟨[], [], by simp⟩⟩

example : (openTorrent (fun _ => []) ⟨fun _ => false, fun _ => none⟩ (ascii "x") (.ok false) (.ok []) (fun _ => [])).1 = .err "not a directory" := rfl

end Gotit.Props
