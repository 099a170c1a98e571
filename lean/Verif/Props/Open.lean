import Verif.Model.Open
import Verif.Lemmas.Faithful
import Verif.Lemmas.New
import Verif.Props.Unmarshal
/-
  C72, C73: opening a torrent file.
-/
namespace Gotit.Props
open Gotit Spec

/-! ### setField on the types of Metainfo -/

theorem setField_strings (old : GoVal) {v : Bencode} {l : List Bytes} (h : IsStrings v l) :
    setField (.slice .string) old v = (.slice (l.map .string), .ok) := by
  obtain ⟨p, r, rfl⟩ := h
  have : setEach (fun x => setField .string (zero .string) x) (l.map .str) = (l.map .string, .ok) := by
    induction l with
    | nil => rfl
    | cons s l ih =>
      simp only [List.map_cons, setEach]
      simp only [setField, setValue, Bencode.toText, prettyPrint] at ih ⊢
      rw [ih]
  rw [setField, setValue.eq_def]
  simp only
  rw [this]

theorem setEach_each {β : Type} {P : Bencode → β → Prop} {g : Bencode → GoVal × Outcome} {k : β → GoVal}
    (hg : ∀ v b, P v b → g v = (k b, .ok)) : ∀ {vs : List Bencode} {l : List β}, Each P vs l → setEach g vs = (l.map k, .ok) := by
  intro vs
  induction vs with
  | nil => intro l h; cases h; rfl
  | cons v vs ih =>
    intro l h
    cases h with
    | cons h1 h2 =>
      simp only [setEach, List.map_cons]
      rw [hg _ _ h1, ih h2]

theorem setField_tiers (old : GoVal) {v : Bencode} {l : List (List Bytes)} (h : IsTiers v l) :
    setField (.slice (.slice .string)) old v = (.slice (l.map fun t => .slice (t.map .string)), .ok) := by
  obtain ⟨p, vs, r, rfl, h⟩ := h
  rw [setField, setValue.eq_def]
  simp only
  rw [setEach_each (fun v b hb => setField_strings _ hb) h]

theorem setField_int64 (old : GoVal) (n : Int) (h : -2 ^ 63 ≤ n ∧ n < 2 ^ 63) : setField (.int 64) old (.int n) = (.int n, .ok) := by
  rw [setField, setValue]
  simp only [Bencode.toText, prettyPrint]
  rw [parseInt0_itoa _ _ (by decide) (by decide), if_pos h]

theorem setField_str (old : GoVal) (s : Bytes) : setField .string old (.str s) = (.string s, .ok) := by
  rw [setField, setValue]; rfl

/-- What the field loop does with one field. -/
inductive FieldRes (kvs : List (Bytes × Bencode)) (tag : Bytes) (t : Ty) (old : GoVal) : GoVal → Prop
  | absent : lookupKey (tagKey tag) kvs = .nil → tagOptional tag = true → FieldRes kvs tag t old old
  | present {x} : lookupKey (tagKey tag) kvs ≠ .nil → setField t old (lookupKey (tagKey tag) kvs) = (x, .ok) →
      FieldRes kvs tag t old x

theorem setFields_next {nm tag : Bytes} {t : Ty} {fs : List ((Bytes × Bytes × Bool) × Ty)} (ht : tag ≠ [])
    {old : GoVal} {olds : List GoVal} {p : Bool} {kvs : List (Bytes × Bencode)} {raw : Bytes} {x : GoVal} {xs : List GoVal}
    (h : FieldRes kvs tag t old x) (hr : setFields fs olds (.dict p kvs raw) = (xs, .ok)) :
    setFields (((nm, tag, true), t) :: fs) (old :: olds) (.dict p kvs raw) = (x :: xs, .ok) := by
  rw [setFields_cons_active _ _ _ _ ht]
  cases h with
  | absent h1 h2 => rw [h1]; simp [Bencode.isNil, h2, hr]
  | present h1 h2 =>
    rw [if_neg (by rw [isNil_iff]; exact h1)]
    simp [h2, hr]

/-- The value of a string field that may be absent. -/
def textOf (kvs : List (Bytes × Bencode)) (k : String) : Bytes := (lookupKey (ascii k) kvs).toText

theorem fieldRes_text (kvs : List (Bytes × Bencode)) (tag : String) (k : String) (hk : tagKey (ascii tag) = ascii k)
    (ho : tagOptional (ascii tag) = true) : FieldRes kvs (ascii tag) .string (.string []) (.string (textOf kvs k)) := by
  by_cases h : lookupKey (tagKey (ascii tag)) kvs = .nil
  · have := FieldRes.absent (t := .string) (old := .string []) h ho
    rw [hk] at h
    simpa [textOf, h, Bencode.toText, prettyPrint] using this
  · refine .present h ?_
    rw [setField, setValue, hk]; rfl

theorem tagKeys : tagKey (ascii "announce") = ascii "announce" ∧ tagKey (ascii "announce-list,optional") = ascii "announce-list" ∧
    tagKey (ascii "url-list,optional") = ascii "url-list" ∧ tagKey (ascii "info") = ascii "info" ∧
    tagKey (ascii "comment,optional") = ascii "comment" ∧ tagKey (ascii "created by,optional") = ascii "created by" ∧
    tagKey (ascii "creation date,optional") = ascii "creation date" ∧ tagKey (ascii "encoding,optional") = ascii "encoding" ∧
    tagKey (ascii "files,optional") = ascii "files" ∧ tagKey (ascii "length,optional") = ascii "length" ∧
    tagKey (ascii "name") = ascii "name" ∧ tagKey (ascii "piece length") = ascii "piece length" ∧
    tagKey (ascii "pieces") = ascii "pieces" ∧ tagKey (ascii "path") = ascii "path" ∧ tagKey (ascii "length") = ascii "length" := by
  decide

theorem setField_file {v : Bencode} {f : TorrentFile} (hf : -2 ^ 63 ≤ f.length ∧ f.length < 2 ^ 63) (h : LkFile v f) :
    setField (.struct torrentFileFields) (zero (.struct torrentFileFields)) v =
      (.struct [.slice (f.path.map .string), .int f.length], .ok) := by
  obtain ⟨p, kvs, r, rfl, h1, h2⟩ := h
  obtain ⟨-, -, -, -, -, -, -, -, -, -, -, -, -, k1, k2⟩ := tagKeys
  rw [setField, setValue.eq_def]
  simp only [zero, torrentFileFields, fld, zeros]
  rw [setFields_next (by decide) (.present (by rw [k1]; exact isStrings_ne_nil h1) (by rw [k1]; exact setField_strings _ h1))
    (setFields_next (by decide) (.present (by rw [k2, h2]; simp) (by rw [k2, h2]; exact setField_int64 _ _ hf))
      (xs := []) (by rw [setFields]))]

/-! ### from the encoded document to the struct -/

theorem lookupKey_mem {k : Bytes} : ∀ {kvs : List (Bytes × Bencode)}, lookupKey k kvs ≠ .nil → (k, lookupKey k kvs) ∈ kvs := by
  intro kvs
  induction kvs with
  | nil => intro h; exact absurd rfl h
  | cons e kvs ih =>
    intro h
    obtain ⟨k', v⟩ := e
    simp only [lookupKey] at h ⊢
    split
    · rename_i hk; subst hk; simp
    · rename_i hk; rw [if_neg hk] at h; exact List.mem_cons_of_mem _ (ih h)

theorem encodable_lookup {p kvs r} (he : Encodable (.dict p kvs r)) (k : Bytes) : Encodable (lookupKey k kvs) := by
  by_cases h : lookupKey k kvs = .nil
  · rw [h]; intro x hx; cases hx; trivial
  · exact fun x hx => he x (.dict p r (lookupKey_mem h) hx)

theorem encodable_small {n : Int} (h : Encodable (.int n)) : -2 ^ 63 ≤ n ∧ n < 2 ^ 63 := by
  have := h _ (.refl _)
  simp only [EncodableHead, maxNumber] at this
  omega

/-- A file whose length fits. -/
def SmallFile (v : Bencode) (f : TorrentFile) : Prop := LkFile v f ∧ -2 ^ 63 ≤ f.length ∧ f.length < 2 ^ 63

theorem each_small : ∀ {vs : List Bencode} {fs : List TorrentFile}, (∀ v ∈ vs, Encodable v) → Each LkFile vs fs → Each SmallFile vs fs := by
  intro vs
  induction vs with
  | nil => intro fs _ h; cases h; exact .nil
  | cons v vs ih =>
    intro fs he h
    cases h with
    | cons h1 h2 =>
      refine .cons ⟨h1, ?_⟩ (ih (fun v hv => he v (by simp [hv])) h2)
      obtain ⟨p, kvs, r, rfl, _, h3⟩ := h1
      have := encodable_lookup (he _ List.mem_cons_self) (ascii "length")
      rw [h3] at this
      exact encodable_small this

theorem setField_files (old : GoVal) {p : Bool} {vs : List Bencode} {r : Bytes} {fs : List TorrentFile} (h : Each SmallFile vs fs) :
    setField (.slice (.struct torrentFileFields)) old (.list p vs r) =
      (.slice (fs.map fun f => .struct [.slice (f.path.map .string), .int f.length]), .ok) := by
  rw [setField, setValue.eq_def]
  simp only
  rw [setEach_each (fun v b hb => setField_file hb.2 hb.1) h]

/-- The struct `Info` for a given metainfo. -/
def infoStruct (m : Metainfo) (files : GoVal) : GoVal :=
  .struct [files, .int m.infoLength, .string m.name, .int m.pieceLength, .string m.pieces]

theorem setField_info {v w : Bencode} {m : Metainfo} (he : Encodable v) (hw : Faithful v w) (h : LkInfo v m) :
    ∃ files, setField (.struct infoFields) (.struct (zeros infoFields)) w = (infoStruct m files, .ok) ∧
      files.asList.map torrentFileOf = m.files := by
  obtain ⟨p, kvs, r, rfl, h1, h2, h3, h4⟩ := h
  have hh := he _ (.refl _)
  simp only [EncodableHead] at hh
  cases hw with
  | dict hf =>
    rename_i ws
    have l1 : lookupKey (ascii "name") ws = .str m.name := by
      have := faithful_lookup_ne hf hh.1 (k := ascii "name") (by rw [h1]; simp)
      rw [h1] at this; exact faithful_str this
    have l2 : lookupKey (ascii "piece length") ws = .int m.pieceLength := by
      have := faithful_lookup_ne hf hh.1 (k := ascii "piece length") (by rw [h2]; simp)
      rw [h2] at this; exact faithful_int this
    have l3 : lookupKey (ascii "pieces") ws = .str m.pieces := by
      have := faithful_lookup_ne hf hh.1 (k := ascii "pieces") (by rw [h3]; simp)
      rw [h3] at this; exact faithful_str this
    have e2 := encodable_lookup he (ascii "piece length")
    rw [h2] at e2
    obtain ⟨-, -, -, -, -, -, -, -, k1, k2, k3, k4, k5, -, -⟩ := tagKeys
    have key : ∀ files, FieldRes ws (ascii "files,optional") (.slice (.struct torrentFileFields)) .nilSlice files →
        FieldRes ws (ascii "length,optional") (.int 64) (.int 0) (.int m.infoLength) →
        setField (.struct infoFields) (.struct (zeros infoFields)) (.dict true ws (100 :: encodeEntries kvs ++ [101])) =
          (infoStruct m files, .ok) := by
      intro files f1 f2
      rw [setField, setValue.eq_def]
      simp only [infoFields, fld, zeros, zero, infoStruct]
      rw [setFields_next (by decide) f1 (setFields_next (by decide) f2
        (setFields_next (by decide) (.present (by rw [k3, l1]; simp) (by rw [k3, l1]; exact setField_str _ _))
        (setFields_next (by decide) (.present (by rw [k4, l2]; simp) (by rw [k4, l2]; exact setField_int64 _ _ (encodable_small e2)))
        (setFields_next (by decide) (.present (by rw [k5, l3]; simp) (by rw [k5, l3]; exact setField_str _ _))
        (xs := []) (by rw [setFields])))))]
    rcases h4 with ⟨h5, h6, h7⟩ | ⟨h5, h6, q, vs, s, h7, h8⟩
    · refine ⟨.nilSlice, key _ (.absent (by rw [k1]; exact faithful_lookup_nil hf hh.1 h6) (by decide)) ?_, by simp [GoVal.asList, h7]⟩
      have l4 : lookupKey (ascii "length") ws = .int m.infoLength := by
        have := faithful_lookup_ne hf hh.1 (k := ascii "length") (by rw [h5]; simp)
        rw [h5] at this; exact faithful_int this
      have e4 := encodable_lookup he (ascii "length")
      rw [h5] at e4
      exact .present (by rw [k2, l4]; simp) (by rw [k2, l4]; exact setField_int64 _ _ (encodable_small e4))
    · have hl := faithful_lookup_ne hf hh.1 (k := ascii "files") (by rw [h7]; simp)
      have ev := encodable_lookup he (ascii "files")
      rw [h7] at hl ev
      have ev' : ∀ v ∈ vs, Encodable v := fun v hv x hx => ev x (.list q s hv hx)
      generalize hz : lookupKey (ascii "files") ws = z at hl
      cases hl with
      | list hl =>
        rename_i zs
        have hs : Each SmallFile zs m.files := faithful_each (P := SmallFile)
          (fun v w b e f hp => ⟨faithful_file e f hp.1, hp.2⟩) (by rintro b ⟨⟨p, kvs, r, h, _⟩, _⟩; cases h) ev' hl (each_small ev' h8)
        refine ⟨.slice (m.files.map fun f => .struct [.slice (f.path.map .string), .int f.length]), key _ ?_ ?_, ?_⟩
        · exact .present (by rw [k1, hz]; simp) (by rw [k1, hz]; exact setField_files _ hs)
        · rw [h6]; exact .absent (by rw [k2]; exact faithful_lookup_nil hf hh.1 h5) (by decide)
        · simp only [GoVal.asList, List.map_map]
          have : (torrentFileOf ∘ fun f : TorrentFile => GoVal.struct [.slice (f.path.map .string), .int f.length]) = id := by
            funext f
            simp only [Function.comp, torrentFileOf, GoVal.field, id]
            cases f
            simp [GoVal.asList, GoVal.asInt, Function.comp_def, GoVal.asString]
          rw [this]; simp

/-! ## C73 -/

/-- C73: for every document that carries a metainfo, in whatever entry order and with whatever further keys, unmarshalling its
encoding succeeds and gives exactly that metainfo back; in particular the raw info dictionary is the one that was encoded. -/
theorem C73_roundtrip (v : Bencode) (mi : Metainfo) (he : Encodable v) (h : IsMetainfo v mi) :
    ∃ m, unmarshalMetainfo v.encode = (m, .ok) ∧ metainfoOf m = mi := by
  obtain ⟨p, kvs, r, rfl, h1, h2, h3, h4, h5, h6⟩ := lkMetainfo he h
  have hh := he _ (.refl _)
  simp only [EncodableHead] at hh
  obtain ⟨w, hd, hf⟩ := encode_faithful _ (by simp) he
  have hp := parse_complete hd []
  rw [List.append_nil] at hp
  cases hf with
  | dict hf =>
    rename_i ws
    have hinfo : lookupKey (ascii "info") kvs ≠ .nil := by
      obtain ⟨_, _, _, e, _⟩ := h4; rw [e]; simp
    have fi := faithful_lookup_ne hf hh.1 hinfo
    have hraw : (lookupKey (ascii "info") ws).rawBytes = mi.infoDictRaw := by
      obtain ⟨_, _, _, e, _⟩ := h4
      rw [h5, faithful_encode fi e]
    have hinfo' : lookupKey (ascii "info") ws ≠ .nil := by
      intro e
      obtain ⟨_, _, _, e', _⟩ := h4
      rw [e, e'] at fi; cases fi
    obtain ⟨files, hs, hfiles⟩ := setField_info (encodable_lookup he _) fi h4
    have l1 : lookupKey (ascii "announce") ws = .str mi.announce := by
      have := faithful_lookup_ne hf hh.1 (k := ascii "announce") (by rw [h1]; simp)
      rw [h1] at this; exact faithful_str this
    obtain ⟨k1, k2, k3, k4, k5, k6, k7, k8, -⟩ := tagKeys
    have f2 : ∃ x, FieldRes ws (ascii "announce-list,optional") (.slice (.slice .string)) .nilSlice x ∧
        x.asList.map (fun tier => tier.asList.map GoVal.asString) = mi.announceList := by
      rcases h2 with h2 | ⟨h2, e⟩
      · have hne : lookupKey (ascii "announce-list") kvs ≠ .nil := by obtain ⟨_, _, _, e, _⟩ := h2; rw [e]; simp
        have ht := faithful_tiers (encodable_lookup he _) (faithful_lookup_ne hf hh.1 hne) h2
        refine ⟨_, .present (by rw [k2]; obtain ⟨_, _, _, e, _⟩ := ht; rw [e]; simp) (by rw [k2]; exact setField_tiers _ ht), ?_⟩
        simp [GoVal.asList, Function.comp_def, GoVal.asString]
      · exact ⟨_, .absent (by rw [k2]; exact faithful_lookup_nil hf hh.1 h2) (by decide), by simp [GoVal.asList, e]⟩
    have f3 : ∃ x, FieldRes ws (ascii "url-list,optional") (.slice .string) .nilSlice x ∧ x.asList.map GoVal.asString = mi.urlList := by
      rcases h3 with h3 | ⟨h3, e⟩
      · have ht := faithful_strings (faithful_lookup_ne hf hh.1 (isStrings_ne_nil h3)) h3
        refine ⟨_, .present (by rw [k3]; exact isStrings_ne_nil ht) (by rw [k3]; exact setField_strings _ ht), ?_⟩
        simp [GoVal.asList, Function.comp_def, GoVal.asString]
      · exact ⟨_, .absent (by rw [k3]; exact faithful_lookup_nil hf hh.1 h3) (by decide), by simp [GoVal.asList, e]⟩
    have f7 : ∃ x, FieldRes ws (ascii "creation date,optional") (.int 64) (.int 0) x := by
      rcases h6 with h6 | ⟨n, h6⟩
      · exact ⟨_, .absent (by rw [k7]; exact faithful_lookup_nil hf hh.1 h6) (by decide)⟩
      · have := faithful_lookup_ne hf hh.1 (k := ascii "creation date") (by rw [h6]; simp)
        have e7 := encodable_lookup he (ascii "creation date")
        rw [h6] at this e7
        have l7 := faithful_int this
        exact ⟨_, .present (by rw [k7, l7]; simp) (by rw [k7, l7]; exact setField_int64 _ _ (encodable_small e7))⟩
    obtain ⟨x2, f2, e2⟩ := f2
    obtain ⟨x3, f3, e3⟩ := f3
    obtain ⟨x7, f7⟩ := f7
    refine ⟨.ptr (some (.struct [.string mi.announce, x2, x3, infoStruct mi files, .bytes mi.infoDictRaw,
      .string (textOf ws "comment"), .string (textOf ws "created by"), x7, .string (textOf ws "encoding")])), ?_, ?_⟩
    · unfold unmarshalMetainfo unmarshal
      rw [hp]
      simp only [newMetainfo, processTarget, metainfoFields, fld, zeros, zero]
      rw [setFields_next (by decide) (.present (by rw [k1, l1]; simp) (by rw [k1, l1]; exact setField_str _ _))
        (setFields_next (by decide) f2 (setFields_next (by decide) f3
        (setFields_next (by decide) (.present (by rw [k4]; exact hinfo') (by rw [k4]; exact hs))
        (setFields_next (by decide) (.present (x := .bytes mi.infoDictRaw) (by rw [k4]; exact hinfo')
          (by rw [k4, setField, setValue.eq_def]; simp only; rw [hraw]))
        (setFields_next (by decide) (fieldRes_text ws _ _ k5 (by decide))
        (setFields_next (by decide) (fieldRes_text ws _ _ k6 (by decide))
        (setFields_next (by decide) f7
        (setFields_next (by decide) (fieldRes_text ws _ _ k8 (by decide))
        (xs := []) (by rw [setFields])))))))))]
    · simp only [metainfoOf, metaInfo, metaInfoDictRaw, GoVal.field, infoStruct, List.getElem?_cons_succ, List.getElem?_cons_zero,
        Option.getD_some, GoVal.asString, GoVal.asInt, GoVal.asBytes, e2, e3, hfiles]

/-- C73: opening the file that carries a metainfo is `New` on that metainfo, with the info-hash of the encoded info dictionary. -/
theorem C73_open (sha1 : Bytes → Bytes) (os : Os) (outDir : Bytes) (disk : Disk) (v : Bencode) (mi : Metainfo) (he : Encodable v)
    (h : IsMetainfo v mi) :
    openTorrent sha1 os outDir (.ok true) (.ok v.encode) disk = newTorrent sha1 os mi outDir disk := by
  obtain ⟨m, h1, h2⟩ := C73_roundtrip v mi he h
  unfold openTorrent
  simp only
  rw [h1]
  simp only
  rw [h2]

/-! ## C72 -/

theorem filePaths_panic (path : Bytes) : ∀ fs : List TorrentFile, (filePaths path fs).isPanic = true ↔ ∃ f ∈ fs, f.path = [] := by
  intro fs
  induction fs with
  | nil => simp [filePaths, Res.isPanic]
  | cons f fs ih =>
    unfold filePaths
    cases hp : f.path with
    | nil => simp [Res.isPanic, hp]
    | cons p ps =>
      simp only [List.mem_cons, exists_eq_or_imp, hp, reduceCtorEq, false_or]
      rw [← ih]
      cases filePaths path fs <;> simp [Res.bind, Res.isPanic]

theorem createFiles_noPanic (os : Os) : ∀ (ps : List Bytes) (disk : Disk), (createFiles os ps disk).1.isPanic = false := by
  intro ps
  induction ps with
  | nil => intro disk; rfl
  | cons p ps ih =>
    intro disk
    unfold createFiles
    cases os.createError p with
    | some e => rfl
    | none => exact ih _

/-- When `New` panics: the torrent has several files, one of them with an empty path. -/
theorem newTorrent_panic_iff (sha1 : Bytes → Bytes) (os : Os) (m : Metainfo) (root : Bytes) (disk : Disk) :
    (newTorrent sha1 os m root disk).1.isPanic = true ↔
      m.pieces.length % 20 = 0 ∧ m.infoLength = 0 ∧ os.mkdirNotExist (join root m.name) = false ∧ ∃ f ∈ m.files, f.path = [] := by
  have hi : (initDownloadDir os root m.name (decide (m.infoLength = 0)) (if decide (m.infoLength = 0) = true then m.files else []) disk).1.isPanic = true ↔
      m.infoLength = 0 ∧ os.mkdirNotExist (join root m.name) = false ∧ ∃ f ∈ m.files, f.path = [] := by
    unfold initDownloadDir
    by_cases h0 : m.infoLength = 0
    · simp only [h0, decide_true, if_true, true_and]
      cases hm : os.mkdirNotExist (join root m.name) with
      | true => simp [Res.isPanic]
      | false =>
        simp only [Bool.false_eq_true, if_false, true_and]
        rw [← filePaths_panic (join root m.name)]
        cases filePaths (join root m.name) m.files with
        | err e => simp [Res.isPanic]
        | panic e => simp [Res.isPanic]
        | ok ps =>
          simp only
          have := createFiles_noPanic os ps disk
          split <;> rename_i hc <;> rw [hc] at this <;> simp_all [Res.isPanic]
    · simp only [h0, decide_false, Bool.false_eq_true, if_false, false_and, iff_false]
      have := createFiles_noPanic os [join root m.name] disk
      split <;> rename_i hc <;> rw [hc] at this <;> simp_all [Res.isPanic]
  unfold newTorrent newPieces
  by_cases hp : m.pieces.length % 20 = 0
  · rw [if_neg (by omega)]
    simp only [hp, true_and]
    rw [← hi]
    split <;> rename_i hc <;> rw [hc] <;> simp [Res.isPanic]
  · rw [if_pos hp]
    simp [Res.isPanic, hp]

theorem metainfo_keyed : StringKeyedAll metainfoFields := by
  simp [metainfoFields, infoFields, torrentFileFields, fld, StringKeyedAll, StringKeyed]

theorem metainfo_active : ∃ f ∈ metainfoFields, Active f :=
  ⟨fld "Announce" "announce" .string, by simp [metainfoFields], by simp [Active, fld, ascii]⟩

/-- C72, exact: opening a torrent file panics if and only if the file can be read and either `Parse` panics on it, or it does not
contain a dictionary, or it is a well-formed metainfo of several files one of which has an empty path (and the directory can be
made). Missing: never. -/
theorem C72_panic_iff_partial (sha1 : Bytes → Bytes) (os : Os) (outDir : Bytes) (stat : Except String Bool) (file : Except String Bytes)
    (disk : Disk) :
    (openTorrent sha1 os outDir stat file disk).1.isPanic = true ↔
      stat = .ok true ∧ ∃ data, file = .ok data ∧
        (Crashes data ∨ (∃ v, parse data = .ok v ∧ ∀ p kvs raw, v ≠ .dict p kvs raw) ∨
         ∃ m, unmarshalMetainfo data = (m, .ok) ∧ (metainfoOf m).pieces.length % 20 = 0 ∧ (metainfoOf m).infoLength = 0 ∧
          os.mkdirNotExist (join outDir (metainfoOf m).name) = false ∧ ∃ f ∈ (metainfoOf m).files, f.path = []) := by
  unfold openTorrent
  match stat, file with
  | .error e, _ => simp [Res.isPanic]
  | .ok false, _ => simp [Res.isPanic]
  | .ok true, .error e => simp [Res.isPanic]
  | .ok true, .ok data =>
    simp only [true_and, Except.ok.injEq, exists_eq_left']
    have hu := C12_panic_iff_partial metainfoFields metainfo_keyed (zeros metainfoFields) data
    simp only [metainfo_active, and_true] at hu
    have hu' : (unmarshalMetainfo data).2.isPanic = true ↔ _ := hu
    rw [← or_assoc, ← hu']
    match hm : unmarshalMetainfo data with
    | (m, .ok) =>
      simp only [Outcome.isPanic, Bool.false_eq_true, false_or, Prod.mk.injEq, and_true, exists_eq_left']
      rw [newTorrent_panic_iff]
    | (m, .err e) => simp [Outcome.isPanic, Res.isPanic]
    | (m, .panic e) => simp [Outcome.isPanic, Res.isPanic]

/-- C72 as stated is false: a file that contains just the letters `le` (an empty list) crashes the program. -/
theorem C72_violated : ¬ ∀ sha1 os outDir file disk, (openTorrent sha1 os outDir (.ok true) (.ok file) disk).1.isPanic = false := by
  intro h
  have h1 := h (fun _ => []) ⟨fun _ => false, fun _ => none⟩ [] (ascii "le") (fun _ => [])
  have h2 := (C72_panic_iff_partial (fun _ => []) ⟨fun _ => false, fun _ => none⟩ [] (.ok true) (.ok (ascii "le")) (fun _ => [])).2
    ⟨rfl, _, rfl, .inr (.inl ⟨_, parse_complete (.list [] [] .nil) [], by simp⟩)⟩
  rw [h1] at h2; simp at h2

/-- C72, the crash of a well-formed torrent: several files, one of them with an empty path. -/
theorem C72_path_violated (sha1 : Bytes → Bytes) (os : Os) (outDir : Bytes) (disk : Disk) (v : Bencode) (mi : Metainfo) (he : Encodable v)
    (h : IsMetainfo v mi) (hp : mi.pieces.length % 20 = 0) (h0 : mi.infoLength = 0) (hm : os.mkdirNotExist (join outDir mi.name) = false)
    (f : TorrentFile) (hf : f ∈ mi.files) (hpath : f.path = []) :
    (openTorrent sha1 os outDir (.ok true) (.ok v.encode) disk).1.isPanic = true := by
  rw [C73_open _ _ _ _ v mi he h, newTorrent_panic_iff]
  exact ⟨hp, h0, hm, f, hf, hpath⟩

/-- A torrent of two files; `junk` is a key `Unmarshal` does not know. -/
def sampleInfo : Bencode := .dict true [(ascii "pieces", .str (List.replicate 20 7)), (ascii "name", .str (ascii "d")),
  (ascii "files", .list true [.dict true [(ascii "length", .int 3), (ascii "path", .list true [.str (ascii "a"), .str (ascii "b")] [])] [],
    .dict true [(ascii "path", .list true [] []), (ascii "length", .int 1)] []] []), (ascii "piece length", .int 16)] []
def sampleMeta : Bencode := .dict true [(ascii "junk", .list true [.int 1] []), (ascii "info", sampleInfo),
  (ascii "announce", .str (ascii "http://t/"))] []
def sampleMetainfo : Metainfo :=
  { announce := ascii "http://t/", announceList := [], urlList := [], files := [⟨[ascii "a", ascii "b"], 3⟩, ⟨[], 1⟩], infoLength := 0,
    name := ascii "d", pieceLength := 16, pieces := List.replicate 20 7, infoDictRaw := sampleInfo.encode }

theorem lacks_keys {k : String} {kvs : List (Bytes × Bencode)} (h : ascii k ∉ kvs.map Prod.fst) : Lacks kvs k :=
  fun _ hm => h (List.mem_map.2 ⟨_, hm, rfl⟩)

theorem sampleMeta_is : IsMetainfo sampleMeta sampleMetainfo := by
  refine ⟨true, _, [], rfl, by simp [sampleMetainfo], .inr ⟨lacks_keys (by decide), rfl⟩, .inr ⟨lacks_keys (by decide), rfl⟩,
    ⟨sampleInfo, by simp, ?_, rfl⟩, .inl (lacks_keys (by decide))⟩
  refine ⟨true, _, [], rfl, by simp [sampleMetainfo], by simp [sampleMetainfo], by simp [sampleMetainfo],
    .inr ⟨lacks_keys (by decide), rfl, true, _, [], .tail _ (.tail _ (.head _)), ?_⟩⟩
  exact .cons ⟨true, _, [], rfl, ⟨_, .tail _ (.head _), ⟨true, [], rfl⟩⟩, .head _⟩
    (.cons ⟨true, _, [], rfl, ⟨_, .head _, ⟨true, [], rfl⟩⟩, .tail _ (.head _)⟩ .nil)

theorem encodable_int {n : Int} (h : 0 ≤ n ∧ n ≤ maxNumber) : Encodable (.int n) := by
  intro x hx; cases hx; exact h
theorem encodable_str {s : Bytes} (h : s.length ≤ maxNumber) : Encodable (.str s) := by
  intro x hx; cases hx; exact h
theorem encodable_list {p vs r} (h : ∀ v ∈ vs, Encodable v) : Encodable (.list p vs r) := by
  intro x hx
  cases hx with
  | refl => trivial
  | list _ _ h1 h2 => exact h _ h1 _ h2
theorem encodable_dict {p kvs r} (h : ∀ e ∈ kvs, Encodable e.2) (h1 : (kvs.map Prod.fst).Nodup) (h2 : ∀ e ∈ kvs, e.1.length ≤ maxNumber) :
    Encodable (.dict p kvs r) := by
  intro x hx
  cases hx with
  | refl => exact ⟨h1, h2⟩
  | dict _ _ h1 h2 => exact h _ h1 _ h2

theorem sampleMeta_encodable : Encodable sampleMeta := by
  have hi : ∀ n : Int, 0 ≤ n → n ≤ 100 → Encodable (.int n) := fun n h1 h2 => encodable_int ⟨h1, by simp only [maxNumber]; omega⟩
  have hs : ∀ s : Bytes, s.length ≤ 100 → Encodable (.str s) := fun s h => encodable_str (by simp only [maxNumber]; omega)
  have hk : ∀ kvs : List (Bytes × Bencode), (∀ e ∈ kvs, e.1.length ≤ 100) → ∀ e ∈ kvs, e.1.length ≤ maxNumber :=
    fun kvs h e he => by have := h e he; simp only [maxNumber]; omega
  refine encodable_dict ?_ (by decide) (hk _ (by simp; decide))
  simp only [List.mem_cons, List.not_mem_nil, or_false, forall_eq_or_imp, forall_eq]
  refine ⟨encodable_list (by simp; exact hi _ (by decide) (by decide)), encodable_dict ?_ (by decide) (hk _ (by simp; decide)), hs _ (by decide)⟩
  simp only [List.mem_cons, List.not_mem_nil, or_false, forall_eq_or_imp, forall_eq]
  refine ⟨hs _ (by decide), hs _ (by decide), encodable_list ?_, hi _ (by decide) (by decide)⟩
  simp only [List.mem_cons, List.not_mem_nil, or_false, forall_eq_or_imp, forall_eq]
  refine ⟨encodable_dict ?_ (by decide) (hk _ (by simp; decide)), encodable_dict ?_ (by decide) (hk _ (by simp; decide))⟩
  · simp only [List.mem_cons, List.not_mem_nil, or_false, forall_eq_or_imp, forall_eq]
    refine ⟨hi _ (by decide) (by decide), encodable_list ?_⟩
    simp only [List.mem_cons, List.not_mem_nil, or_false, forall_eq_or_imp, forall_eq]
    exact ⟨hs _ (by decide), hs _ (by decide)⟩
  · simp only [List.mem_cons, List.not_mem_nil, or_false, forall_eq_or_imp, forall_eq]
    exact ⟨encodable_list (by simp), hi _ (by decide) (by decide)⟩

/-- C73 on the sample. -/
example : ∃ m, unmarshalMetainfo sampleMeta.encode = (m, .ok) ∧ metainfoOf m = sampleMetainfo :=
  C73_roundtrip _ _ sampleMeta_encodable sampleMeta_is

/-- C72 on the sample: the second file has an empty path, so opening it crashes. -/
example : (openTorrent (fun _ => []) ⟨fun _ => false, fun _ => none⟩ [] (.ok true) (.ok sampleMeta.encode) (fun _ => [])).1.isPanic = true :=
  C72_path_violated _ _ _ _ _ _ sampleMeta_encodable sampleMeta_is (by decide) rfl rfl ⟨[], 1⟩ (by simp [sampleMetainfo]) rfl

end Gotit.Props
