import Verif.Lemmas.Encode
import Verif.Spec.Metainfo
namespace Gotit
open Spec

/-! The same with `lookupKey`. -/

def LkFile (v : Bencode) (f : TorrentFile) : Prop :=
  ∃ p kvs r, v = .dict p kvs r ∧ IsStrings (lookupKey (ascii "path") kvs) f.path ∧
    lookupKey (ascii "length") kvs = .int f.length

def LkInfo (v : Bencode) (m : Metainfo) : Prop :=
  ∃ p kvs r, v = .dict p kvs r ∧ lookupKey (ascii "name") kvs = .str m.name ∧
    lookupKey (ascii "piece length") kvs = .int m.pieceLength ∧ lookupKey (ascii "pieces") kvs = .str m.pieces ∧
    ((lookupKey (ascii "length") kvs = .int m.infoLength ∧ lookupKey (ascii "files") kvs = .nil ∧ m.files = []) ∨
     (lookupKey (ascii "length") kvs = .nil ∧ m.infoLength = 0 ∧
       ∃ q vs s, lookupKey (ascii "files") kvs = .list q vs s ∧ Each LkFile vs m.files))

def LkMetainfo (v : Bencode) (m : Metainfo) : Prop :=
  ∃ p kvs r, v = .dict p kvs r ∧ lookupKey (ascii "announce") kvs = .str m.announce ∧
    (IsTiers (lookupKey (ascii "announce-list") kvs) m.announceList ∨
      (lookupKey (ascii "announce-list") kvs = .nil ∧ m.announceList = [])) ∧
    (IsStrings (lookupKey (ascii "url-list") kvs) m.urlList ∨
      (lookupKey (ascii "url-list") kvs = .nil ∧ m.urlList = [])) ∧
    LkInfo (lookupKey (ascii "info") kvs) m ∧ m.infoDictRaw = (lookupKey (ascii "info") kvs).encode ∧
    (lookupKey (ascii "creation date") kvs = .nil ∨ ∃ n, lookupKey (ascii "creation date") kvs = .int n)

mutual
/-- `Same`, and the raw bytes of every list and dictionary are its encoding. -/
inductive Faithful : Bencode → Bencode → Prop where
  | int (n : Int) : Faithful (.int n) (.int n)
  | str (s : Bytes) : Faithful (.str s) (.str s)
  | list {p : Bool} {r : Bytes} {vs ws : List Bencode} : FaithfulSeq vs ws →
      Faithful (.list p vs r) (.list true ws (108 :: encodeList vs ++ [101]))
  | dict {p : Bool} {r : Bytes} {vs ws : List (Bytes × Bencode)} :
      FaithfulEntries vs ws → Faithful (.dict p vs r) (.dict true ws (100 :: encodeEntries vs ++ [101]))
inductive FaithfulSeq : List Bencode → List Bencode → Prop where
  | nil : FaithfulSeq [] []
  | skip {vs ws : List Bencode} : FaithfulSeq vs ws → FaithfulSeq (.nil :: vs) ws
  | cons {v w : Bencode} {vs ws : List Bencode} : Faithful v w → FaithfulSeq vs ws → FaithfulSeq (v :: vs) (w :: ws)
inductive FaithfulEntries : List (Bytes × Bencode) → List (Bytes × Bencode) → Prop where
  | nil : FaithfulEntries [] []
  | skip {k : Bytes} {vs ws : List (Bytes × Bencode)} : FaithfulEntries vs ws → FaithfulEntries ((k, .nil) :: vs) ws
  | cons {k : Bytes} {v w : Bencode} {vs ws : List (Bytes × Bencode)} :
      Faithful v w → FaithfulEntries vs ws → FaithfulEntries ((k, v) :: vs) ((k, w) :: ws)
end

theorem faithfulEntries_keys {kvs es} (h : FaithfulEntries kvs es) : (es.map Prod.fst).Sublist (kvs.map Prod.fst) := by
  induction es generalizing kvs with
  | nil => simp
  | cons e es ih =>
    induction kvs with
    | nil => cases h
    | cons e' kvs ihk =>
      cases h with
      | skip h => exact (ihk h).trans (List.sublist_cons_self _ _)
      | cons _ h => exact (ih h).cons_cons _

mutual
theorem encode_faithful : ∀ (v : Bencode), v ≠ .nil → Encodable v → ∃ w, Denotes v.encode w ∧ Faithful v w
  | .nil, h, _ => absurd rfl h
  | .int n, h, he => by
    obtain ⟨w, h1, h2⟩ := encode_denotes (.int n) h he
    cases h2; exact ⟨_, h1, .int n⟩
  | .str s, h, he => by
    obtain ⟨w, h1, h2⟩ := encode_denotes (.str s) h he
    cases h2; exact ⟨_, h1, .str s⟩
  | .list p vs r, _, he => by
    obtain ⟨ws, h1, h2⟩ := encodeList_faithful vs (fun v hv x hx => he x (.list p r hv hx))
    exact ⟨_, .list _ _ h1, .list h2⟩
  | .dict p kvs r, _, he => by
    have hh := he _ (.refl _)
    simp only [EncodableHead] at hh
    obtain ⟨es, h1, h2⟩ := encodeEntries_faithful kvs (fun e hv x hx => he x (.dict p r hv hx)) hh.2
    refine ⟨_, .dict _ _ h1, ?_⟩
    rw [mapOf_nodup (List.Nodup.sublist (faithfulEntries_keys h2) hh.1)]
    exact .dict h2
theorem encodeList_faithful : ∀ (vs : List Bencode), (∀ v ∈ vs, Encodable v) →
    ∃ ws, DenotesSeq (encodeList vs) ws ∧ FaithfulSeq vs ws
  | [], _ => ⟨[], by rw [encodeList]; exact .nil, .nil⟩
  | v :: vs, he => by
    obtain ⟨ws, h1, h2⟩ := encodeList_faithful vs (fun v hv => he v (List.mem_cons_of_mem _ hv))
    by_cases hv : v = .nil
    · subst hv
      exact ⟨ws, by rw [encodeList]; exact h1, .skip h2⟩
    · obtain ⟨w, h3, h4⟩ := encode_faithful v hv (he v List.mem_cons_self)
      refine ⟨w :: ws, ?_, .cons h4 h2⟩
      rw [encodeList]
      · exact .cons _ _ _ _ h3 h1
      · exact hv
theorem encodeEntries_faithful : ∀ (kvs : List (Bytes × Bencode)), (∀ e ∈ kvs, Encodable e.2) →
    (∀ e ∈ kvs, e.1.length ≤ maxNumber) → ∃ es, DenotesEntries (encodeEntries kvs) es ∧ FaithfulEntries kvs es
  | [], _, _ => ⟨[], by rw [encodeEntries]; exact .nil, .nil⟩
  | (k, v) :: kvs, he, hk => by
    obtain ⟨ws, h1, h2⟩ := encodeEntries_faithful kvs (fun v hv => he v (List.mem_cons_of_mem _ hv))
      (fun v hv => hk v (List.mem_cons_of_mem _ hv))
    by_cases hv : v = .nil
    · subst hv
      exact ⟨ws, by rw [encodeEntries]; exact h1, .skip h2⟩
    · obtain ⟨w, h3, h4⟩ := encode_faithful v hv (he (k, v) List.mem_cons_self)
      refine ⟨(k, w) :: ws, ?_, .cons h4 h2⟩
      rw [encodeEntries]
      · rw [List.append_assoc]
        exact .cons _ _ _ _ _ _ (denotes_encodeStr k (hk (k, v) List.mem_cons_self)) h3 h1
      · exact hv
end

theorem lookupKey_absent {k : Bytes} : ∀ {ws : List (Bytes × Bencode)}, k ∉ ws.map Prod.fst → lookupKey k ws = .nil := by
  intro ws
  induction ws with
  | nil => intro _; rfl
  | cons e ws ih =>
    intro h
    simp only [List.map_cons, List.mem_cons, not_or] at h
    simp only [lookupKey]
    rw [if_neg (fun e => h.1 e.symm)]
    exact ih h.2

theorem faithful_lookup {kvs ws : List (Bytes × Bencode)} (h : FaithfulEntries kvs ws) (hn : (kvs.map Prod.fst).Nodup) (k : Bytes) :
    (lookupKey k kvs = .nil ∧ lookupKey k ws = .nil) ∨ Faithful (lookupKey k kvs) (lookupKey k ws) := by
  induction kvs generalizing ws with
  | nil => cases h; exact .inl ⟨rfl, rfl⟩
  | cons e kvs ih =>
    simp only [List.map_cons, List.nodup_cons] at hn
    cases h with
    | skip h =>
      rename_i k'
      simp only [lookupKey]
      split
      · rename_i hk; subst hk
        exact .inl ⟨rfl, lookupKey_absent fun hm => hn.1 ((faithfulEntries_keys h).subset hm)⟩
      · exact ih h hn.2
    | cons hv h =>
      simp only [lookupKey]
      split
      · exact .inr hv
      · exact ih h hn.2

theorem faithful_encode {v w : Bencode} (h : Faithful v w) {p kvs r} (hv : v = .dict p kvs r) : w.rawBytes = v.encode := by
  cases h <;> simp_all [Bencode.rawBytes, Bencode.encode]

/-- Looking up in the parsed dictionary, when the value is known. -/
theorem faithful_lookup_ne {kvs ws : List (Bytes × Bencode)} (h : FaithfulEntries kvs ws) (hn : (kvs.map Prod.fst).Nodup) {k : Bytes}
    (hk : lookupKey k kvs ≠ .nil) : Faithful (lookupKey k kvs) (lookupKey k ws) := by
  rcases faithful_lookup h hn k with ⟨h1, _⟩ | h1
  · exact absurd h1 hk
  · exact h1

theorem faithful_lookup_nil {kvs ws : List (Bytes × Bencode)} (h : FaithfulEntries kvs ws) (hn : (kvs.map Prod.fst).Nodup) {k : Bytes}
    (hk : lookupKey k kvs = .nil) : lookupKey k ws = .nil := by
  rcases faithful_lookup h hn k with ⟨_, h1⟩ | h1
  · exact h1
  · rw [hk] at h1; cases h1

theorem faithful_int {n : Int} {w : Bencode} (h : Faithful (.int n) w) : w = .int n := by cases h; rfl
theorem faithful_str {s : Bytes} {w : Bencode} (h : Faithful (.str s) w) : w = .str s := by cases h; rfl

theorem faithful_strs {l : List Bytes} {ws} (h : FaithfulSeq (l.map .str) ws) : ws = l.map .str := by
  induction l generalizing ws with
  | nil => cases h; rfl
  | cons s l ih =>
    simp only [List.map_cons] at h
    cases h with
    | cons h1 h2 => cases h1; rw [ih h2]; rfl

theorem faithful_strings {v w : Bencode} {l : List Bytes} (h : Faithful v w) (hv : IsStrings v l) : IsStrings w l := by
  obtain ⟨p, r, rfl⟩ := hv
  cases h with
  | list h => exact ⟨_, _, by rw [faithful_strs h]⟩

theorem faithful_each {P : Bencode → β → Prop} (hP : ∀ v w b, Encodable v → Faithful v w → P v b → P w b) (hnil : ∀ b, ¬ P .nil b) :
    ∀ {vs ws : List Bencode} {l : List β}, (∀ v ∈ vs, Encodable v) → FaithfulSeq vs ws → Each P vs l → Each P ws l := by
  intro vs
  induction vs with
  | nil => intro ws l _ h1 h2; cases h1; cases h2; exact .nil
  | cons v vs ih =>
    intro ws l he h1 h2
    cases h2 with
    | cons h3 h4 =>
      cases h1 with
      | skip h => exact absurd h3 (hnil _)
      | cons h5 h6 =>
        exact .cons (hP _ _ _ (he v (by simp)) h5 h3) (ih (fun v hv => he v (by simp [hv])) h6 h4)

theorem faithful_tiers {v w : Bencode} {l : List (List Bytes)} (he : Encodable v) (h : Faithful v w) (hv : IsTiers v l) : IsTiers w l := by
  obtain ⟨p, vs, r, rfl, hv⟩ := hv
  cases h with
  | list h =>
    exact ⟨_, _, _, rfl, faithful_each (P := IsStrings) (fun v w b _ h1 h2 => faithful_strings h1 h2)
      (by rintro b ⟨p, r, h⟩; cases h) (fun v hv x hx => he x (.list p r hv hx)) h hv⟩

theorem isStrings_ne_nil {v : Bencode} {l} (h : IsStrings v l) : v ≠ .nil := by
  obtain ⟨p, r, rfl⟩ := h; simp

theorem faithful_file {v w : Bencode} {f : TorrentFile} (he : Encodable v) (h : Faithful v w) (hv : LkFile v f) : LkFile w f := by
  obtain ⟨p, kvs, r, rfl, h1, h2⟩ := hv
  have hh := he _ (.refl _)
  simp only [EncodableHead] at hh
  cases h with
  | dict h =>
    refine ⟨_, _, _, rfl, faithful_strings (faithful_lookup_ne h hh.1 (isStrings_ne_nil h1)) h1, ?_⟩
    have := faithful_lookup_ne h hh.1 (k := ascii "length") (by rw [h2]; simp)
    rw [h2] at this; exact faithful_int this

theorem lookupKey_of_mem {k : Bytes} {v : Bencode} : ∀ {kvs : List (Bytes × Bencode)}, (kvs.map Prod.fst).Nodup → (k, v) ∈ kvs →
    lookupKey k kvs = v := by
  intro kvs
  induction kvs with
  | nil => intro _ h; simp at h
  | cons e kvs ih =>
    intro hn h
    obtain ⟨k', v'⟩ := e
    simp only [List.map_cons, List.nodup_cons] at hn
    simp only [List.mem_cons, Prod.mk.injEq] at h
    simp only [lookupKey]
    rcases h with ⟨rfl, rfl⟩ | h
    · simp
    · rw [if_neg]
      · exact ih hn.2 h
      · intro e; subst e; exact hn.1 (List.mem_map.2 ⟨_, h, rfl⟩)

theorem lookupKey_of_lacks {k : String} {kvs : List (Bytes × Bencode)} (h : Lacks kvs k) : lookupKey (ascii k) kvs = .nil := by
  apply lookupKey_absent
  intro hm
  obtain ⟨⟨a, b⟩, h1, h2⟩ := List.mem_map.1 hm
  simp only at h2
  subst h2
  exact h _ h1

theorem encodable_mem {p kvs r} (he : Encodable (.dict p kvs r)) {k : Bytes} {v : Bencode} (h : (k, v) ∈ kvs) : Encodable v :=
  fun x hx => he x (.dict p r h hx)

theorem encodable_nodup {p kvs r} (he : Encodable (.dict p kvs r)) : (kvs.map Prod.fst).Nodup := by
  have := he _ (.refl _)
  simp only [EncodableHead] at this
  exact this.1

theorem lkFile {v : Bencode} {f : TorrentFile} (he : Encodable v) (h : IsFile v f) : LkFile v f := by
  obtain ⟨p, kvs, r, rfl, ⟨x, h1, h2⟩, h3⟩ := h
  have hn := encodable_nodup he
  exact ⟨p, kvs, r, rfl, by rw [lookupKey_of_mem hn h1]; exact h2, lookupKey_of_mem hn h3⟩

theorem lkFiles : ∀ {vs : List Bencode} {fs : List TorrentFile}, (∀ v ∈ vs, Encodable v) → Each IsFile vs fs → Each LkFile vs fs := by
  intro vs
  induction vs with
  | nil => intro fs _ h; cases h; exact .nil
  | cons v vs ih =>
    intro fs he h
    cases h with
    | cons h1 h2 => exact .cons (lkFile (he _ List.mem_cons_self) h1) (ih (fun v hv => he v (List.mem_cons_of_mem _ hv)) h2)

theorem lkInfo {v : Bencode} {m : Metainfo} (he : Encodable v) (h : IsInfo v m) : LkInfo v m := by
  obtain ⟨p, kvs, r, rfl, h1, h2, h3, h4⟩ := h
  have hn := encodable_nodup he
  refine ⟨p, kvs, r, rfl, lookupKey_of_mem hn h1, lookupKey_of_mem hn h2, lookupKey_of_mem hn h3, ?_⟩
  rcases h4 with ⟨h5, h6, h7⟩ | ⟨h5, h6, q, vs, s, h7, h8⟩
  · exact .inl ⟨lookupKey_of_mem hn h5, lookupKey_of_lacks h6, h7⟩
  · exact .inr ⟨lookupKey_of_lacks h5, h6, q, vs, s, lookupKey_of_mem hn h7,
      lkFiles (fun v hv x hx => encodable_mem he h7 x (.list q s hv hx)) h8⟩

theorem lkMetainfo {v : Bencode} {m : Metainfo} (he : Encodable v) (h : IsMetainfo v m) : LkMetainfo v m := by
  obtain ⟨p, kvs, r, rfl, h1, h2, h3, ⟨x, h4, h5, h6⟩, h7⟩ := h
  have hn := encodable_nodup he
  refine ⟨p, kvs, r, rfl, lookupKey_of_mem hn h1, ?_, ?_, ?_, ?_, ?_⟩
  · rcases h2 with ⟨y, h8, h9⟩ | ⟨h8, h9⟩
    · exact .inl (by rw [lookupKey_of_mem hn h8]; exact h9)
    · exact .inr ⟨lookupKey_of_lacks h8, h9⟩
  · rcases h3 with ⟨y, h8, h9⟩ | ⟨h8, h9⟩
    · exact .inl (by rw [lookupKey_of_mem hn h8]; exact h9)
    · exact .inr ⟨lookupKey_of_lacks h8, h9⟩
  · rw [lookupKey_of_mem hn h4]; exact lkInfo (encodable_mem he h4) h5
  · rw [lookupKey_of_mem hn h4]; exact h6
  · rcases h7 with h7 | ⟨n, h7⟩
    · exact .inl (lookupKey_of_lacks h7)
    · exact .inr ⟨n, lookupKey_of_mem hn h7⟩

end Gotit
