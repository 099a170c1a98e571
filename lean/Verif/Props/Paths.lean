import Verif.Spec.Path
import Verif.Lemmas.Path
import Verif.Lemmas.New
import Verif.Props.Files
import Verif.Props.PiecesNum
/-
  C46, C47, C48 (what New creates), and the link from New to C39 and C41.
-/
namespace Gotit.Props
open Gotit Spec

/-- A metainfo with one small file. -/
def oneFile (name : Bytes) : Metainfo :=
  { announce := ascii "http://t/a", announceList := [], urlList := [], files := [], infoLength := 5, name := name,
    pieceLength := 4, pieces := List.replicate 40 1, infoDictRaw := [] }

/-- A metainfo with several files. -/
def manyFiles (name : Bytes) (files : List TorrentFile) : Metainfo :=
  { oneFile name with files := files, infoLength := 0 }

/-- An operating system without errors. -/
def goodOs : Os := { mkdirNotExist := fun _ => false, createError := fun _ => none }

/-! ## C46 -/

/-- C46, proved for metainfos whose name and first path elements are plain file names: whatever New returns, it changes
only files below the download directory, and the files it opened are there. Missing: other names, see `C46_violated`. -/
theorem C46_inside_partial (sha1 : Bytes → Bytes) (os : Os) (m : Metainfo) (root : Bytes) (disk : Disk)
    (hn : PlainName m.name) (hf : m.infoLength = 0 → ∀ f ∈ m.files, f.path ≠ [] → PlainName (f.path.headD [])) :
    (∀ q, (newTorrent sha1 os m root disk).2 q ≠ disk q → Inside root q) ∧
    (∀ t disk', newTorrent sha1 os m root disk = (.ok t, disk') → ∀ q ∈ t.osFiles, Inside root q) := by
  have h1 : Inside root (join root m.name) := by
    obtain ⟨e1, e2⟩ := place_join_plain root m.name hn
    exact ⟨e2, by rw [e1], [m.name], by simp, by rw [e1]⟩
  have h2 : ∀ c, PlainName c → Inside root (join (join root m.name) c) := by
    intro c hc
    obtain ⟨e1, e2⟩ := place_join_plain root m.name hn
    obtain ⟨e3, e4⟩ := place_join_plain (join root m.name) c hc
    exact ⟨by rw [absolute_eq, e4, e2], by rw [e3, e1], [m.name, c], by simp, by rw [e3, e1]; simp⟩
  refine ⟨?_, ?_⟩
  · intro q hq
    apply Classical.byContradiction
    intro hi
    apply hq
    apply newTorrent_frame
    · rintro _ rfl; exact hi h1
    · rintro h0 f hfm hp rfl; exact hi (h2 _ (hf h0 f hfm hp))
  · intro t disk' h q hq
    obtain ⟨_, hd, -⟩ := newTorrent_ok h
    obtain ⟨g1, g2, _⟩ := initDownloadDir_ok hd
    by_cases h0 : m.infoLength = 0
    · have := g1 (by simp [h0])
      rw [if_pos h0] at this
      obtain ⟨h3, h4⟩ := filePaths_inv _ _ _ this
      rw [h4] at hq
      obtain ⟨f, hfm, rfl⟩ := List.mem_map.1 hq
      exact h2 _ (hf h0 f hfm (h3 f hfm))
    · rw [g2 (by simp [h0]), List.mem_singleton] at hq
      rw [hq]; exact h1

theorem foldl_enter_up (abs : Bool) : ∀ (k : Nat) (ns : List Bytes), ns.length = k → ∀ u,
    (List.replicate k dotdot).foldl (enter abs) ⟨u, ns⟩ = ⟨u, []⟩ := by
  intro k
  induction k with
  | zero => intro ns h u; rw [List.length_eq_zero_iff.1 h]; rfl
  | succ k ih =>
    intro ns h u
    rw [List.replicate_succ, List.foldl_cons]
    have hne : ns ≠ [] := by intro e; rw [e] at h; simp at h
    have : enter abs ⟨u, ns⟩ dotdot = ⟨u, ns.dropLast⟩ := by
      unfold enter
      rw [if_neg (by decide), if_pos (by rfl), if_pos hne]
    rw [this]
    exact ih _ (by rw [List.length_dropLast]; omega) u

/-- The name that climbs out of `root` and down to `target`. -/
def climb (root : Bytes) (target : List Bytes) : Bytes := joinSlash (List.replicate (place root).names.length dotdot ++ target)

theorem join_climb (root : Bytes) (target : List Bytes) (ha : isAbs root = true) (ht : target ≠ [])
    (hp : ∀ c ∈ target, PlainName c) : join root (climb root target) = slash :: joinSlash target := by
  have hne : root ≠ [] := by rintro rfl; cases ha
  have hj : join root (climb root target) = clean (root ++ slash :: climb root target) := by unfold join; rw [if_pos hne]
  rw [hj, clean_eq, isAbs_append _ _ hne, ha]
  have hpl : place (root ++ slash :: climb root target) = ⟨0, target⟩ := by
    simp only [place_def]
    rw [isAbs_append _ _ hne, splitSlash_append, List.foldl_append]
    have hroot : (splitSlash root).foldl (enter (isAbs root)) ⟨0, []⟩ = place root := (place_def root).symm
    rw [hroot]
    unfold climb
    rw [splitSlash_join _ (by simp [ht]) (by
      intro c hc
      rcases List.mem_append.1 hc with hc | hc
      · rw [List.mem_replicate] at hc; rw [hc.2]; decide
      · exact (hp c hc).2.2.2), List.foldl_append]
    have hu := place_ups_abs root ha
    have hpe : place root = ⟨0, (place root).names⟩ := by
      cases hr : place root; rw [hr] at hu; simp at hu; simp [hu]
    rw [hpe]
    simp only
    rw [foldl_enter_up _ _ _ rfl, foldl_names _ _ _ hp]
    simp
  rw [hpl]
  unfold textOf
  simp only [List.replicate_zero, List.nil_append]
  cases target with
  | nil => exact absurd rfl ht
  | cons x xs => simp

/-- C46 is false of the code: for every absolute download directory and every absolute target path there is a torrent
name with which New opens, and truncates, exactly that target. -/
theorem C46_violated (sha1 : Bytes → Bytes) (root : Bytes) (target : List Bytes) (ha : isAbs root = true) (ht : target ≠ [])
    (hp : ∀ c ∈ target, PlainName c) (disk : Disk) :
    ∃ name t disk', newTorrent sha1 goodOs (oneFile name) root disk = (.ok t, disk') ∧
      t.osFiles = [slash :: joinSlash target] ∧ disk' (slash :: joinSlash target) = [] := by
  refine ⟨climb root target, ?_⟩
  obtain ⟨t, d', h⟩ := newTorrent_succeeds sha1 goodOs (oneFile (climb root target)) root disk (by simp [oneFile])
    (by intro h; simp [oneFile] at h) (by simp [goodOs]) (by simp [goodOs])
  obtain ⟨_, hd, -⟩ := newTorrent_ok h
  obtain ⟨_, g2, g3⟩ := initDownloadDir_ok hd
  have e : t.osFiles = [slash :: joinSlash target] := by
    rw [g2 (by simp [oneFile])]
    have := join_climb root target ha ht hp
    simpa [oneFile] using this
  refine ⟨t, d', h, e, ?_⟩
  exact createFiles_empty _ _ _ _ g3 _ (by rw [e]; simp)

/-- The same through a file path of a multi-file torrent with a plain name. -/
theorem C46_path_violated (sha1 : Bytes → Bytes) (root name : Bytes) (target : List Bytes) (ha : isAbs root = true) (ht : target ≠ [])
    (hn : PlainName name) (hp : ∀ c ∈ target, PlainName c) (disk : Disk) :
    ∃ path t disk', newTorrent sha1 goodOs (manyFiles name [⟨[path], 5⟩]) root disk = (.ok t, disk') ∧
      t.osFiles = [slash :: joinSlash target] ∧ disk' (slash :: joinSlash target) = [] := by
  have ha2 : isAbs (join root name) = true := by rw [(place_join_plain root name hn).2, ha]
  refine ⟨climb (join root name) target, ?_⟩
  obtain ⟨t, d', h⟩ := newTorrent_succeeds sha1 goodOs (manyFiles name [⟨[climb (join root name) target], 5⟩]) root disk (by simp [manyFiles, oneFile])
    (by intro _ f hf; simp [manyFiles] at hf; simp [hf]) (by simp [goodOs]) (by simp [goodOs])
  obtain ⟨_, hd, -⟩ := newTorrent_ok h
  obtain ⟨g1, _, g3⟩ := initDownloadDir_ok hd
  have e : t.osFiles = [slash :: joinSlash target] := by
    have := g1 (by simp [manyFiles])
    simp only [manyFiles, if_true] at this
    rw [(filePaths_inv _ _ _ this).2]
    have := join_climb (join root name) target ha2 ht hp
    simpa [oneFile] using this
  refine ⟨t, d', h, e, ?_⟩
  exact createFiles_empty _ _ _ _ g3 _ (by rw [e]; simp)

/-- A target outside the download directory. -/
example : ¬ Inside (ascii "/home/u/dl") (ascii "/etc/passwd") := by
  rintro ⟨-, -, rest, -, h⟩
  have h1 : (place (ascii "/etc/passwd")).names = [ascii "etc", ascii "passwd"] := by decide
  have h2 : (place (ascii "/home/u/dl")).names = [ascii "home", ascii "u", ascii "dl"] := by decide
  rw [h1, h2] at h
  have := congrArg List.length h
  simp at this

example : climb (ascii "/home/u/dl") [ascii "etc", ascii "passwd"] = ascii "../../../etc/passwd" := by decide
example : Inside (ascii "/home/u/dl") (join (ascii "/home/u/dl") (ascii "song.mp3")) :=
  ⟨by decide, by decide, [ascii "song.mp3"], by simp, by decide⟩

/-! ## C47 -/

/-- C47, proved for first path elements that are plain names: if they are pairwise distinct, so are the files on disk, and
there is one per torrent file. Missing: files that differ only in later path elements, see `C47_violated`. -/
theorem C47_distinct_partial (sha1 : Bytes → Bytes) (os : Os) (m : Metainfo) (root : Bytes) (disk disk' : Disk) (t : Torrent)
    (h : newTorrent sha1 os m root disk = (.ok t, disk')) (h0 : m.infoLength = 0)
    (hp : ∀ f ∈ m.files, PlainName (f.path.headD [])) (hd : (m.files.map (fun f => f.path.headD [])).Nodup) :
    t.osFiles.Nodup ∧ t.osFiles.length = m.files.length := by
  obtain ⟨_, hi, -⟩ := newTorrent_ok h
  obtain ⟨g1, _, _⟩ := initDownloadDir_ok hi
  have := g1 (by simp [h0])
  rw [if_pos h0] at this
  rw [(filePaths_inv _ _ _ this).2]
  refine ⟨?_, by simp⟩
  have hinj : ∀ a b, PlainName a → PlainName b → join (join root m.name) a = join (join root m.name) b → a = b := by
    intro a b ha hb e
    have e1 := (place_join_plain (join root m.name) a ha).1
    have e2 := (place_join_plain (join root m.name) b hb).1
    rw [e, e2] at e1
    simp only [Place.mk.injEq, List.append_cancel_left_eq, List.cons.injEq, and_true, true_and] at e1
    exact e1.symm
  clear this g1 hi h
  generalize m.files = fs at hp hd ⊢
  induction fs with
  | nil => simp
  | cons f fs ih =>
    simp only [List.map_cons, List.nodup_cons] at hd ⊢
    refine ⟨?_, ih (fun x hx => hp x (by simp [hx])) hd.2⟩
    intro hm
    obtain ⟨g, hg, e⟩ := List.mem_map.1 hm
    apply hd.1
    exact List.mem_map.2 ⟨g, hg, hinj _ _ (hp g (by simp [hg])) (hp f (by simp)) e⟩

/-- C47 is false of the code: any two files whose paths begin with the same element share one file on disk, whatever the
rest of their paths is. -/
theorem C47_violated (sha1 : Bytes → Bytes) (os : Os) (m : Metainfo) (root : Bytes) (disk disk' : Disk) (t : Torrent)
    (h : newTorrent sha1 os m root disk = (.ok t, disk')) (h0 : m.infoLength = 0) (i j : Nat) (f g : TorrentFile)
    (hi : m.files[i]? = some f) (hj : m.files[j]? = some g) (he : f.path.head? = g.path.head?) :
    t.osFiles[i]? = t.osFiles[j]? ∧ t.osFiles[i]? ≠ none := by
  obtain ⟨_, hd, -⟩ := newTorrent_ok h
  obtain ⟨g1, _, _⟩ := initDownloadDir_ok hd
  have := g1 (by simp [h0])
  rw [if_pos h0] at this
  rw [(filePaths_inv _ _ _ this).2, List.getElem?_map, List.getElem?_map, hi, hj]
  simp [List.headD_eq_head?_getD, he]

/-- Two files in one directory (`d/x` and `d/y`), as in most albums: New accepts them and opens `/r/n/d` twice. -/
example (sha1 : Bytes → Bytes) (disk : Disk) : ∃ t disk', newTorrent sha1 goodOs
    (manyFiles (ascii "n") [⟨[ascii "d", ascii "x"], 1⟩, ⟨[ascii "d", ascii "y"], 1⟩]) (ascii "/r") disk = (.ok t, disk') ∧
    t.osFiles = [ascii "/r/n/d", ascii "/r/n/d"] := by
  obtain ⟨t, d', h⟩ := newTorrent_succeeds sha1 goodOs
    (manyFiles (ascii "n") [⟨[ascii "d", ascii "x"], 1⟩, ⟨[ascii "d", ascii "y"], 1⟩]) (ascii "/r") disk (by decide)
    (by intro _ f hf; simp [manyFiles] at hf; rcases hf with rfl | rfl <;> simp) (by simp [goodOs]) (by simp [goodOs])
  refine ⟨t, d', h, ?_⟩
  obtain ⟨_, hd, -⟩ := newTorrent_ok h
  obtain ⟨g1, _, _⟩ := initDownloadDir_ok hd
  have := g1 (by simp [manyFiles])
  simp only [manyFiles, if_true] at this
  rw [(filePaths_inv _ _ _ this).2]
  decide

/-! ## C48 -/

theorem add_mem (s : StringSet) (x y : Bytes) : y ∈ (s.add x).1 ↔ y ∈ s ∨ y = x := by
  unfold StringSet.add
  by_cases h : x ∈ s
  · simp only [List.contains_iff_mem, h, if_true]
    constructor
    · exact .inl
    · rintro (h' | rfl)
      · exact h'
      · exact h
  · simp [h]

theorem add_nodup (s : StringSet) (x : Bytes) (h : s.Nodup) : (s.add x).1.Nodup := by
  unfold StringSet.add
  by_cases hx : x ∈ s
  · simp only [List.contains_iff_mem, hx, if_true]; exact h
  · simp only [List.contains_iff_mem, hx, if_false]
    rw [List.nodup_append]
    refine ⟨h, by simp, ?_⟩
    intro a ha b hb
    rw [List.mem_singleton] at hb
    rintro rfl
    exact hx (hb ▸ ha)

theorem foldl_add (xs : List Bytes) : ∀ s : StringSet, s.Nodup →
    (xs.foldl (fun s e => (StringSet.add s e).1) s).Nodup ∧ ∀ y, y ∈ xs.foldl (fun s e => (StringSet.add s e).1) s ↔ y ∈ s ∨ y ∈ xs := by
  induction xs with
  | nil => intro s h; simp [h]
  | cons x xs ih =>
    intro s h
    obtain ⟨h1, h2⟩ := ih _ (add_nodup s x h)
    refine ⟨h1, ?_⟩
    intro y
    rw [List.foldl_cons, h2, add_mem, List.mem_cons]
    constructor
    · rintro ((a | a) | a)
      · exact .inl a
      · exact .inr (.inl a)
      · exact .inr (.inr a)
    · rintro (a | a | a)
      · exact .inl (.inl a)
      · exact .inl (.inr a)
      · exact .inr a

theorem foldl_tiers (xss : List (List Bytes)) : ∀ s : StringSet, s.Nodup →
    (xss.foldl (fun s tier => tier.foldl (fun s e => (StringSet.add s e).1) s) s).Nodup ∧
    ∀ y, y ∈ xss.foldl (fun s tier => tier.foldl (fun s e => (StringSet.add s e).1) s) s ↔ y ∈ s ∨ ∃ tier ∈ xss, y ∈ tier := by
  induction xss with
  | nil => intro s h; simp [h]
  | cons x xs ih =>
    intro s h
    obtain ⟨h3, h4⟩ := foldl_add x s h
    obtain ⟨h1, h2⟩ := ih _ h3
    refine ⟨h1, ?_⟩
    intro y
    rw [List.foldl_cons, h2, h4]
    simp only [List.mem_cons, exists_eq_or_imp]
    constructor
    · rintro ((a | a) | a)
      · exact .inl a
      · exact .inr (.inl a)
      · exact .inr (.inr a)
    · rintro (a | a | a)
      · exact .inl (.inl a)
      · exact .inl (.inr a)
      · exact .inr a

/-- C48: the trackers are exactly the announce URL, the URLs of all tiers and the url-list, each once. -/
theorem C48_trackers (sha1 : Bytes → Bytes) (os : Os) (m : Metainfo) (root : Bytes) (disk disk' : Disk) (t : Torrent)
    (h : newTorrent sha1 os m root disk = (.ok t, disk')) :
    t.trackers.Nodup ∧ ∀ u, u ∈ t.trackers ↔ u = m.announce ∨ (∃ tier ∈ m.announceList, u ∈ tier) ∨ u ∈ m.urlList := by
  obtain ⟨_, _, _, _, _, _, _, e, -⟩ := newTorrent_ok h
  rw [e]
  unfold trackersOf
  simp only
  have h0 : (StringSet.add [] m.announce).1.Nodup := add_nodup _ _ (by simp)
  obtain ⟨h1, h2⟩ := foldl_tiers m.announceList _ h0
  obtain ⟨h3, h4⟩ := foldl_add m.urlList _ h1
  refine ⟨h3, ?_⟩
  intro u
  rw [h4, h2, add_mem]
  simp only [List.not_mem_nil, false_or]
  constructor
  · rintro ((a | a) | a)
    · exact .inl a
    · exact .inr (.inl a)
    · exact .inr (.inr a)
  · rintro (a | a | a)
    · exact .inl (.inl a)
    · exact .inl (.inr a)
    · exact .inr a

example : trackersOf { oneFile (ascii "n") with announceList := [[ascii "u1", ascii "http://t/a"], [ascii "u1"]], urlList := [ascii "w"] } =
    [ascii "http://t/a", ascii "u1", ascii "w"] := by decide

/-- `Add` reports whether the element is new, and `AddAll` is the union (set.go:9-22). -/
theorem C48_add_reports (s : StringSet) (x : Bytes) : (s.add x).2 = true ↔ x ∉ s := by
  unfold StringSet.add
  by_cases h : x ∈ s <;> simp [h]

theorem C48_addAll (s other : StringSet) (hs : s.Nodup) : (s.addAll other).Nodup ∧ ∀ y, y ∈ s.addAll other ↔ y ∈ s ∨ y ∈ other :=
  foldl_add other s hs

/-! ## C41 and C39 from New -/

/-- Lengths and names as an ordinary torrent has them. -/
structure Sensible (m : Metainfo) : Prop where
  single : m.infoLength ≠ 0 → 0 < m.infoLength ∧ m.infoLength < 2 ^ 63
  multi : m.infoLength = 0 → (∀ f ∈ m.files, 0 ≤ f.length ∧ PlainName (f.path.headD [])) ∧
    (m.files.map (fun f => f.length.toNat)).sum < 2 ^ 63 ∧ (m.files.map (fun f => f.path.headD [])).Nodup

theorem foldl_length : ∀ (fs : List TorrentFile) (a : Nat), (∀ f ∈ fs, 0 ≤ f.length) →
    a + (fs.map (fun f => f.length.toNat)).sum < 2 ^ 63 →
    fs.foldl (fun (a : Int) f => wrap64 (a + f.length)) (a : Int) = ((a + (fs.map (fun f => f.length.toNat)).sum : Nat) : Int) := by
  intro fs
  induction fs with
  | nil => intro a _ _; simp
  | cons f fs ih =>
    intro a h hs
    simp only [List.map_cons, List.sum_cons] at hs ⊢
    have hf := h f (by simp)
    rw [List.foldl_cons, wrap64_of _ (by omega) (by omega)]
    rw [show (a : Int) + f.length = ((a + f.length.toNat : Nat) : Int) from by omega]
    rw [ih _ (fun x hx => h x (by simp [hx])) (by omega)]
    congr 1; omega

/-- The torrents `New` builds from sensible metainfos satisfy the hypotheses of C41 and C42; all files are empty and
their lengths add up to the torrent's length. -/
theorem C41_reachable (sha1 : Bytes → Bytes) (os : Os) (m : Metainfo) (root : Bytes) (disk disk' : Disk) (t : Torrent)
    (h : newTorrent sha1 os m root disk = (.ok t, disk')) (hs : Sensible m) :
    Ready t ∧ WithinLengths disk' (extents t) ∧ (total (extents t) : Int) = t.length ∧ ∀ p ∈ t.osFiles, disk' p = [] := by
  obtain ⟨_, hi, hdir, hfs, hlen, -⟩ := newTorrent_ok h
  obtain ⟨g1, g2, g3⟩ := initDownloadDir_ok hi
  have hempty := createFiles_empty _ _ _ _ g3
  by_cases h0 : m.infoLength = 0
  · have hb : t.isDirectory = true := by rw [hdir]; simp [h0]
    rw [if_pos h0] at hfs
    obtain ⟨k1, k2, k3⟩ := hs.multi h0
    obtain ⟨n1, n2⟩ := C47_distinct_partial sha1 os m root disk disk' t h h0 (fun f hf => (k1 f hf).2) k3
    have hx : (extents t).map (·.1) = m.files.map (fun f => f.length.toNat) := by
      simp only [extents, hb, if_true, List.map_map, hfs]
      have : (m.files.zip t.osFiles).map (·.1) = m.files := by rw [List.map_fst_zip]; omega
      conv => rhs; rw [← this, List.map_map]
      rfl
    have hx2 : (extents t).map (·.2) = t.osFiles := by
      simp only [extents, hb, if_true, List.map_map, hfs]
      have : (m.files.zip t.osFiles).map (·.2) = t.osFiles := by rw [List.map_snd_zip]; omega
      conv => rhs; rw [← this]
      rfl
    have htot : total (extents t) = (m.files.map (fun f => f.length.toNat)).sum := by rw [total, hx]
    refine ⟨⟨fun _ => ⟨by rw [hfs, n2], by rw [hfs]; exact fun f hf => (k1 f hf).1, by omega, n1⟩, fun e => by simp [hb] at e⟩, ?_, ?_, hempty⟩
    · intro x hxm
      rw [hempty _ (by rw [← hx2]; exact List.mem_map_of_mem hxm)]
      simp
    · rw [hlen, htot]
      unfold torrentLength
      rw [if_neg (by simp [h0])]
      have := foldl_length m.files 0 (fun f hf => (k1 f hf).1) (by omega)
      simp only [Int.natCast_zero, Nat.zero_add] at this
      rw [← this]
  · have hb : t.isDirectory = false := by rw [hdir]; simp [h0]
    have hl : t.length = m.infoLength := by rw [hlen]; unfold torrentLength; rw [if_pos h0]
    have ho := g2 (by simp [h0])
    have hx : extents t = [(t.length.toNat, join root m.name)] := by simp [extents, hb, ho]
    have := hs.single h0
    refine ⟨⟨fun e => by simp [hb] at e, fun _ => ⟨_, ho, by omega, by omega⟩⟩, ?_, ?_, hempty⟩
    · intro x hxm
      rw [hx, List.mem_singleton] at hxm
      subst hxm
      rw [hempty _ (by rw [ho]; simp)]
      simp
    · rw [hx]; simp [total]; omega

/-- A torrent of two files, in a download directory with one of them already present. -/
example (sha1 : Bytes → Bytes) : ∃ t disk', newTorrent sha1 goodOs
    (manyFiles (ascii "n") [⟨[ascii "a"], 3⟩, ⟨[ascii "b"], 4⟩]) (ascii "/r") (fun _ => [1, 2, 3, 4, 5]) = (.ok t, disk') ∧
    Ready t ∧ total (extents t) = 7 ∧
    ∃ disk'', writePieceData t [7, 8, 9] 2 disk' = (.ok (), disk'') ∧
      layout disk'' (extents t) = splice (layout disk' (extents t)) 2 [7, 8, 9] := by
  obtain ⟨t, d', h⟩ := newTorrent_succeeds sha1 goodOs
    (manyFiles (ascii "n") [⟨[ascii "a"], 3⟩, ⟨[ascii "b"], 4⟩]) (ascii "/r") (fun _ => [1, 2, 3, 4, 5]) (by decide)
    (by intro _ f hf; simp [manyFiles] at hf; rcases hf with rfl | rfl <;> simp) (by simp [goodOs]) (by simp [goodOs])
  have hs : Sensible (manyFiles (ascii "n") [⟨[ascii "a"], 3⟩, ⟨[ascii "b"], 4⟩]) :=
    ⟨fun h => by simp [manyFiles] at h, fun _ => ⟨by decide, by decide, by decide⟩⟩
  obtain ⟨h1, h2, h3, _⟩ := C41_reachable _ _ _ _ _ _ _ h hs
  obtain ⟨_, _, _, _, hlen, -⟩ := newTorrent_ok h
  have h7 : t.length = 7 := by rw [hlen]; decide
  have ht : total (extents t) = 7 := by omega
  obtain ⟨d'', e1, e2, _⟩ := C41_layout t h1 [7, 8, 9] 2 d' h2 (by simp) (by simp [ht])
  exact ⟨t, d', h, h1, ht, d'', e1, e2⟩

/-- C39 for the torrents of New: before anything was downloaded, Done is false exactly if the piece length is positive. -/
theorem C39_new_partial (sha1 : Bytes → Bytes) (os : Os) (m : Metainfo) (root : Bytes) (disk disk' : Disk) (t : Torrent)
    (h : newTorrent sha1 os m root disk = (.ok t, disk')) (hl : 0 < t.length) (hl2 : t.length ≤ 2 ^ 51)
    (hp2 : t.pieceLength.natAbs ≤ 2 ^ 53) : t.downloaded.all = false ↔ 0 < t.pieceLength := by
  obtain ⟨_, _, _, _, e1, e2, e3, _, _, _, _, e4, _⟩ := newTorrent_ok h
  rw [e4, e3, ← e1, ← e2]
  have := C39_initial_partial t.length.toNat t.pieceLength (by omega) (by omega) hp2
  rwa [Int.toNat_of_nonneg (by omega)] at this

end Gotit.Props
