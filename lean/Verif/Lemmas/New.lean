import Verif.Model.Files
import Verif.Lemmas.Files
namespace Gotit
open Spec

theorem createFiles_frame (os : Os) : ∀ (ps : List Bytes) (disk : Disk) (q : Bytes), q ∉ ps → (createFiles os ps disk).2 q = disk q := by
  intro ps
  induction ps with
  | nil => intros; rfl
  | cons p ps ih =>
    intro disk q hq
    simp only [List.mem_cons, not_or] at hq
    unfold createFiles
    cases os.createError p with
    | some e => rfl
    | none => simp only; rw [ih _ _ hq.2]; simp [Disk.update, hq.1]

theorem createFiles_keeps_empty (os : Os) : ∀ (ps : List Bytes) (disk : Disk) (q : Bytes), disk q = [] → (createFiles os ps disk).2 q = [] := by
  intro ps
  induction ps with
  | nil => intro _ _ h; exact h
  | cons p ps ih =>
    intro disk q hq
    unfold createFiles
    cases os.createError p with
    | some e => exact hq
    | none =>
      simp only
      apply ih
      unfold Disk.update
      split
      · rfl
      · exact hq

theorem createFiles_empty (os : Os) : ∀ (ps : List Bytes) (disk d' : Disk), createFiles os ps disk = (.ok (), d') →
    ∀ q ∈ ps, d' q = [] := by
  intro ps
  induction ps with
  | nil => intro _ _ _ q hq; cases hq
  | cons p ps ih =>
    intro disk d' h q hq
    unfold createFiles at h
    cases hc : os.createError p with
    | some e => rw [hc] at h; simp at h
    | none =>
      rw [hc] at h
      simp only at h
      rcases List.mem_cons.1 hq with rfl | hq
      · have := createFiles_keeps_empty os ps (disk.update q []) q (by simp [Disk.update])
        rw [h] at this; exact this
      · exact ih _ _ h q hq

theorem createFiles_ok (os : Os) (h : ∀ p, os.createError p = none) : ∀ (ps : List Bytes) (disk : Disk),
    ∃ d', createFiles os ps disk = (.ok (), d') := by
  intro ps
  induction ps with
  | nil => intro disk; exact ⟨disk, rfl⟩
  | cons p ps ih =>
    intro disk
    unfold createFiles
    rw [h p]
    exact ih _

theorem filePaths_ok (path : Bytes) : ∀ (fs : List TorrentFile), (∀ f ∈ fs, f.path ≠ []) →
    filePaths path fs = .ok (fs.map (fun f => join path (f.path.headD []))) := by
  intro fs
  induction fs with
  | nil => intro _; rfl
  | cons f fs ih =>
    intro h
    unfold filePaths
    cases hp : f.path with
    | nil => exact absurd hp (h f (by simp))
    | cons p ps =>
      simp only
      rw [ih (fun x hx => h x (by simp [hx]))]
      simp [Res.bind, hp]

theorem filePaths_inv (path : Bytes) : ∀ (fs : List TorrentFile) (ps : List Bytes), filePaths path fs = .ok ps →
    (∀ f ∈ fs, f.path ≠ []) ∧ ps = fs.map (fun f => join path (f.path.headD [])) := by
  intro fs
  induction fs with
  | nil => intro ps h; unfold filePaths at h; simp at h; simp [h]
  | cons f fs ih =>
    intro ps h
    unfold filePaths at h
    cases hp : f.path with
    | nil => rw [hp] at h; simp at h
    | cons p qs =>
      rw [hp] at h
      simp only at h
      cases hr : filePaths path fs with
      | ok ps' =>
        rw [hr] at h
        simp only [Res.bind, Res.ok.injEq] at h
        obtain ⟨h1, h2⟩ := ih ps' hr
        subst h2
        refine ⟨?_, ?_⟩
        · intro x hx
          rcases List.mem_cons.1 hx with rfl | hx
          · rw [hp]; simp
          · exact h1 x hx
        · rw [← h]; simp [hp]
      | err e => rw [hr] at h; simp [Res.bind] at h
      | panic e => rw [hr] at h; simp [Res.bind] at h

theorem initDownloadDir_ok {os : Os} {root name : Bytes} {b : Bool} {files : List TorrentFile} {disk disk' : Disk} {ps : List Bytes}
    (h : initDownloadDir os root name b files disk = (.ok ps, disk')) :
    (b = true → filePaths (join root name) files = .ok ps) ∧ (b = false → ps = [join root name]) ∧
      createFiles os ps disk = (.ok (), disk') := by
  unfold initDownloadDir at h
  simp only at h
  cases b with
  | true =>
    simp only [if_true] at h
    split at h
    · simp at h
    · cases hf : filePaths (join root name) files with
      | ok qs =>
        rw [hf] at h
        simp only at h
        split at h
        · rename_i hc
          simp only [Prod.mk.injEq, Res.ok.injEq] at h
          obtain ⟨rfl, rfl⟩ := h
          exact ⟨fun _ => rfl, by simp, hc⟩
        · simp at h
        · simp at h
      | err e => rw [hf] at h; simp at h
      | panic e => rw [hf] at h; simp at h
  | false =>
    simp only [Bool.false_eq_true, if_false] at h
    split at h
    · rename_i hc
      simp only [Prod.mk.injEq, Res.ok.injEq] at h
      obtain ⟨rfl, rfl⟩ := h
      exact ⟨by simp, fun _ => rfl, hc⟩
    · simp at h
    · simp at h

theorem initDownloadDir_frame (os : Os) (root name : Bytes) (b : Bool) (files : List TorrentFile) (disk : Disk) (q : Bytes)
    (h1 : b = false → q ≠ join root name) (h2 : b = true → ∀ f ∈ files, f.path ≠ [] → q ≠ join (join root name) (f.path.headD [])) :
    (initDownloadDir os root name b files disk).2 q = disk q := by
  unfold initDownloadDir
  simp only
  cases b with
  | true =>
    simp only [if_true]
    split
    · rfl
    · cases hf : filePaths (join root name) files with
      | ok qs =>
        simp only
        obtain ⟨h3, rfl⟩ := filePaths_inv _ _ _ hf
        have := createFiles_frame os (files.map (fun f => join (join root name) (f.path.headD []))) disk q (by
          intro hm
          obtain ⟨f, hf, e⟩ := List.mem_map.1 hm
          exact h2 rfl f hf (h3 f hf) e.symm)
        split <;> (rename_i hc; rw [hc] at this; exact this)
      | err e => rfl
      | panic e => rfl
  | false =>
    simp only [Bool.false_eq_true, if_false]
    have := createFiles_frame os [join root name] disk q (by simpa using h1 rfl)
    split <;> (rename_i hc; rw [hc] at this; exact this)

/-- What a successful `New` has built. -/
theorem newTorrent_ok {sha1 : Bytes → Bytes} {os : Os} {m : Metainfo} {root : Bytes} {disk disk' : Disk} {t : Torrent}
    (h : newTorrent sha1 os m root disk = (.ok t, disk')) :
    newPieces m.pieces = .ok t.pieces ∧
    initDownloadDir os root m.name (decide (m.infoLength = 0)) (if m.infoLength = 0 then m.files else []) disk = (.ok t.osFiles, disk') ∧
    t.isDirectory = decide (m.infoLength = 0) ∧ t.files = (if m.infoLength = 0 then m.files else []) ∧
    t.length = torrentLength m ∧ t.pieceLength = m.pieceLength ∧ t.piecesNum = piecesNum (torrentLength m) m.pieceLength ∧
    t.trackers = trackersOf m ∧ t.hash = sha1 m.infoDictRaw ∧ t.name = m.name ∧
    t.requested = bitsetNew t.piecesNum ∧ t.downloaded = bitsetNew t.piecesNum ∧
    t.numOfBlocks = m.pieceLength.tdiv blockLength := by
  unfold newTorrent at h
  cases hp : newPieces m.pieces with
  | err e => rw [hp] at h; simp at h
  | panic e => rw [hp] at h; simp at h
  | ok pieces =>
    rw [hp] at h
    simp only [decide_eq_true_eq] at h
    split at h
    · rename_i hc
      simp only [Prod.mk.injEq, Res.ok.injEq] at h
      obtain ⟨rfl, rfl⟩ := h
      exact ⟨rfl, hc, rfl, rfl, rfl, rfl, rfl, rfl, rfl, rfl, rfl, rfl, rfl⟩
    · simp at h
    · simp at h

theorem newTorrent_frame (sha1 : Bytes → Bytes) (os : Os) (m : Metainfo) (root : Bytes) (disk : Disk) (q : Bytes)
    (h1 : m.infoLength ≠ 0 → q ≠ join root m.name)
    (h2 : m.infoLength = 0 → ∀ f ∈ m.files, f.path ≠ [] → q ≠ join (join root m.name) (f.path.headD [])) :
    (newTorrent sha1 os m root disk).2 q = disk q := by
  unfold newTorrent
  cases newPieces m.pieces with
  | err e => rfl
  | panic e => rfl
  | ok pieces =>
    simp only [decide_eq_true_eq]
    have := initDownloadDir_frame os root m.name (decide (m.infoLength = 0)) (if m.infoLength = 0 then m.files else []) disk q
      (by simpa using h1) (by
        intro hb
        have hb : m.infoLength = 0 := by simpa using hb
        rw [if_pos hb]; exact h2 hb)
    split <;> (rename_i hc; rw [hc] at this; exact this)

/-- `New` succeeds when the piece hashes are complete, every file has a path, and the operating system raises no error. -/
theorem newTorrent_succeeds (sha1 : Bytes → Bytes) (os : Os) (m : Metainfo) (root : Bytes) (disk : Disk)
    (hp : m.pieces.length % 20 = 0) (hf : m.infoLength = 0 → ∀ f ∈ m.files, f.path ≠ []) (hm : ∀ p, os.mkdirNotExist p = false)
    (hc : ∀ p, os.createError p = none) : ∃ t disk', newTorrent sha1 os m root disk = (.ok t, disk') := by
  unfold newTorrent
  have : newPieces m.pieces = .ok (newPiecesLoop (m.pieces.length / 20) 0 m.pieces) := by
    unfold newPieces; rw [if_neg (by omega)]
  rw [this]
  simp only [decide_eq_true_eq]
  have hi : ∃ ps d', initDownloadDir os root m.name (decide (m.infoLength = 0)) (if m.infoLength = 0 then m.files else []) disk = (.ok ps, d') := by
    unfold initDownloadDir
    by_cases h0 : m.infoLength = 0
    · simp only [h0, decide_true, if_true, hm, Bool.false_eq_true, if_false]
      rw [filePaths_ok _ _ (hf h0)]
      simp only
      obtain ⟨d', hd⟩ := createFiles_ok os hc (m.files.map (fun f => join (join root m.name) (f.path.headD []))) disk
      rw [hd]
      exact ⟨_, _, rfl⟩
    · simp only [h0, decide_false, Bool.false_eq_true, if_false]
      obtain ⟨d', hd⟩ := createFiles_ok os hc [join root m.name] disk
      rw [hd]
      exact ⟨_, _, rfl⟩
  obtain ⟨ps, d', hi⟩ := hi
  rw [hi]
  exact ⟨_, _, rfl⟩

end Gotit
