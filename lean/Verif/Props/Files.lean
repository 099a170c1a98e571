import Verif.Spec.Files
import Verif.Lemmas.Files
/-
  C41, C42: where blocks are stored.
-/
namespace Gotit.Props
open Gotit Spec

/-- A torrent as `New` builds it from a metainfo with sensible lengths and distinct paths: as many open files as torrent
files, non-negative lengths whose sum fits an int; or one file with a positive length. (`C41_reachable` shows that `New`
yields this.) -/
structure Ready (t : Torrent) : Prop where
  multi : t.isDirectory = true → t.files.length = t.osFiles.length ∧ (∀ f ∈ t.files, 0 ≤ f.length) ∧
    total (extents t) < 2 ^ 63 ∧ t.osFiles.Nodup
  single : t.isDirectory = false → ∃ p, t.osFiles = [p] ∧ 0 < t.length ∧ t.length < 2 ^ 63

theorem zip_snd {α β : Type} (a : List α) (b : List β) (h : a.length = b.length) : (a.zip b).map (·.2) = b := by
  rw [List.map_snd_zip]; omega

theorem ready_good {t : Torrent} (h : Ready t) (hd : t.isDirectory = true) :
    Good (t.files.zip t.osFiles) ∧ extents t = ext (t.files.zip t.osFiles) := by
  have he : extents t = ext (t.files.zip t.osFiles) := by simp [extents, hd, ext]
  obtain ⟨h1, h2, h3, h4⟩ := h.multi hd
  refine ⟨⟨?_, ?_, ?_⟩, he⟩
  · intro x hx
    exact h2 _ (List.of_mem_zip hx).1
  · rw [← he]; exact h3
  · rw [zip_snd _ _ h1]; exact h4

/-- What `writePieceData` does, for every block and every non-negative position. -/
theorem writePieceData_spec (t : Torrent) (h : Ready t) (data : Bytes) (pos : Nat) (hp : pos < 2 ^ 63) (disk : Disk)
    (hw : WithinLengths disk (extents t)) (hd : t.isDirectory = true) :
    ∃ r disk', writePieceData t data pos disk = (r, disk') ∧
      r = (if pos < total (extents t) then
            (if pos + data.length ≤ total (extents t) then .ok () else .err "data extends beyond torrent files")
          else .err "piece position beyond all torrent files") ∧
      layout disk' (extents t) = splice (layout disk (extents t)) pos (data.take (total (extents t) - pos)) ∧
      WithinLengths disk' (extents t) ∧ OnlyTouches (extents t) disk disk' := by
  obtain ⟨hg, he⟩ := ready_good h hd
  rw [he] at hw ⊢
  obtain ⟨r, d', h1, h2⟩ := multi_spec _ data pos disk hg hw hp
  refine ⟨r, d', ?_, h2⟩
  unfold writePieceData
  rw [if_neg (by simp [hd])]
  exact h1

/-! ## C41 -/

/-- C41: a non-empty block that lies inside the torrent replaces exactly its range of the concatenated files; no file gets
longer than declared and no other file is touched. -/
theorem C41_layout (t : Torrent) (h : Ready t) (data : Bytes) (pos : Nat) (disk : Disk)
    (hw : WithinLengths disk (extents t)) (hne : data ≠ []) (hfit : pos + data.length ≤ total (extents t)) :
    ∃ disk', writePieceData t data pos disk = (.ok (), disk') ∧
      layout disk' (extents t) = splice (layout disk (extents t)) pos data ∧
      WithinLengths disk' (extents t) ∧ OnlyTouches (extents t) disk disk' := by
  have hl := List.length_pos_iff.2 hne
  cases hd : t.isDirectory with
  | true =>
    have hs := (h.multi hd).2.2.1
    obtain ⟨r, d', h1, h2, h3, h4, h5⟩ := writePieceData_spec t h data pos (by omega) disk hw hd
    rw [if_pos (by omega), if_pos hfit] at h2
    subst h2
    refine ⟨d', h1, ?_, h4, h5⟩
    rw [h3, List.take_of_length_le (by omega)]
  | false =>
    obtain ⟨p, e, hpos, hlt⟩ := h.single hd
    have hx : extents t = [(t.length.toNat, p)] := by simp [extents, hd, e]
    rw [hx] at hw hfit ⊢
    simp only [total, List.map_cons, List.map_nil, List.sum_cons, List.sum_nil, Nat.add_zero] at hfit
    refine ⟨disk.update p (overwrite (disk p) pos data), ?_, ?_, ?_, ?_⟩
    · unfold writePieceData
      rw [if_pos (by simp [hd]), e]
      simp only [writeAt]
      rw [if_neg (by omega), if_neg hne, Int.toNat_natCast]
    · simp only [layout, List.flatMap_cons, List.flatMap_nil, List.append_nil, Disk.update, if_true]
      exact stored_overwrite _ _ _ _ hfit
    · intro x hx
      rw [List.mem_singleton] at hx
      subst hx
      have := hw (t.length.toNat, p) (by simp)
      simp only [Disk.update, if_true, overwrite_length] at this ⊢
      omega
    · intro q hq
      simp only [List.map_cons, List.map_nil, List.mem_singleton] at hq
      simp [Disk.update, hq]

/-- C41, byte by byte. -/
theorem C41_bytes (t : Torrent) (h : Ready t) (data : Bytes) (pos : Nat) (disk : Disk)
    (hw : WithinLengths disk (extents t)) (hne : data ≠ []) (hfit : pos + data.length ≤ total (extents t)) :
    ∃ disk', writePieceData t data pos disk = (.ok (), disk') ∧
      (∀ j, j < data.length → (layout disk' (extents t))[pos + j]? = data[j]?) ∧
      (∀ i, i < pos ∨ pos + data.length ≤ i → (layout disk' (extents t))[i]? = (layout disk (extents t))[i]?) := by
  obtain ⟨d', h1, h2, _, _⟩ := C41_layout t h data pos disk hw hne hfit
  have hlen : (layout disk (extents t)).length = total (extents t) := layout_length _ _
  have htl : ((layout disk (extents t)).take pos).length = pos := by rw [List.length_take]; omega
  refine ⟨d', h1, ?_, ?_⟩
  · intro j hj
    rw [h2, splice, List.getElem?_append_right (by omega), List.getElem?_append_left (by omega), htl]
    congr 1; omega
  · intro i hi
    rw [h2, splice]
    rcases hi with hi | hi
    · rw [List.getElem?_append_left (by omega), List.getElem?_take, if_pos hi]
    · rw [List.getElem?_append_right (by omega), List.getElem?_append_right (by omega), List.getElem?_drop, htl]
      congr 1; omega

/-! ## C42 -/

/-- C42, exact for multi-file torrents: a block that starts beyond the end is rejected without any change; one that
starts inside and ends outside is reported as an error, but its first part has been written. -/
theorem C42_outside_partial (t : Torrent) (h : Ready t) (hd : t.isDirectory = true) (data : Bytes) (pos : Nat)
    (hp : pos < 2 ^ 63) (disk : Disk) (hw : WithinLengths disk (extents t)) (hout : total (extents t) < pos + data.length) :
    ∃ e disk', writePieceData t data pos disk = (.err e, disk') ∧
      layout disk' (extents t) = splice (layout disk (extents t)) pos (data.take (total (extents t) - pos)) ∧
      (total (extents t) ≤ pos → layout disk' (extents t) = layout disk (extents t)) ∧
      WithinLengths disk' (extents t) ∧ OnlyTouches (extents t) disk disk' := by
  obtain ⟨r, d', h1, h2, h3, h4, h5⟩ := writePieceData_spec t h data pos hp disk hw hd
  have : ∃ e, r = .err e := by
    rw [h2]
    split
    · rw [if_neg (by omega)]; exact ⟨_, rfl⟩
    · exact ⟨_, rfl⟩
  obtain ⟨e, rfl⟩ := this
  refine ⟨e, d', h1, h3, ?_, h4, h5⟩
  intro hge
  rw [h3, show total (extents t) - pos = 0 from by omega, List.take_zero, splice_nil]

/-- C42 is false of the code for multi-file torrents: some part of the block is stored although the write fails. Here a
block of two bytes at the last position of a torrent with files of 1 and 2 bytes. -/
theorem C42_multi_violated : ∃ (t : Torrent) (disk disk' : Disk) (e : String), Ready t ∧ WithinLengths disk (extents t) ∧
    writePieceData t [7, 8] 2 disk = (.err e, disk') ∧ layout disk' (extents t) ≠ layout disk (extents t) := by
  let t : Torrent := { trackers := [], hash := [], length := 3, pieceLength := 4, pieces := [], piecesNum := 1,
                       files := [⟨[[97]], 1⟩, ⟨[[98]], 2⟩], osFiles := [[97], [98]], name := [], isDirectory := true, numOfBlocks := 0,
                       requested := BitSet.new 1, downloaded := BitSet.new 1 }
  have hr : Ready t := ⟨fun _ => ⟨rfl, by decide, by decide, by decide⟩, fun h => by cases h⟩
  have hw : WithinLengths (fun _ => []) (extents t) := by intro x hx; simp
  obtain ⟨e, d', h1, h2, _⟩ := C42_outside_partial t hr rfl [7, 8] 2 (by omega) (fun _ => []) hw (by decide)
  refine ⟨t, fun _ => [], d', e, hr, hw, h1, ?_⟩
  rw [h2]
  decide

/-- C42 is false of the code for single-file torrents: nothing is checked; every block that ends outside the torrent is
written and makes the file longer than declared. -/
theorem C42_single_violated (t : Torrent) (h : Ready t) (hd : t.isDirectory = false) (data : Bytes) (pos : Nat) (hne : data ≠ [])
    (hout : t.length < (pos : Int) + data.length) (disk : Disk) :
    ∃ p disk', t.osFiles = [p] ∧ writePieceData t data pos disk = (.ok (), disk') ∧
      t.length < ((disk' p).length : Int) := by
  obtain ⟨p, e, hpos, hlt⟩ := h.single hd
  refine ⟨p, disk.update p (overwrite (disk p) pos data), e, ?_, ?_⟩
  · unfold writePieceData
    rw [if_pos (by simp [hd]), e]
    simp only [writeAt]
    rw [if_neg (by omega), if_neg hne, Int.toNat_natCast]
  · simp only [Disk.update, if_true, overwrite_length]
    omega

/-- C42, exact for single-file torrents: any block is written where it says, byte for byte, whatever the declared length; nothing
else in the file and no other file changes, except that a gap before the block reads as zeros. Missing: the rejection. -/
theorem C42_single_partial (t : Torrent) (h : Ready t) (hd : t.isDirectory = false) (data : Bytes) (pos : Nat) (hne : data ≠ []) (disk : Disk) :
    ∃ p disk', t.osFiles = [p] ∧ writePieceData t data pos disk = (.ok (), disk') ∧
      (disk' p).length = max (disk p).length (pos + data.length) ∧
      (∀ i, i < data.length → (disk' p)[pos + i]? = data[i]?) ∧
      (∀ i, i < pos ∨ pos + data.length ≤ i → i < (disk p).length → (disk' p)[i]? = (disk p)[i]?) ∧
      (∀ i, (disk p).length ≤ i → i < pos → (disk' p)[i]? = some 0) ∧
      (∀ q, q ≠ p → disk' q = disk q) := by
  obtain ⟨p, e, hpos, hlt⟩ := h.single hd
  have key : ∀ i, i < max (disk p).length (pos + data.length) → (overwrite (disk p) pos data)[i]? =
      some (if pos ≤ i ∧ i < pos + data.length then data.getD (i - pos) 0 else (disk p).getD i 0) := by
    intro i hi
    rw [← getD_overwrite, List.getD_eq_getElem?_getD, List.getElem?_eq_getElem (by rw [overwrite_length]; exact hi)]
    rfl
  refine ⟨p, disk.update p (overwrite (disk p) pos data), e, ?_, ?_, ?_, ?_, ?_, ?_⟩
  · unfold writePieceData
    rw [if_pos (by simp [hd]), e]
    simp only [writeAt]
    rw [if_neg (by omega), if_neg hne, Int.toNat_natCast]
  · simp only [Disk.update, if_true, overwrite_length]
  · intro i hi
    simp only [Disk.update, if_true]
    rw [key _ (by omega), if_pos (by omega), show pos + i - pos = i by omega, List.getD_eq_getElem?_getD, List.getElem?_eq_getElem hi]
    rfl
  · intro i hi hl
    simp only [Disk.update, if_true]
    rw [key _ (by omega), if_neg (by omega), List.getD_eq_getElem?_getD, List.getElem?_eq_getElem hl]
    rfl
  · intro i hi hl
    simp only [Disk.update, if_true]
    rw [key _ (by omega), if_neg (by omega), List.getD_eq_getElem?_getD, List.getElem?_eq_none hi]
    rfl
  · intro q hq
    simp [Disk.update, hq]

end Gotit.Props
