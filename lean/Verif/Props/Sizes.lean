import Verif.Spec.Sizes
import Verif.Props.Faults
import Verif.Props.Opened
/-
  C113, C114: metainfos with the wrong number of hashes, and files that grow beyond their length.
-/
namespace Gotit.Props
open Gotit Spec

/-! ## C113 -/

/-- C113 is violated: if `New` opens a metainfo, it opens the same metainfo with any number of hashes. -/
theorem C113_violated (sha1 : Bytes → Bytes) (os : Os) (m : Metainfo) (root : Bytes) (disk disk' : Disk) (t : Torrent)
    (h : newTorrent sha1 os m root disk = (.ok t, disk')) (n : Nat) (x : UInt8) :
    ∃ t', newTorrent sha1 os { m with pieces := List.replicate (20 * n) x } root disk = (.ok t', disk') ∧ t'.pieces.length = n ∧
      t'.length = t.length ∧ t'.piecesNum = t.piecesNum := by
  obtain ⟨_, hi, _, _, e1, _, e3, -⟩ := newTorrent_ok h
  have hp : newPieces (List.replicate (20 * n) x) = .ok (newPiecesLoop n 0 (List.replicate (20 * n) x)) := by
    unfold newPieces
    rw [if_neg (by simp), List.length_replicate]
    congr 2; omega
  refine ⟨{ t with pieces := newPiecesLoop n 0 (List.replicate (20 * n) x) }, ?_, ?_, ?_, ?_⟩
  · unfold newTorrent at h ⊢
    simp only [hp]
    cases hq : newPieces m.pieces with
    | err e => rw [hq] at h; simp at h
    | panic e => rw [hq] at h; simp at h
    | ok pieces =>
      rw [hq] at h
      simp only [decide_eq_true_eq] at h ⊢
      clear e1 e3
      generalize t.osFiles = ps at hi
      rw [hi] at h ⊢
      simp only [Prod.mk.injEq, Res.ok.injEq, and_true] at h
      simp only [← h]
      rfl
  · exact newPiecesLoop_length _ _ _
  · rfl
  · rfl

/-- A bit of `downloaded` belongs to a piece with a hash. -/
theorem world_hashed {sha1 : Bytes → Bytes} {t : Torrent} {p0 : Peer} {disk : Disk} {W : World} (h : World.Reachable sha1 t p0 disk W)
    (h0 : ∀ i, t.downloaded.bit i = false) {i : Nat} (hb : W.out.downloaded.bit i = true) : i < t.pieces.length := by
  obtain ⟨W1, W2, r1, st, b1, b2⟩ := bit_flips h (h0 i) hb
  cases st with
  | peer _ _ _ _ he => rw [(effects_frame he).2.1, b1] at b2; cases b2
  | @write m w fl _ hi he =>
    obtain ⟨d, hd, rfl, _⟩ := writeOneF_bit he b1 b2
    obtain ⟨_, f, _, _, _, h4⟩ := (world_carried r1).1 m (.inr (.inl hi))
    obtain ⟨_, d', p, _, k2, _⟩ := accept_inv h4
    rcases Nat.lt_or_ge m.index t.pieces.length with h | h
    · exact h
    · rw [List.getElem?_eq_none h] at k2; cases k2
  | _ => rw [b1] at b2; cases b2

/-- C113, what it leads to: with fewer hashes than pieces the download is never complete, whatever the peers send.
Missing: that such a metainfo is refused. -/
theorem C113_never_partial (sha1 : Bytes → Bytes) (os : Os) (m : Metainfo) (root : Bytes) (disk disk' : Disk) (t : Torrent)
    (hn : newTorrent sha1 os m root disk = (.ok t, disk')) (hc : Countable m)
    (hfew : (m.pieces.length / 20 : Nat) * m.pieceLength < contentSize m) (p0 : Peer) (W : World)
    (hW : World.Reachable sha1 t p0 disk' W) : W.out.downloaded.all = false := by
  obtain ⟨k, k0, hje, _, _, _, hdown⟩ := C40_new _ _ _ _ _ _ _ hn hc
  obtain ⟨hp, -⟩ := newTorrent_ok hn
  have hlen : t.pieces.length = m.pieces.length / 20 := by
    unfold newPieces at hp
    split at hp
    · cases hp
    · simp only [Res.ok.injEq] at hp
      rw [← hp, newPiecesLoop_length]
  have hlt : t.pieces.length < k := by
    apply Classical.byContradiction
    intro hge
    have h1 : (k : Int) * m.pieceLength ≤ (m.pieces.length / 20 : Nat) * m.pieceLength :=
      Int.mul_le_mul_of_nonneg_right (by omega) (by have := hc.pieces.1; omega)
    have := hje.2
    omega
  cases hall : W.out.downloaded.all with
  | false => rfl
  | true =>
    have hl : k ≤ W.out.downloaded.len := by have := world_len hW; rw [hdown] at this; exact this
    rw [BitSet.all_iff] at hall
    have := world_hashed hW (by simp [hdown, BitSet.new]) (hall t.pieces.length (by omega))
    omega

/-! ## C114 -/

/-- The file of `p` is not longer than (one of) the files of the torrent that are stored there. -/
def Fits (fs : List (TorrentFile × Bytes)) (disk : Disk) : Prop :=
  ∀ p ∈ fs.map (·.2), ∃ f, (f, p) ∈ fs ∧ (disk p).length ≤ f.length.toNat

theorem fits_write {fs : List (TorrentFile × Bytes)} {disk : Disk} (h : Fits fs disk) {f : TorrentFile} {p : Bytes} (hm : (f, p) ∈ fs)
    (d : Bytes) (pos : Nat) (hl : ((pos + d.length : Nat) : Int) ≤ f.length) : Fits fs (writeAt disk p d pos).2 := by
  unfold writeAt
  rw [if_neg (by omega)]
  split
  · exact h
  · intro q hq
    obtain ⟨g, h1, h2⟩ := h q hq
    by_cases e : q = p
    · subst e
      simp only [Disk.update, if_true, Int.toNat_natCast, overwrite_length]
      by_cases hle : (disk q).length ≤ pos + d.length
      · exact ⟨f, hm, by omega⟩
      · exact ⟨g, h1, by omega⟩
    · exact ⟨g, h1, by simpa [Disk.update, e] using h2⟩

theorem fits_loop (all : List (TorrentFile × Bytes)) : ∀ (fs : List (TorrentFile × Bytes)) (data : Bytes) (pos : Int) (disk : Disk),
    (∀ x ∈ fs, x ∈ all ∧ -2 ^ 63 ≤ x.1.length ∧ x.1.length < 2 ^ 63) → (∀ x, fs.head? = some x → pos < x.1.length ∨ pos = 0) → Fits all disk →
    Fits all (writeLoop fs data pos disk).2
  | [], data, pos, disk, _, _, h => by unfold writeLoop; split <;> exact h
  | (f, p) :: rest, data, pos, disk, hall, hpos, h => by
    rw [writeLoop]
    split
    · exact h
    simp only
    obtain ⟨g1, g2, g3⟩ := hall _ List.mem_cons_self
    simp only at g1 g2 g3
    have hp := hpos _ rfl
    simp only at hp
    by_cases hneg : pos < 0
    · generalize (if (data.length : Int) > wrap64 (f.length - pos) then wrap64 (f.length - pos) else (data.length : Int)) = k
      split
      · exact h
      · simp only [writeAt, if_pos hneg]; exact h
    have hw : wrap64 (f.length - pos) = f.length - pos := wrap64_of _ (by omega) (by omega)
    rw [hw]
    have hk : (if (data.length : Int) > f.length - pos then f.length - pos else (data.length : Int)) ≤ f.length - pos := by split <;> omega
    generalize (if (data.length : Int) > f.length - pos then f.length - pos else (data.length : Int)) = k at hk
    split
    · exact h
    · rename_i hk0
      have hfit := fits_write h g1 (data.take k.toNat) pos.toNat (by rw [List.length_take]; omega)
      rw [Int.toNat_of_nonneg (by omega)] at hfit
      cases e : writeAt disk p (data.take k.toNat) pos with
      | mk r disk' =>
        rw [e] at hfit
        simp only at hfit
        cases r with
        | ok u => exact fits_loop all rest _ 0 disk' (fun x hx => hall x (List.mem_cons_of_mem _ hx)) (fun _ _ => .inr rfl) hfit
        | err x => exact hfit
        | panic x => exact hfit

theorem findFile_suffix : ∀ (fs : List (TorrentFile × Bytes)) (pos : Int), (∀ x ∈ (findFile fs pos).1, x ∈ fs) ∧
    (∀ x, (findFile fs pos).1.head? = some x → (findFile fs pos).2 < x.1.length)
  | [], pos => ⟨by simp [findFile], by simp [findFile]⟩
  | (f, p) :: rest, pos => by
    unfold findFile
    split
    · rename_i h
      refine ⟨fun x hx => hx, ?_⟩
      intro x hx
      simp only [List.head?_cons, Option.some.injEq] at hx
      subst hx; exact h
    · obtain ⟨h1, h2⟩ := findFile_suffix rest (wrap64 (pos - f.length))
      exact ⟨fun x hx => List.mem_cons_of_mem _ (h1 x hx), h2⟩

theorem fits_data {t : Torrent} (hd : t.isDirectory = true) (hf : ∀ f ∈ t.files, -2 ^ 63 ≤ f.length ∧ f.length < 2 ^ 63) {disk : Disk}
    (h : Fits (t.files.zip t.osFiles) disk) (data : Bytes) (pos : Int) : Fits (t.files.zip t.osFiles) (writePieceData t data pos disk).2 := by
  unfold writePieceData
  rw [if_neg (by simp [hd])]
  obtain ⟨h1, h2⟩ := findFile_suffix (t.files.zip t.osFiles) pos
  cases e : findFile (t.files.zip t.osFiles) pos with
  | mk fs pos' =>
    rw [e] at h1 h2
    simp only at h1 h2
    cases fs with
    | nil => exact h
    | cons x xs =>
      refine fits_loop _ _ _ _ _ (fun y hy => ⟨h1 y hy, ?_⟩) (fun y hy => .inl (h2 y hy)) h
      exact hf _ (List.of_mem_zip (a := y.1) (b := y.2) (h1 y hy)).1

/-- What the disk is after one message. -/
theorem writeOneF_prefix {fl : Faults} {t : Torrent} {w w' : Written} {m : PeerMessage} (he : writeOneF fl t w m = .ok w') :
    ∃ d n, m.data = .ok d ∧
      w'.disk = (writePieceData t (d.take n) (wrap64 (wrap64 (m.index * t.pieceLength) + m.offset)) w.disk).2 := by
  obtain ⟨d, hd, _, h⟩ := writeOneF_cases he
  rcases h with h | ⟨_, n, _, h⟩
  · refine ⟨d, d.length, hd, ?_⟩
    rw [List.take_length]
    unfold writeOne at h
    rw [hd] at h
    simp only at h
    split at h
    · rename_i e; rw [e]; split at h <;> (cases h; rfl)
    · rename_i e; rw [e]; cases h; rfl
    · cases h
  · exact ⟨d, n, hd, h⟩

/-- C114, for torrents of several files: in every download, at every time, no file is longer than the metainfo says. Nothing is assumed
about the metainfo but that its lengths are Go integers. (If several files of a torrent are stored in one file, see C47, then its
length is at most that of one of them.) Missing: torrents of a single file. -/
theorem C114_multi_partial (sha1 : Bytes → Bytes) (os : Os) (m : Metainfo) (root : Bytes) (disk disk' : Disk) (t : Torrent)
    (hn : newTorrent sha1 os m root disk = (.ok t, disk')) (h0 : m.infoLength = 0)
    (hf : ∀ f ∈ m.files, -2 ^ 63 ≤ f.length ∧ f.length < 2 ^ 63) (p0 : Peer) (W : World) (hW : World.Reachable sha1 t p0 disk' W) :
    ∀ p ∈ t.osFiles, ∃ f ∈ m.files, (f, p) ∈ m.files.zip t.osFiles ∧ (W.out.disk p).length ≤ f.length.toNat := by
  obtain ⟨_, hi, hdir, hfs, -⟩ := newTorrent_ok hn
  obtain ⟨g1, _, g3⟩ := initDownloadDir_ok hi
  have hempty := createFiles_empty _ _ _ _ g3
  have hd : t.isDirectory = true := by rw [hdir]; simp [h0]
  rw [if_pos h0] at hfs g1
  have hlen : t.files.length = t.osFiles.length := by
    have := g1 (by simp [h0])
    rw [hfs]
    rw [(filePaths_inv _ _ _ this).2]; simp
  have hz : (t.files.zip t.osFiles).map (·.2) = t.osFiles := by
    rw [List.map_snd_zip]; omega
  have key : Fits (t.files.zip t.osFiles) W.out.disk := by
    induction hW with
    | start =>
      intro p hp
      have hp' := hp
      rw [hz] at hp'
      obtain ⟨⟨f, q⟩, h1, h2⟩ := List.mem_map.1 hp
      simp only at h2; subst h2
      exact ⟨f, h1, by simp [World.start, hempty _ hp']⟩
    | @step W W' _ st ih =>
      cases st with
      | peer _ _ _ _ he => rw [(effects_frame he).2.1]; exact ih
      | @write m' w fl _ hi he =>
        obtain ⟨d, n, _, e⟩ := writeOneF_prefix he
        simp only [e]
        exact fits_data hd (by rw [hfs]; exact hf) ih _ _
      | _ => exact ih
  intro p hp
  obtain ⟨f, h1, h2⟩ := key p (by rw [hz]; exact hp)
  rw [hfs] at h1
  exact ⟨f, (List.of_mem_zip h1).1, h1, h2⟩

/-- C114, what holds for a single file: as long as it is not empty, it ends at the latest where some verified block ends, the block taken at
the place its message names. So it is not longer than the metainfo says if the peers send no block that reaches beyond the end. Missing:
that such blocks are refused. -/
theorem C114_single_partial (sha1 : Bytes → Bytes) (os : Os) (m : Metainfo) (root : Bytes) (disk disk' : Disk) (t : Torrent)
    (hn : newTorrent sha1 os m root disk = (.ok t, disk')) (h0 : m.infoLength ≠ 0) (pl : Nat) (hpl : t.pieceLength = pl)
    (hsm : t.pieces.length * pl + 2 ^ 32 ≤ 2 ^ 63) (p0 : Peer) (W : World) (hW : World.Reachable sha1 t p0 disk' W) :
    ∀ p ∈ t.osFiles, W.out.disk p = [] ∨ ∃ pos d, Checked sha1 t pl W.trace pos d ∧ (W.out.disk p).length ≤ pos + d.length := by
  obtain ⟨_, hi, hdir, hfs, -⟩ := newTorrent_ok hn
  obtain ⟨_, g2, g3⟩ := initDownloadDir_ok hi
  have hempty := createFiles_empty _ _ _ _ g3
  have hd : t.isDirectory = false := by rw [hdir]; simp [h0]
  have ho := g2 (by simp [h0])
  induction hW with
  | start => intro p hp; exact .inl (hempty p hp)
  | @step W W' hr st ih =>
    have mono : ∀ tr, (∀ p ∈ t.osFiles, W.out.disk p = [] ∨ ∃ pos d, Checked sha1 t pl (W.trace ++ tr) pos d ∧
        (W.out.disk p).length ≤ pos + d.length) := by
      intro tr p hp
      rcases ih p hp with h | ⟨pos, d, ⟨i, f, ix, b, q, h1, h2⟩, h3⟩
      · exact .inl h
      · exact .inr ⟨pos, d, ⟨i, f, ix, b, q, List.mem_append_left _ h1, h2⟩, h3⟩
    cases st with
    | peer _ _ _ _ he => simp only [(effects_frame he).2.1]; exact mono _
    | @write m' w fl _ hi he =>
      obtain ⟨hb, d', hd', hck⟩ := carried_checked ((world_carried hr).1 m' (.inr (.inl hi))) hsm
      obtain ⟨d, n, hd2, e⟩ := writeOneF_prefix he
      have : d = d' := by rw [hd2] at hd'; simpa using hd'
      subst this
      rw [writePlace hpl hb] at e
      intro p hp
      have hp2 := hp
      rw [ho, List.mem_singleton] at hp2
      simp only [e, writePieceData, if_pos (show ¬ t.isDirectory = true by simp [hd]), ho, ← hp2]
      unfold writeAt
      rw [if_neg (by omega)]
      split
      · exact ih p hp
      · simp only [Disk.update, if_true, Int.toNat_natCast, overwrite_length]
        right
        rcases ih p hp with h | ⟨pos, d1, h1, h2⟩
        · refine ⟨_, _, hck, ?_⟩
          rw [h, List.length_take]; simp only [List.length_nil]; omega
        · by_cases hle : (W.out.disk p).length ≤ m'.index * pl + m'.offset + (d.take n).length
          · refine ⟨_, _, hck, ?_⟩
            rw [List.length_take] at hle ⊢; omega
          · exact ⟨pos, d1, h1, by omega⟩
    | _ => exact ih

/-- C114 is violated for torrents of a single file: a peer that has any piece of the content, and sends it with any offset, makes the file as
long as it likes, up to 4 GiB beyond the piece. -/
theorem C114_violated (sha1 : Bytes → Bytes) (os : Os) (mi : Metainfo) (root : Bytes) (disk disk' : Disk) (t : Torrent)
    (hn : newTorrent sha1 os mi root disk = (.ok t, disk')) (hs : Sensible mi) (content : Bytes) (pl : Nat)
    (hc : ContentOf sha1 t content pl) (hsz : content.length ≤ 2 ^ 51) (hpl : pl ≤ 2 ^ 53) (h0 : mi.infoLength ≠ 0)
    (i : Nat) (hi : i < t.pieces.length) (hi2 : i < 2 ^ 32) (hic : i * pl < content.length) (b : Nat) (hb : b < 2 ^ 32) :
    ∃ W p, World.Reachable sha1 t (newPeer t) disk' W ∧ t.osFiles = [p] ∧
      (W.out.disk p).length = i * pl + b + (pieceOf content pl i).length := by
  have hne : content ≠ [] := by rintro rfl; simp at hic
  obtain ⟨hr, hw, htot, hz⟩ := C41_reachable _ _ _ _ _ _ _ hn hs
  obtain ⟨k, k0, hdown, k1, k2, hidx⟩ := new_count hn hs hc hne hsz hpl
  obtain ⟨_, hi', hdir, hfs, -⟩ := newTorrent_ok hn
  obtain ⟨_, g2, g3⟩ := initDownloadDir_ok hi'
  have hd : t.isDirectory = false := by rw [hdir]; simp [h0]
  have ho := g2 (by simp [h0])
  have hall : t.downloaded.all = false := by
    cases h : t.downloaded.all with
    | false => rfl
    | true =>
      rw [BitSet.all_iff, hdown] at h
      exact absurd (h 0 k0) (by simp [BitSet.new])
  have hlen := pieceOf_length content pl i
  have hp0 := hc.positive
  obtain ⟨b1, b2, b3, b4, b5⟩ := pieceMsg_ok i b (pieceOf content pl i) hi2 hb
  have hwr : ∃ o', writeOne t ⟨disk', t.downloaded, 0⟩ (pieceMsg i b (pieceOf content pl i)) = .ok o' ∧
      o'.disk = disk'.update (join root mi.name) (overwrite [] (i * pl + b) (pieceOf content pl i)) := by
    unfold writeOne
    rw [b5]
    simp only
    rw [writePlace hc.pieceLength (by rw [b3, b4]; omega), b3, b4]
    have he : disk' (join root mi.name) = [] := hz _ (by rw [ho]; simp)
    simp only [writePieceData, if_pos (show ¬ t.isDirectory = true by simp [hd]), ho, writeAt, he]
    rw [if_neg (by omega), if_neg (by intro h; rw [h] at hlen; simp only [List.length_nil] at hlen; omega), Int.toNat_natCast]
    simp only
    split <;> exact ⟨_, rfl, rfl⟩
  obtain ⟨o', w1, w2⟩ := hwr
  obtain ⟨r, a0, a1, a2, a3⟩ := At.start (sha1 := sha1) (t := t) (p0 := newPeer t) (disk := disk') rfl
  obtain ⟨r', ⟨W, hW, so⟩, _⟩ := a0.push a1 a2 a3 hall b1 b2 (pieceMsg_accepted hc hi hi2 hb) w1
  refine ⟨W, join root mi.name, hW, ho, ?_⟩
  rw [so.out, w2]
  simp only [Disk.update, if_true, overwrite_length, List.length_nil]
  omega

/-! ## Cases that exist -/

/-- C113: five bytes in pieces of four, with no hash, or with nine. -/
example : ∃ t t' disk', newTorrent (fun _ => []) goodOs { oneFile (ascii "n") with pieces := [] } (ascii "/r") (fun _ => []) = (.ok t, disk') ∧
    newTorrent (fun _ => []) goodOs { oneFile (ascii "n") with pieces := List.replicate (20 * 9) 1 } (ascii "/r") (fun _ => []) = (.ok t', disk') ∧
    t.pieces.length = 0 ∧ t'.pieces.length = 9 ∧ ¬ RightCount { oneFile (ascii "n") with pieces := [] } ∧
    (∀ W, World.Reachable (fun _ => []) t (newPeer t) disk' W → W.out.downloaded.all = false) := by
  obtain ⟨t0, d', h⟩ := newTorrent_succeeds (fun _ => []) goodOs (oneFile (ascii "n")) (ascii "/r") (fun _ => []) (by decide)
    (by simp [oneFile]) (by simp [goodOs]) (by simp [goodOs])
  obtain ⟨t1, h1, h2, _⟩ := C113_violated _ _ _ _ _ _ _ h 0 0
  obtain ⟨t2, h3, h4, _⟩ := C113_violated _ _ _ _ _ _ _ h 9 1
  refine ⟨t1, t2, d', h1, h3, h2, h4, ?_, ?_⟩
  · rintro ⟨k, hk, hj⟩
    simp only [List.length_nil] at hk
    have : k = 0 := by omega
    subst this
    simp [JustEnough, oneFile, contentSize] at hj
  · intro W hW
    exact C113_never_partial _ _ _ _ _ _ _ h1 ⟨by simp [oneFile], by simp [oneFile, contentSize], by simp [oneFile, contentSize], by simp [oneFile]⟩
      (by simp [oneFile, contentSize]) _ W hW

/-- C114: eight bytes, one block for position 1000 of the second piece. -/
example : ∃ t disk' W p, World.Reachable (fun _ => List.replicate 20 1) t (newPeer t) disk' W ∧ t.osFiles = [p] ∧ (W.out.disk p).length = 1008 := by
  obtain ⟨t, d', h1, h2, h3, h4, h5⟩ := fewBytes_opens 8 2 (by omega) (by omega) (by omega) [1, 2, 3, 4, 5, 6, 7, 8] rfl
  obtain ⟨W, p, g1, g2, g3⟩ := C114_violated _ _ _ _ _ _ _ h1 h2 _ 4 h3 (by simp) (by omega) (by simp [fewBytes]) 1 (by omega) (by omega)
    (by simp) 1000 (by omega)
  exact ⟨t, d', W, p, g1, g2, by rw [g3]; rfl⟩

/-- C114: the same download, and where its file ends. -/
example : ∃ t disk' W p pos d, World.Reachable (fun _ => List.replicate 20 1) t (newPeer t) disk' W ∧ (W.out.disk p).length = 1008 ∧
    Checked (fun _ => List.replicate 20 1) t 4 W.trace pos d ∧ 1008 ≤ pos + d.length := by
  obtain ⟨t, d', h1, h2, h3, h4, h5⟩ := fewBytes_opens 8 2 (by omega) (by omega) (by omega) [1, 2, 3, 4, 5, 6, 7, 8] rfl
  obtain ⟨W, p, g1, g2, g3⟩ := C114_violated _ _ _ _ _ _ _ h1 h2 _ 4 h3 (by simp) (by omega) (by simp [fewBytes]) 1 (by omega) (by omega)
    (by simp) 1000 (by omega)
  have g4 : (W.out.disk p).length = 1008 := by rw [g3]; rfl
  rcases C114_single_partial _ _ _ _ _ _ _ h1 (by simp [fewBytes]) 4 h3.pieceLength (by omega) _ W g1 p (by rw [g2]; simp) with h | ⟨pos, d, k1, k2⟩
  · rw [h] at g4; simp at g4
  · exact ⟨t, d', W, p, pos, d, g1, g4, k1, by omega⟩

/-- C114: two files, one of them of a negative length. -/
example : ∃ t disk', newTorrent (fun _ => []) goodOs (manyFiles (ascii "n") [⟨[ascii "a"], 3⟩, ⟨[ascii "b"], -4⟩]) (ascii "/r") (fun _ => []) =
    (.ok t, disk') ∧ t.osFiles = [ascii "/r/n/a", ascii "/r/n/b"] ∧ ∀ W, World.Reachable (fun _ => []) t (newPeer t) disk' W →
      ∃ f, (f, ascii "/r/n/a") ∈ [((⟨[ascii "a"], 3⟩ : TorrentFile), ascii "/r/n/a"), (⟨[ascii "b"], -4⟩, ascii "/r/n/b")] ∧
        (W.out.disk (ascii "/r/n/a")).length ≤ f.length.toNat := by
  obtain ⟨t, d', h⟩ := newTorrent_succeeds (fun _ => []) goodOs (manyFiles (ascii "n") [⟨[ascii "a"], 3⟩, ⟨[ascii "b"], -4⟩]) (ascii "/r")
    (fun _ => []) (by decide) (by simp [manyFiles]) (by simp [goodOs]) (by simp [goodOs])
  have ho : t.osFiles = [ascii "/r/n/a", ascii "/r/n/b"] := by
    obtain ⟨_, hi, -⟩ := newTorrent_ok h
    have := (initDownloadDir_ok hi).1 (by rfl)
    have e : filePaths (join (ascii "/r") (ascii "n")) [⟨[ascii "a"], 3⟩, ⟨[ascii "b"], -4⟩] = .ok [ascii "/r/n/a", ascii "/r/n/b"] := by
      decide +kernel
    simp only [manyFiles, oneFile, if_true] at this
    rw [e] at this
    simpa using this.symm
  refine ⟨t, d', h, ho, ?_⟩
  intro W hW
  obtain ⟨f, _, h1, h2⟩ := C114_multi_partial _ _ _ _ _ _ _ h rfl (by simp [manyFiles]) _ W hW (ascii "/r/n/a") (by rw [ho]; simp)
  exact ⟨f, by rw [ho] at h1; exact h1, h2⟩

end Gotit.Props
