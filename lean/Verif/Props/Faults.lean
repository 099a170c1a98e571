import Verif.Spec.Faults
import Verif.Props.World
import Verif.Props.Stats
/-
  C111, C112: writes to the disk that fail.
-/
namespace Gotit.Props
open Gotit Spec

/-! ## C111 -/

theorem writePieceData_holds (t : Torrent) (h : Ready t) (d : Bytes) (pos : Nat) (disk : Disk)
    (hw : t.isDirectory = true → WithinLengths disk (extents t)) (hb : pos < 2 ^ 63) (disk' : Disk)
    (he : writePieceData t d pos disk = (.ok (), disk')) :
    OnDisk disk' (extents t) pos d ∧ (t.isDirectory = true → pos + d.length ≤ total (extents t)) := by
  cases hdir : t.isDirectory with
  | true =>
    obtain ⟨r, d', h1, h2, h3, _⟩ := writePieceData_spec t h d pos hb disk (hw hdir) hdir
    rw [he] at h1
    cases h1
    have hfit : pos + d.length ≤ total (extents t) := by
      split at h2
      · split at h2
        · assumption
        · cases h2
      · cases h2
    refine ⟨?_, fun _ => hfit⟩
    intro j hj _
    rw [h3, List.take_of_length_le (by omega), getElem?_splice _ _ _ (by rw [layout_length]; omega), if_neg (by omega), if_pos (by omega)]
    congr 1; omega
  | false =>
    refine ⟨?_, (fun h => by cases h)⟩
    obtain ⟨p, e, hl0, hl1⟩ := h.single hdir
    have hx : extents t = [(t.length.toNat, p)] := by simp [extents, hdir, e]
    intro j hj hlt
    have hne : d ≠ [] := by rintro rfl; simp at hj
    unfold writePieceData at he
    rw [if_pos (by simp [hdir]), e] at he
    simp only [writeAt] at he
    rw [if_neg (by omega), if_neg hne, Int.toNat_natCast] at he
    cases he
    rw [hx] at hlt ⊢
    have hi' : pos + j < t.length.toNat := by simpa [total] using hlt
    simp only [layout, List.flatMap_cons, List.flatMap_nil, List.append_nil, Disk.update, if_true]
    apply getElem?_of_getD (by rw [stored_length]; exact hi') hj
    rw [getD_stored _ _ _ hi', getD_overwrite, if_pos (by omega)]
    congr 1; omega

/-- A bit that one message sets. -/
theorem writeOneF_bit {fl : Faults} {t : Torrent} {w w' : Written} {m : PeerMessage} {i : Nat} (he : writeOneF fl t w m = .ok w')
    (h0 : w.downloaded.bit i = false) (h1 : w'.downloaded.bit i = true) :
    ∃ d, m.data = .ok d ∧ m.index = i ∧ (m.offset : Int) + d.length = t.pieceLength ∧
      writePieceData t d (wrap64 (wrap64 (m.index * t.pieceLength) + m.offset)) w.disk = (.ok (), w'.disk) := by
  obtain ⟨d, hd, _, h3⟩ := writeOneF_cases he
  rcases h3 with h3 | ⟨h3, _⟩
  · refine ⟨d, hd, ?_⟩
    unfold writeOne at h3
    rw [hd] at h3
    simp only at h3
    split at h3
    · rename_i disk' e
      split at h3
      · rename_i hfull
        cases h3
        simp only [BitSet.set] at h1
        split at h1
        · rename_i c; exact ⟨c.symm, hfull, e⟩
        · rw [h0] at h1; cases h1
      · cases h3; rw [h0] at h1; cases h1
    · cases h3; rw [h0] at h1; cases h1
    · cases h3
  · rw [h3, h0] at h1; cases h1

theorem world_within (sha1 : Bytes → Bytes) (t : Torrent) (hr : Ready t) (pl : Nat) (hpl : t.pieceLength = pl)
    (hsm : t.pieces.length * pl + 2 ^ 32 ≤ 2 ^ 63) (p0 : Peer) (disk : Disk) (hw : WithinLengths disk (extents t)) (W : World)
    (hW : World.Reachable sha1 t p0 disk W) : t.isDirectory = true → WithinLengths W.out.disk (extents t) := by
  obtain ⟨h1, _, l, hl, h3⟩ := world_carried hW
  have key : ∀ (l : List (PeerMessage × Faults)) (w w' : Written), (∀ m ∈ l.map (·.1), Carried sha1 t W m) →
      (t.isDirectory = true → WithinLengths w.disk (extents t)) → writePiecesF t l w = .ok w' →
      t.isDirectory = true → WithinLengths w'.disk (extents t) := by
    intro l
    induction l with
    | nil => intro w w' _ hw he; cases he; exact hw
    | cons m l ih =>
      intro w w' hm hw he
      unfold writePiecesF at he
      cases h1 : writeOneF m.2 t w m.1 with
      | err e => rw [h1] at he; cases he
      | panic e => rw [h1] at he; cases he
      | ok w1 =>
        rw [h1] at he
        obtain ⟨hb, d, hd, _⟩ := carried_checked (hm m.1 (by simp)) hsm
        exact ih w1 w' (fun x hx => hm x (by rw [List.map_cons]; exact List.mem_cons_of_mem _ hx))
          (writeOne_bytes m.2 t hr m.1 d pl w w1 hpl hd hw hb h1).2.1 he
  exact key l _ _ (fun m hm => h1 m (.inr (.inr (hl ▸ hm)))) (fun _ => hw) h3

/-- C111: in any download on any disk, however many writes fail, the bit of a piece becomes set only when the program has written a
block that ends where the piece ends, whose SHA-1 is that of the piece, and all of whose bytes are then on the disk. -/
theorem C111_set (sha1 : Bytes → Bytes) (os : Os) (mi : Metainfo) (root : Bytes) (disk0 disk : Disk) (t : Torrent)
    (hn : newTorrent sha1 os mi root disk0 = (.ok t, disk)) (hs : Sensible mi) (pl : Nat) (hpl : t.pieceLength = pl)
    (hsm : t.pieces.length * pl + 2 ^ 32 ≤ 2 ^ 63) (p0 : Peer) (W W' : World) (hW : World.Reachable sha1 t p0 disk W)
    (st : World.Step sha1 t p0 W W') (i : Nat) (h0 : W.out.downloaded.bit i = false) (h1 : W'.out.downloaded.bit i = true) :
    ∃ b d, Checked sha1 t pl W.trace (i * pl + b) d ∧ b + d.length = pl ∧ OnDisk W'.out.disk (extents t) (i * pl + b) d := by
  obtain ⟨hr, hw, _, _⟩ := C41_reachable _ _ _ _ _ _ _ hn hs
  cases st with
  | peer _ _ _ _ he => rw [(effects_frame he).2.1, h0] at h1; cases h1
  | spawn q _ => rw [h0] at h1; cases h1
  | cancel _ => rw [h0] at h1; cases h1
  | close _ _ => rw [h0] at h1; cases h1
  | receive _ _ _ => rw [h0] at h1; cases h1
  | writeCrash _ _ _ _ => rw [h0] at h1; cases h1
  | @write m w fl _ hi he =>
    obtain ⟨hb, d', hd', hck⟩ := carried_checked ((world_carried hW).1 m (.inr (.inl hi))) hsm
    obtain ⟨d, hd, rfl, hfull, hwr⟩ := writeOneF_bit he h0 h1
    have hdd : d = d' := by rw [hd] at hd'; simpa using hd'
    subst hdd
    rw [writePlace hpl hb] at hwr
    refine ⟨m.offset, d, hck, by omega, ?_⟩
    exact (writePieceData_holds t hr d _ W.out.disk (world_within sha1 t hr pl hpl hsm p0 disk hw W hW) hb _ hwr).1

/-- C111, in a download of peers that send whole pieces: at every time, every piece whose bit is set is on the disk. -/
theorem C111_kept (sha1 : Bytes → Bytes) (os : Os) (mi : Metainfo) (root : Bytes) (disk disk' : Disk) (t : Torrent)
    (hn : newTorrent sha1 os mi root disk = (.ok t, disk')) (hs : Sensible mi) (content : Bytes) (pl : Nat)
    (hc : ContentOf sha1 t content pl) (hne : content ≠ []) (hsz : content.length ≤ 2 ^ 51) (hpl : pl ≤ 2 ^ 53)
    (hcount : t.pieces.length * pl < content.length + pl) (p0 : Peer) (W : World) (hW : World.Reachable sha1 t p0 disk' W)
    (hbegin : ∀ i f index b d, (i, RunEv.received f) ∈ W.trace → hear f = .piece index b d → b = 0)
    (hcoll : ∀ i f index b d, (i, RunEv.received f) ∈ W.trace → hear f = .piece index b d → sha1 d = sha1 (pieceOf content pl index) →
      d = pieceOf content pl index) (i : Nat) (hi : W.out.downloaded.bit i = true) :
    OnDisk W.out.disk (extents t) (i * pl) (pieceOf content pl i) := by
  obtain ⟨hk, _⟩ := world_keeps sha1 os mi root disk disk' t hn hs content pl hc hne hsz hpl hcount p0 W hW hbegin hcoll
  intro j hj hlt
  have hlen := pieceOf_length content pl i
  rw [pieceOf_get _ _ _ _ (by omega)]
  refine hk.whole i hi _ (by rw [hc.size]; exact hlt) ?_
  rw [Nat.mul_comm, Nat.mul_add_div hc.positive, Nat.div_eq_of_lt (by omega), Nat.add_zero]

/-! ## C112 -/

/-- The writer reports every message, whether or not it can be written. -/
theorem writerF_reports (t : Torrent) (l : List (PeerMessage × Faults)) (w w' : Written) (hw : w.added < 2 ^ 64) (h : writePiecesF t l w = .ok w') :
    w'.added = (w.added + downloadedBy (reported (l.map (·.1)))) % 2 ^ 64 := by
  induction l generalizing w with
  | nil => simp only [writePiecesF, Res.ok.injEq] at h; subst h; simp [reported, downloadedBy]; omega
  | cons m l ih =>
    unfold writePiecesF at h
    cases h1 : writeOneF m.2 t w m.1 with
    | err e => rw [h1] at h; cases h
    | panic e => rw [h1] at h; cases h
    | ok w1 =>
      rw [h1] at h
      obtain ⟨d, hd, ha, _⟩ := writeOneF_cases h1
      have e : dataLength m.1 = d.length := by simp [dataLength, hd]
      have h2 := ih w1 (by rw [ha]; exact Nat.mod_lt _ (by omega)) h
      rw [h2, ha]
      simp only [reported, downloadedBy, List.map_cons, List.sum_cons, List.map_map, e]
      omega

/-- C112, what is counted instead: the bytes of all blocks the writer took from the channel, whatever became of them. -/
theorem C112_counted_partial (sha1 : Bytes → Bytes) (t : Torrent) (p0 : Peer) (disk : Disk) (W : World)
    (hW : World.Reachable sha1 t p0 disk W) : W.out.added = ((W.written.map dataLength).sum) % 2 ^ 64 := by
  obtain ⟨_, _, l, hl, h3⟩ := world_carried hW
  rw [writerF_reports t l _ _ (by simp) h3, hl]
  simp only [Nat.zero_add, downloadedBy, reported, List.map_map]
  congr 2

/-- A disk that takes nothing. -/
def fullDisk : Faults := fun _ => some 0

theorem writeAtF_full (disk : Disk) (p d : Bytes) (pos : Int) : (writeAtF (some 0) disk p d pos).2 = disk ∧
    ((writeAtF (some 0) disk p d pos).1 = .ok () → d = []) := by
  simp only [writeAtF]
  split
  · rename_i h
    unfold writeAt
    split
    · exact ⟨rfl, by simp⟩
    · rcases h with h | h
      · contradiction
      · rw [if_pos h]; exact ⟨rfl, fun _ => h⟩
  · exact ⟨writeAt_nil _ _ _, by simp⟩

theorem writeLoopF_full : ∀ (fs : List (TorrentFile × Bytes)) (i : Nat) (data : Bytes) (pos : Int) (disk : Disk), data ≠ [] →
    (writeLoopF fullDisk i fs data pos disk).2 = disk ∧ (writeLoopF fullDisk i fs data pos disk).1 ≠ .ok ()
  | [], i, data, pos, disk, h => by rw [writeLoopF, if_neg h]; exact ⟨rfl, by simp⟩
  | (f, p) :: rest, i, data, pos, disk, h => by
    rw [writeLoopF, if_neg h]
    simp only
    generalize (if (data.length : Int) > wrap64 (f.length - pos) then wrap64 (f.length - pos) else (data.length : Int)) = k
    by_cases hk : k < 0
    · rw [if_pos hk]; exact ⟨rfl, by simp⟩
    rw [if_neg hk]
    obtain ⟨g1, g2⟩ := writeAtF_full disk p (data.take k.toNat) pos
    simp only [fullDisk]
    cases e : writeAtF (some 0) disk p (data.take k.toNat) pos with
    | mk r disk' =>
      rw [e] at g1 g2
      simp only at g1 g2
      subst g1
      cases r with
      | err x => exact ⟨rfl, by simp⟩
      | panic x => exact ⟨rfl, by simp⟩
      | ok u =>
        have : k.toNat = 0 := by
          have := congrArg List.length (g2 rfl)
          rw [List.length_take, List.length_nil] at this
          have := List.length_pos_iff.2 h
          omega
        rw [this]
        exact writeLoopF_full rest (i + 1) data 0 disk' h

/-- A full disk: the bytes are counted, nothing else changes. -/
theorem writeOneF_full {t : Torrent} {w w' : Written} {m : PeerMessage} {d : Bytes} (hd : m.data = .ok d) (hne : d ≠ [])
    (he : writeOneF fullDisk t w m = .ok w') : w' = ⟨w.disk, w.downloaded, (w.added + d.length) % 2 ^ 64⟩ := by
  have key : ∀ pos, (writePieceDataF fullDisk t d pos w.disk).2 = w.disk ∧ (writePieceDataF fullDisk t d pos w.disk).1 ≠ .ok () := by
    intro pos
    unfold writePieceDataF
    split
    · cases t.osFiles with
      | nil => exact ⟨rfl, by simp⟩
      | cons p ps => exact ⟨(writeAtF_full _ _ _ _).1, fun h => hne ((writeAtF_full _ _ _ _).2 h)⟩
    · cases h : findFile (t.files.zip t.osFiles) pos with
      | mk fs pos' =>
        cases fs with
        | nil => exact ⟨rfl, by simp⟩
        | cons x xs => exact writeLoopF_full _ _ _ _ _ hne
  unfold writeOneF at he
  rw [hd] at he
  simp only at he
  obtain ⟨k1, k2⟩ := key (wrap64 (wrap64 (m.index * t.pieceLength) + m.offset))
  split at he
  · rename_i e; rw [e] at k2; exact absurd rfl k2
  · rename_i e; rw [e] at k1; simp only at k1; subst k1; cases he; rfl
  · cases he

/-- C112 is violated: a peer sends every piece of the content, correct and whole, and the disk is full from the beginning. Then as many
bytes are counted as the content has, so that trackers are told that nothing is left and the progress bar shows that all is there; but
nothing was written, and no piece counts as downloaded. -/
theorem C112_violated (sha1 : Bytes → Bytes) (os : Os) (mi : Metainfo) (root : Bytes) (disk disk' : Disk) (t : Torrent)
    (hn : newTorrent sha1 os mi root disk = (.ok t, disk')) (hs : Sensible mi) (content : Bytes) (pl : Nat)
    (hc : ContentOf sha1 t content pl) (hne : content ≠ []) (hsz : content.length ≤ 2 ^ 51) (hpl : pl + 9 < 2 ^ 32)
    (hcount : content.length ≤ t.pieces.length * pl) (hnum : t.pieces.length ≤ 2 ^ 32) :
    ∃ W, World.Reachable sha1 t (newPeer t) disk' W ∧ W.out.added = content.length ∧ W.out.disk = disk' ∧
      (∀ i, W.out.downloaded.bit i = false) := by
  obtain ⟨hr, hw, htot, _⟩ := C41_reachable _ _ _ _ _ _ _ hn hs
  obtain ⟨k, k0, hdown, k1, k2, hidx⟩ := new_count hn hs hc hne hsz (by omega)
  have hp0 := hc.positive
  have hkl : k ≤ t.pieces.length := by
    apply Classical.byContradiction
    intro h
    have : t.pieces.length * pl ≤ (k - 1) * pl := Nat.mul_le_mul_right _ (by omega)
    omega
  have hall : t.downloaded.all = false := by
    cases h : t.downloaded.all with
    | false => rfl
    | true =>
      rw [BitSet.all_iff, hdown] at h
      exact absurd (h 0 k0) (by simp [BitSet.new])
  have key : ∀ j, j ≤ k → ∃ r w tr, At sha1 t (newPeer t) disk' r [] none ⟨disk', t.downloaded, min (j * pl) content.length⟩ w tr ∧
      r.loc = .loopTop ∧ r.peer.clientChoked = true ∧ r.sentPieceMsg = false := by
    intro j
    induction j with
    | zero =>
      intro _
      obtain ⟨r, a0, a1, a2, a3⟩ := At.start (sha1 := sha1) (t := t) (p0 := newPeer t) (disk := disk') rfl
      exact ⟨r, _, _, by simpa using a0, a1, a2, a3⟩
    | succ j ih =>
      intro hj
      obtain ⟨r, w, tr, a0, a1, a2, a3⟩ := ih (by omega)
      have hjc := (hidx j).2 (by omega)
      have hlen := pieceOf_length content pl j
      obtain ⟨b1, b2, b3, b4, b5⟩ := pieceMsg_ok j 0 (pieceOf content pl j) (by omega) (by omega)
      obtain ⟨w1, g1, _⟩ := writeOne_honest t hr content pl hc (pieceMsg j 0 (pieceOf content pl j))
        ⟨disk', t.downloaded, min (j * pl) content.length⟩ (by rw [b3]; exact b5) b4 (by rw [b3]; omega) hw
      obtain ⟨w2, g2⟩ := writeOneF_survives (fl := fullDisk) g1
      have e := writeOneF_full b5 (List.length_pos_iff.1 (by omega)) g2
      obtain ⟨r', c1, c2, c3, c4⟩ := a0.pushF a1 a2 a3 hall b1 b2 (pieceMsg_accepted hc (by omega) (by omega) (by omega)) g2
      rw [e] at c1
      simp only at c1
      have hsum : (min (j * pl) content.length + (pieceOf content pl j).length) % 2 ^ 64 = min ((j + 1) * pl) content.length := by
        rw [Nat.add_mul]; omega
      rw [hsum] at c1
      exact ⟨r', _, _, c1, c2, c3, c4⟩
  obtain ⟨r, w, tr, ⟨W, hW, so⟩, _⟩ := key k (Nat.le_refl _)
  refine ⟨W, hW, by rw [so.out]; simp only; omega, by rw [so.out], ?_⟩
  intro i
  rw [so.out]
  simp [hdown, BitSet.new]

/-! ## Downloads that exist -/

/-- C111 and C112: two pieces of four bytes; the disk is full. -/
example : ∃ t disk' W, World.Reachable (fun _ => List.replicate 20 1) t (newPeer t) disk' W ∧ W.out.added = 8 ∧ W.out.disk = disk' := by
  obtain ⟨t, d', h1, h2, h3, h4, _⟩ := fewBytes_opens 8 2 (by omega) (by omega) (by omega) [1, 2, 3, 4, 5, 6, 7, 8] rfl
  obtain ⟨W, g1, g2, g3, _⟩ := C112_violated _ _ _ _ _ _ _ h1 h2 _ 4 h3 (by simp) (by simp) (by omega) (by rw [h4]; decide) (by omega)
  exact ⟨t, d', W, g1, g2, g3⟩

/-- A bit that is set was set in some step. -/
theorem bit_flips {sha1 : Bytes → Bytes} {t : Torrent} {p0 : Peer} {disk : Disk} {W : World} {i : Nat} (h : World.Reachable sha1 t p0 disk W)
    (h0 : t.downloaded.bit i = false) (h1 : W.out.downloaded.bit i = true) :
    ∃ W1 W2, World.Reachable sha1 t p0 disk W1 ∧ World.Step sha1 t p0 W1 W2 ∧ W1.out.downloaded.bit i = false ∧ W2.out.downloaded.bit i = true := by
  induction h with
  | start => simp only [World.start] at h1; rw [h0] at h1; cases h1
  | @step W W' hr st ih =>
    cases hb : W.out.downloaded.bit i with
    | true => exact ih hb
    | false => exact ⟨W, W', hr, st, hb, h1⟩

theorem world_len {sha1 : Bytes → Bytes} {t : Torrent} {p0 : Peer} {disk : Disk} {W : World} (h : World.Reachable sha1 t p0 disk W) :
    t.downloaded.len ≤ W.out.downloaded.len := by
  induction h with
  | start => exact Nat.le_refl _
  | @step W W' hr st ih =>
    cases st with
    | peer _ _ _ _ he => rw [(effects_frame he).2.1]; exact ih
    | @write m w fl _ hi he =>
      refine Nat.le_trans ih ?_
      unfold writeOneF at he
      split at he
      · simp only at he
        split at he
        · split at he
          · cases he; simp only [BitSet.set]; split <;> omega
          · cases he; exact Nat.le_refl _
        · cases he; exact Nat.le_refl _
        · cases he
      · cases he
      · cases he
    | _ => exact ih

/-- C111: a download in which the bit of piece 0 becomes set. -/
example : ∃ t disk' W W', World.Reachable (fun _ => List.replicate 20 1) t (newPeer t) disk' W ∧
    World.Step (fun _ => List.replicate 20 1) t (newPeer t) W W' ∧ W.out.downloaded.bit 0 = false ∧ W'.out.downloaded.bit 0 = true ∧
    ∃ b d, Checked (fun _ => List.replicate 20 1) t 4 W.trace (0 * 4 + b) d ∧ b + d.length = 4 ∧ OnDisk W'.out.disk (extents t) (0 * 4 + b) d := by
  obtain ⟨t, d', h1, h2, h3, h4, _⟩ := fewBytes_opens 8 2 (by omega) (by omega) (by omega) [1, 2, 3, 4, 5, 6, 7, 8] rfl
  obtain ⟨W, g1, g2, g3, _⟩ := C78_pushed_partial _ _ _ _ _ _ _ h1 h2 _ 4 h3 (by simp) (by simp) (by omega) (by rw [h4]; decide) (by omega)
    (by simp)
  obtain ⟨k, k0, hdown, _⟩ := new_count h1 h2 h3 (by simp) (by simp) (by omega)
  have hlen : k ≤ W.out.downloaded.len := by have := world_len g1; rw [hdown] at this; exact this
  rw [BitSet.all_iff] at g2
  obtain ⟨W1, W2, r1, st, b1, b2⟩ := bit_flips (i := 0) g1 (by simp [hdown, BitSet.new]) (g2 0 (by omega))
  exact ⟨t, d', W1, W2, r1, st, b1, b2, C111_set _ _ _ _ _ _ _ h1 h2 4 h3.pieceLength (by omega) _ W1 W2 r1 st 0 b1 b2⟩

/-- C111: a block of which the first two bytes could be written. -/
example : ∃ t disk' w', newTorrent (fun _ => List.replicate 20 1) goodOs (fewBytes 4 1) (ascii "/r") (fun _ => []) = (.ok t, disk') ∧
    writeOneF (fun _ => some 2) t ⟨disk', t.downloaded, 0⟩ (pieceMsg 0 0 [1, 2, 3, 4]) = .ok w' ∧ w'.downloaded.bit 0 = false ∧
    layout w'.disk (extents t) = [1, 2, 0, 0] ∧ w'.added = 4 := by
  obtain ⟨t, d', h1, h2, h3, h4, h5⟩ := fewBytes_opens 4 1 (by omega) (by omega) (by omega) [1, 2, 3, 4] rfl
  obtain ⟨hr, hw, htot, hz⟩ := C41_reachable _ _ _ _ _ _ _ h1 h2
  obtain ⟨p, e, hp1, hp2⟩ := hr.single h5
  obtain ⟨b1, b2, b3, b4, b5⟩ := pieceMsg_ok 0 0 [1, 2, 3, 4] (by omega) (by omega)
  have hsz := h3.size
  have hx : extents t = [(t.length.toNat, p)] := by simp [extents, h5, e]
  have hl : t.length.toNat = 4 := by rw [hx] at hsz; simpa [total] using hsz.symm
  have hd : d' p = [] := hz p (by rw [e]; simp)
  obtain ⟨k, k0, hdown, _⟩ := new_count h1 h2 h3 (by simp) (by simp) (by omega)
  refine ⟨t, d', ⟨d'.update p [1, 2], t.downloaded, 4⟩, h1, ?_, by simp [hdown, BitSet.new], ?_, rfl⟩
  · unfold writeOneF
    rw [b5, b3, b4, h3.pieceLength]
    simp [writePieceDataF, h5, e, writeAtF, writeAt, wrap64, overwrite, hd]
  · rw [hx, hl]
    simp [layout, stored, Disk.update]

end Gotit.Props
