import Verif.Spec.WriterCrash
import Verif.Props.World
/-
  C107: verified data cannot crash the writer.
-/
namespace Gotit.Props
open Gotit Spec

/-! ### No crash -/

theorem findFile_inv : ∀ (fs : List (TorrentFile × Bytes)) (pos : Int), (∀ x ∈ fs, 0 ≤ x.1.length ∧ x.1.length < 2 ^ 63) → 0 ≤ pos → pos < 2 ^ 63 →
    (∀ x ∈ (findFile fs pos).1, x ∈ fs) ∧ ∀ f p rest pos', findFile fs pos = ((f, p) :: rest, pos') → 0 ≤ pos' ∧ pos' < f.length
  | [], pos, _, _, _ => by simp [findFile]
  | (f, p) :: fs, pos, h, h0, h1 => by
    have hf := h (f, p) (by simp)
    simp only at hf
    rw [findFile]
    split
    · refine ⟨fun x hx => hx, fun f' p' rest pos' e => ?_⟩
      simp only [Prod.mk.injEq, List.cons.injEq] at e
      obtain ⟨⟨⟨rfl, rfl⟩, _⟩, rfl⟩ := e
      omega
    · rw [wrap64_of _ (by omega) (by omega)]
      obtain ⟨a, b⟩ := findFile_inv fs (pos - f.length) (fun x hx => h x (by simp [hx])) (by omega) (by omega)
      exact ⟨fun x hx => by simp [a x hx], b⟩

theorem writeAt_noPanic (disk : Disk) (path d : Bytes) (pos : Int) : (writeAt disk path d pos).1.isPanic = false := by
  unfold writeAt
  split
  · rfl
  · split <;> rfl

theorem writeLoop_noPanic : ∀ (fs : List (TorrentFile × Bytes)) (data : Bytes) (pos : Int) (disk : Disk),
    (∀ x ∈ fs, 0 ≤ x.1.length ∧ x.1.length < 2 ^ 63) → 0 ≤ pos → (∀ f p rest, fs = (f, p) :: rest → pos ≤ f.length) →
    (writeLoop fs data pos disk).1.isPanic = false
  | [], data, pos, disk, _, _, _ => by
    rw [writeLoop]; split <;> rfl
  | (f, p) :: fs, data, pos, disk, h, h0, h1 => by
    have hf := h (f, p) (by simp)
    simp only at hf
    have h1 := h1 f p fs rfl
    rw [writeLoop]
    split
    · rfl
    · simp only
      rw [wrap64_of _ (by omega) (by omega)]
      rw [if_neg (by split <;> omega)]
      generalize (if (data.length : Int) > f.length - pos then f.length - pos else (data.length : Int)).toNat = k
      cases e : writeAt disk p (data.take k) pos with
      | mk r disk' =>
        cases r with
        | ok u =>
          exact writeLoop_noPanic fs _ 0 disk' (fun x hx => h x (by simp [hx])) (by omega) (fun f' p' rest e => (h (f', p') (by simp [e])).1)
        | err e => rfl
        | panic w =>
          have := writeAt_noPanic disk p (data.take k) pos
          rw [e] at this
          simp [Res.isPanic] at this

theorem writeOne_noPanic {t : Torrent} (w : Written) {m : PeerMessage} {d : Bytes} (hd : m.data = .ok d)
    (hfiles : ∀ f ∈ t.files, 0 ≤ f.length ∧ f.length < 2 ^ 63) (hos : t.isDirectory = false → t.osFiles ≠ []) (hpl : 0 ≤ t.pieceLength)
    (hplace : (m.index + 1 : Nat) * t.pieceLength + m.offset < 2 ^ 63) : ∃ w', writeOne t w m = .ok w' := by
  have hm : 0 ≤ (m.index : Int) * t.pieceLength := Int.mul_nonneg (by omega) hpl
  have hlt : (m.index : Int) * t.pieceLength + m.offset < 2 ^ 63 := by
    have : ((m.index + 1 : Nat) : Int) * t.pieceLength = m.index * t.pieceLength + t.pieceLength := by
      rw [Int.natCast_add, Int.add_mul]; simp
    omega
  have hnp : (writePieceData t d ((m.index : Int) * t.pieceLength + m.offset) w.disk).1.isPanic = false := by
    unfold writePieceData
    split
    · rename_i hdir
      cases ho : t.osFiles with
      | nil => exact absurd ho (hos (by simpa using hdir))
      | cons p ps => exact writeAt_noPanic _ _ _ _
    · have hz : ∀ x ∈ t.files.zip t.osFiles, 0 ≤ x.1.length ∧ x.1.length < 2 ^ 63 := fun x hx => hfiles _ (List.of_mem_zip hx).1
      obtain ⟨a, b⟩ := findFile_inv (t.files.zip t.osFiles) ((m.index : Int) * t.pieceLength + m.offset) hz (by omega) (by omega)
      split
      · rfl
      · rename_i fs pos hne e
        rw [e] at a
        refine writeLoop_noPanic fs d pos w.disk (fun x hx => hz x (a x hx)) ?_ ?_
        · cases fs with
          | nil => exact absurd rfl hne
          | cons x rest => exact (b x.1 x.2 rest pos e).1
        · intro f p rest e'
          subst e'
          have := b f p rest pos e
          omega
  unfold writeOne
  rw [hd]
  simp only
  rw [wrap64_of ((m.index : Int) * t.pieceLength) (by omega) (by omega), wrap64_of _ (by omega) hlt]
  cases e : writePieceData t d ((m.index : Int) * t.pieceLength + m.offset) w.disk with
  | mk r disk' =>
    cases r with
    | ok u => simp only; split <;> exact ⟨_, rfl⟩
    | err e => exact ⟨_, rfl⟩
    | panic w => rw [e] at hnp; simp [Res.isPanic] at hnp

theorem pieces_length : ∀ (k i : Nat) (bs : Bytes), (newPiecesLoop k i bs).length = k
  | 0, _, _ => rfl
  | k + 1, i, bs => by simp [newPiecesLoop, pieces_length k]

theorem accept_index {sha1 : Bytes → Bytes} {t : Torrent} {m m' : PeerMessage} (h : acceptPiece sha1 t m = .ok (some m')) : m.index < t.pieces.length := by
  unfold acceptPiece at h
  cases hd : m.data with
  | err e => rw [hd] at h; simp [Res.bind] at h
  | panic e => rw [hd] at h; simp [Res.bind] at h
  | ok d =>
    rw [hd] at h
    simp only [Res.bind, checkPiece] at h
    cases hp : t.pieces[m.index]? with
    | none => rw [hp] at h; simp at h
    | some p => exact (List.getElem?_eq_some_iff.1 hp).1

/-- C107, proved for metainfos whose numbers can be measured in bytes (`Measured`): the writer never panics.
Missing: other metainfos, for which it is false: `C107_violated`, `C107_wrap_violated`. -/
theorem C107_partial (sha1 : Bytes → Bytes) (os : Os) (mi : Metainfo) (root : Bytes) (disk disk' : Disk) (t : Torrent) (W : World)
    (hm : Measured mi) (hn : newTorrent sha1 os mi root disk = (.ok t, disk')) (hW : World.Reachable sha1 t (newPeer t) disk' W) :
    W.dead = false := by
  obtain ⟨e0, e5, e3, e4, e1, e2, -⟩ := newTorrent_ok hn
  have hfiles : ∀ f ∈ t.files, 0 ≤ f.length ∧ f.length < 2 ^ 63 := by
    intro f hf
    rw [e4] at hf
    split at hf
    · exact hm.files f hf
    · cases hf
  have hos : t.isDirectory = false → t.osFiles ≠ [] := by
    intro hd
    obtain ⟨_, g, _⟩ := initDownloadDir_ok e5
    rw [e3] at hd
    rw [g (by simpa using hd)]
    simp
  have hlen : t.pieces.length = mi.pieces.length / 20 := by
    unfold newPieces at e0
    split at e0
    · simp at e0
    · simp only [Res.ok.injEq] at e0
      rw [← e0, pieces_length]
  have safe : ∀ (W : World), World.Reachable sha1 t (newPeer t) disk' W → ∀ m, W.inHand = some m → ∃ w', writeOne t W.out m = .ok w' := by
    intro W hW m hi
    obtain ⟨i, f, _, h1, h2, h3⟩ := (world_carried hW).1 m (.inr (.inl hi))
    obtain ⟨d, _, hd, hidx, hoff⟩ := piece_heard h1 h2
    have hlt := accept_index h3
    refine writeOne_noPanic _ hd hfiles hos (e2 ▸ hm.pieceLength) ?_
    have h5 := hm.places
    rw [← hlen] at h5
    rw [e2]
    have h6 : ((m.index + 1 : Nat) : Int) * mi.pieceLength ≤ (t.pieces.length : Int) * mi.pieceLength :=
      Int.mul_le_mul_of_nonneg_right (by omega) hm.pieceLength
    omega
  induction hW with
  | start => rfl
  | @step W W' hr st ih =>
    cases st with
    | peer _ _ _ _ he => rw [(effects_frame he).2.2.2.2.1]; exact ih
    | writeCrash fl _ hi hno =>
      obtain ⟨w', hw⟩ := safe W hr _ hi
      obtain ⟨w'', hw⟩ := writeOneF_survives (fl := fl) hw
      exact absurd hw (hno w'')
    | spawn q _ => exact ih
    | cancel _ => exact ih
    | close _ _ => exact ih
    | receive _ _ _ => exact ih
    | write _ _ _ _ => exact ih

/-- A panic of the writer is the end: nothing happens any more. -/
theorem C107_final {sha1 : Bytes → Bytes} {t : Torrent} {p0 : Peer} {W W' : World} (h : W.dead = true) : ¬ World.Step sha1 t p0 W W' := by
  intro st
  have : W.alive := by cases st <;> assumption
  rw [this.1] at h
  simp at h

/-! ### Crashes -/

variable {sha1 : Bytes → Bytes} {t : Torrent} {p0 : Peer} {disk : Disk}

/-- A peer that was not asked sends a piece; it is verified, and the writer panics. -/
theorem At.crash {r : Run} {o w tr} {m : PeerMessage} {f : Bytes} (a : At sha1 t p0 disk r [] none o w tr) (h1 : r.loc = .loopTop)
    (h2 : r.peer.clientChoked = true) (hd : o.downloaded.all = false) (hf : newPeerMessage f = .ok m)
    (ht : m.type = pieceType) (ha : acceptPiece sha1 t m = .ok (some m)) (hw : ∀ o', writeOne t o m ≠ .ok o') :
    ∃ W, World.Reachable sha1 t p0 disk W ∧ W.dead = true := by
  have s1 := a.silent (.ctxOk h1 rfl) rfl (by simp [Run.goto])
  have s2 := s1.silent (.notDone rfl hd) rfl (by simp [Run.goto])
  have s3 := s2.silent (.notDue rfl) rfl (by simp [Run.goto])
  have s4 := s3.silent (.choked rfl h2) rfl (by simp [Run.goto])
  have s5 := s4.silent (.uCtxOk rfl rfl) rfl (by simp [Run.goto])
  have s6 := s5.quiet [.sent interestedMessage] (.uSent rfl) rfl (by simp [quietEv]) (by simp [Run.emit])
  have hh : ∀ s : Run, s.handle sha1 t f true = gotPiece s m f := by
    intro s
    unfold Run.handle gotPiece
    rw [hf]
    simp [Res.bind, Peer.handlePeerMessage, ht, ha, keepaliveType, bitfieldType, haveType, interestedType, notInterestedType, chokeType, unchokeType, pieceType]
  have hstep : ∀ s : Run, s.loc = .unchokeRead → Run.Step sha1 t s (gotPiece s m f) := by
    intro s hs
    rw [← hh s]
    exact .uRead f hs
  have s7 := s6.quiet [.received f] (hstep _ rfl) rfl (by simp [quietEv]) (by simp [gotPiece])
  obtain ⟨W, hW, s⟩ := s7.accept rfl (by decide)
  have h1 := hW.step (.receive s.isAlive s.inHand s.buffer)
  exact ⟨_, h1.step (.writeCrash (m := m) Faults.none ⟨s.dead, s.isAlive.2⟩ rfl (by simp only [s.out]; rw [writeOneF_none]; exact hw)), rfl⟩

/-- Files of which one has a negative length. -/
def negativeFile : Metainfo := manyFiles (ascii "n") [⟨[ascii "a"], 3⟩, ⟨[ascii "b"], -1⟩, ⟨[ascii "c"], 2⟩]

/-- Three pieces of 2^62 bytes. -/
def hugePieces : Metainfo := { manyFiles (ascii "n") [⟨[ascii "a"], 5⟩] with pieceLength := 2 ^ 62, pieces := List.replicate 60 1 }

theorem writeOne_panics {t : Torrent} {o : Written} {m : PeerMessage} {d : Bytes} (hd : m.data = .ok d) (pos : Int)
    (hpos : wrap64 (wrap64 (m.index * t.pieceLength) + m.offset) = pos)
    (hp : ∀ disk, (writePieceData t d pos disk).1.isPanic = true) (o' : Written) : writeOne t o m ≠ .ok o' := by
  unfold writeOne
  rw [hd]
  simp only
  rw [hpos]
  have := hp o.disk
  cases e : writePieceData t d pos o.disk with
  | mk r disk' => rw [e] at this; cases r <;> simp_all [Res.isPanic]

/-- A download of `mi` with the given piece hashes in which the first piece message crashes the writer. -/
theorem crash_of (mi : Metainfo) (index : Nat) (d : Bytes) (files : List TorrentFile) (ps : List Bytes) (pieces : List Piece) (hdir : mi.infoLength = 0)
    (h20 : mi.pieces.length % 20 = 0) (hfiles : mi.files = files) (hps : filePaths (join (ascii "/r") mi.name) files = .ok ps)
    (hpc : newPieces mi.pieces = .ok pieces) (hx : pieces[index]?.map (fun p => p.sha1) = some (List.replicate 20 1)) (hi : index < 2 ^ 32)
    (hb : (bitsetNew (piecesNum (torrentLength mi) mi.pieceLength)).all = false)
    (hp : ∀ disk t, t.isDirectory = true → t.files = files → t.osFiles = ps →
      (writePieceData t d (wrap64 (wrap64 (index * mi.pieceLength) + 0)) disk).1.isPanic = true) :
    ∃ t disk' W, newTorrent (fun _ => List.replicate 20 1) goodOs mi (ascii "/r") (fun _ => []) = (.ok t, disk') ∧
      World.Reachable (fun _ => List.replicate 20 1) t (newPeer t) disk' W ∧ W.dead = true := by
  have hpath : ∀ f ∈ mi.files, f.path ≠ [] := by rw [hfiles]; exact (filePaths_inv _ _ _ hps).1
  obtain ⟨t, d', hn⟩ := newTorrent_succeeds (fun _ => List.replicate 20 1) goodOs mi (ascii "/r") (fun _ => [])
    h20 (fun _ => hpath) (by simp [goodOs]) (by simp [goodOs])
  obtain ⟨e0, e5, e3, e4, e1, e2, e6, _, _, _, _, e7, _⟩ := newTorrent_ok hn
  obtain ⟨m1, m2, m3, m4, m5⟩ := pieceMsg_ok index 0 d hi (by omega)
  obtain ⟨r, a, hl, hc, _⟩ := At.start (sha1 := fun _ => List.replicate 20 1) (t := t) (p0 := newPeer t) (disk := d') rfl
  rw [hpc] at e0
  simp only [Res.ok.injEq] at e0
  have hdec : decide (mi.infoLength = 0) = true := by simpa using hdir
  rw [if_pos hdir, hfiles] at e4
  rw [hdec, if_pos hdir, hfiles] at e5
  have hos : t.osFiles = ps := by
    have := (initDownloadDir_ok e5).1 rfl
    rw [hps] at this
    simpa using this.symm
  have ha : acceptPiece (fun _ => List.replicate 20 1) t (pieceMsg index 0 d) = .ok (some (pieceMsg index 0 d)) := by
    unfold acceptPiece checkPiece
    rw [m5, m3, ← e0]
    simp only [Res.bind]
    cases hg : pieces[index]? with
    | none => rw [hg] at hx; simp at hx
    | some p => rw [hg] at hx; simp only [Option.map_some, Option.some.injEq] at hx; simp [hx]
  obtain ⟨W, hW, hdead⟩ := At.crash a hl hc (by rw [e7, e6]; exact hb) m1 m2 ha
    (writeOne_panics m5 _ (by rw [m3, m4, e2]; rfl) (fun disk => hp disk t (e3.trans hdec) e4 hos))
  exact ⟨t, d', W, hn, hW, hdead⟩

/-- C107 is violated: one file of a torrent of several files has a negative length, so that the writer cuts a piece that was verified at a
negative place. (`New` does not reject such a torrent; a peer need only send the first piece.) -/
theorem C107_violated : ¬ WriterSafe := by
  intro h
  obtain ⟨t, disk', W, h1, h2, h3⟩ := crash_of negativeFile 0 [1, 2, 3, 4] [⟨[ascii "a"], 3⟩, ⟨[ascii "b"], -1⟩, ⟨[ascii "c"], 2⟩]
    [ascii "/r/n/a", ascii "/r/n/b", ascii "/r/n/c"] [⟨0, List.replicate 20 1⟩, ⟨1, List.replicate 20 1⟩] rfl (by decide) rfl (by decide) (by decide) (by decide) (by decide)
    (by decide) (by
      intro disk t h1 h2 h3
      unfold writePieceData
      rw [h1, h2, h3]
      simp [negativeFile, manyFiles, oneFile, wrap64, findFile, writeLoop, writeAt, Res.isPanic])
  have := h _ _ _ _ _ _ t W h1 h2
  rw [h3] at this
  simp at this

/-- The other condition of `C107_partial` is needed too: all files have positive lengths, but the place of the third piece is 2^63, which as
an `int` is negative. -/
theorem C107_wrap_violated : ∃ t disk' W, (∀ f ∈ hugePieces.files, 0 ≤ f.length ∧ f.length < 2 ^ 63) ∧ 0 ≤ hugePieces.pieceLength ∧
    newTorrent (fun _ => List.replicate 20 1) goodOs hugePieces (ascii "/r") (fun _ => []) = (.ok t, disk') ∧
    World.Reachable (fun _ => List.replicate 20 1) t (newPeer t) disk' W ∧ W.dead = true := by
  obtain ⟨t, disk', W, h⟩ := crash_of hugePieces 2 [1, 2, 3, 4] [⟨[ascii "a"], 5⟩]
    [ascii "/r/n/a"] [⟨0, List.replicate 20 1⟩, ⟨1, List.replicate 20 1⟩, ⟨2, List.replicate 20 1⟩] rfl (by decide) rfl (by decide) (by decide) (by decide) (by decide)
    (by decide) (by
      intro disk t h1 h2 h3
      unfold writePieceData
      rw [h1, h2, h3]
      simp [hugePieces, manyFiles, oneFile, wrap64, findFile, writeLoop, writeAt, Res.isPanic])
  exact ⟨t, disk', W, by decide, by decide, h⟩

/-- A torrent of two files, as `New` takes it, is measured. -/
example : Measured (manyFiles (ascii "n") [⟨[ascii "a"], 3⟩, ⟨[ascii "b"], 4⟩]) := ⟨by decide, by decide, by decide⟩

end Gotit.Props
