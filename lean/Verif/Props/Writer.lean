import Verif.Spec.Content
import Verif.Model.Peer
import Verif.Lemmas.BE
import Verif.Props.Paths
/-
  C43, C44, C45: from received piece messages to the files.
-/
namespace Gotit.Props
open Gotit Spec

theorem getElem?_splice (v : Bytes) (pos : Nat) (d : Bytes) (h : pos + d.length ≤ v.length) (i : Nat) :
    (splice v pos d)[i]? = if i < pos then v[i]? else if i < pos + d.length then d[i - pos]? else v[i]? := by
  have htl : (v.take pos).length = pos := by rw [List.length_take]; omega
  unfold splice
  by_cases h1 : i < pos
  · rw [List.getElem?_append_left (by omega), List.getElem?_take, if_pos h1, if_pos h1]
  · rw [List.getElem?_append_right (by omega), htl, if_neg h1]
    by_cases h2 : i < pos + d.length
    · rw [List.getElem?_append_left (by omega), if_pos h2]
    · rw [List.getElem?_append_right (by omega), List.getElem?_drop, if_neg h2]
      congr 1; omega

theorem pieceOf_length (c : Bytes) (pl i : Nat) : (pieceOf c pl i).length = min pl (c.length - i * pl) := by
  simp [pieceOf]

theorem pieceOf_get (c : Bytes) (pl i j : Nat) (h : j < pl) : (pieceOf c pl i)[j]? = c[i * pl + j]? := by
  unfold pieceOf
  rw [List.getElem?_take, if_pos h, List.getElem?_drop]

/-- What one message does that carries data lying inside the torrent, at any offset. -/
theorem writeOne_fits (t : Torrent) (h : Ready t) (m : PeerMessage) (d : Bytes) (pl : Nat) (w : Written) (hpl : t.pieceLength = pl)
    (hd : m.data = .ok d) (hne : d ≠ []) (hw : WithinLengths w.disk (extents t))
    (hfit : m.index * pl + m.offset + d.length ≤ total (extents t)) (hb : total (extents t) < 2 ^ 63) :
    ∃ w', writeOne t w m = .ok w' ∧
      layout w'.disk (extents t) = splice (layout w.disk (extents t)) (m.index * pl + m.offset) d ∧
      WithinLengths w'.disk (extents t) ∧ OnlyTouches (extents t) w.disk w'.disk ∧
      w'.downloaded = (if m.offset + d.length = pl then w.downloaded.set m.index else w.downloaded) ∧
      w'.added = (w.added + d.length) % 2 ^ 64 := by
  have hpos : wrap64 (wrap64 (m.index * t.pieceLength) + m.offset) = ((m.index * pl + m.offset : Nat) : Int) := by
    rw [hpl, show ((m.index : Int) * (pl : Int)) = ((m.index * pl : Nat) : Int) from by push_cast; rfl]
    rw [wrap64_of ((m.index * pl : Nat) : Int) (by omega) (by omega), wrap64_of _ (by omega) (by omega)]
    push_cast; rfl
  obtain ⟨d', h1, h2, h3, h4⟩ := C41_layout t h d (m.index * pl + m.offset) w.disk hw hne hfit
  unfold writeOne
  rw [hd]
  simp only
  rw [hpos, h1]
  simp only [hpl]
  by_cases hfull : m.offset + d.length = pl
  · rw [if_pos (by omega), if_pos hfull]
    exact ⟨_, rfl, h2, h3, h4, rfl, rfl⟩
  · rw [if_neg (by omega), if_neg hfull]
    exact ⟨_, rfl, h2, h3, h4, rfl, rfl⟩

/-- What one message without data does: nothing is stored. -/
theorem writeOne_empty (t : Torrent) (h : Ready t) (m : PeerMessage) (pl : Nat) (w : Written) (hpl : t.pieceLength = pl)
    (hd : m.data = .ok []) (hw : WithinLengths w.disk (extents t)) (ho : m.offset = 0) (h0 : 0 < pl) (hb : m.index * pl < 2 ^ 63) :
    ∃ w', writeOne t w m = .ok w' ∧ layout w'.disk (extents t) = layout w.disk (extents t) ∧
      WithinLengths w'.disk (extents t) ∧ OnlyTouches (extents t) w.disk w'.disk ∧ w'.downloaded = w.downloaded := by
  have hpos : wrap64 (wrap64 (m.index * t.pieceLength) + m.offset) = ((m.index * pl : Nat) : Int) := by
    rw [hpl, ho, show ((m.index : Int) * (pl : Int)) = ((m.index * pl : Nat) : Int) from by push_cast; rfl]
    rw [wrap64_of ((m.index * pl : Nat) : Int) (by omega) (by omega), wrap64_of _ (by omega) (by omega)]
    simp
  have hwrite : ∃ r d', writePieceData t [] ((m.index * pl : Nat) : Int) w.disk = (r, d') ∧ (r = .ok () ∨ ∃ e, r = .err e) ∧
      layout d' (extents t) = layout w.disk (extents t) ∧ WithinLengths d' (extents t) ∧ OnlyTouches (extents t) w.disk d' := by
    cases hdir : t.isDirectory with
    | true =>
      obtain ⟨r, d', h1, h2, h3, h4, h5⟩ := writePieceData_spec t h [] (m.index * pl) hb w.disk hw hdir
      refine ⟨r, d', h1, ?_, ?_, h4, h5⟩
      · rw [h2]
        split
        · split
          · exact .inl rfl
          · exact .inr ⟨_, rfl⟩
        · exact .inr ⟨_, rfl⟩
      · rw [h3, List.take_nil, splice_nil]
    | false =>
      obtain ⟨p, e, -⟩ := h.single hdir
      refine ⟨.ok (), w.disk, ?_, .inl rfl, rfl, hw, fun _ _ => rfl⟩
      unfold writePieceData
      rw [if_pos (by simp [hdir]), e]
      simp only [writeAt]
      rw [if_neg (by omega)]; simp
  obtain ⟨r, d', h1, hr, h2, h3, h4⟩ := hwrite
  unfold writeOne
  rw [hd]
  simp only
  rw [hpos, h1]
  rcases hr with rfl | ⟨e, rfl⟩
  · simp only [hpl]
    rw [if_neg (by simp only [List.length_nil]; omega)]
    exact ⟨_, rfl, h2, h3, h4, rfl⟩
  · exact ⟨_, rfl, h2, h3, h4, rfl⟩

/-- What one correct piece at offset 0 does. -/
theorem writeOne_honest {sha1 : Bytes → Bytes} (t : Torrent) (h : Ready t) (content : Bytes) (pl : Nat) (hc : ContentOf sha1 t content pl)
    (m : PeerMessage) (w : Written) (hd : m.data = .ok (pieceOf content pl m.index)) (ho : m.offset = 0)
    (hi : m.index * pl < 2 ^ 63) (hw : WithinLengths w.disk (extents t)) :
    ∃ w', writeOne t w m = .ok w' ∧
      layout w'.disk (extents t) = splice (layout w.disk (extents t)) (m.index * pl) (pieceOf content pl m.index) ∧
      WithinLengths w'.disk (extents t) ∧ OnlyTouches (extents t) w.disk w'.disk ∧
      w'.downloaded = (if (pieceOf content pl m.index).length = pl then w.downloaded.set m.index else w.downloaded) := by
  have hlen := pieceOf_length content pl m.index
  have hb := hc.bound
  have hs := hc.size
  by_cases hne : pieceOf content pl m.index = []
  · rw [hne] at hd ⊢
    obtain ⟨w', h1, h2, h3, h4, h5⟩ := writeOne_empty t h m pl w hc.pieceLength hd hw ho hc.positive hi
    refine ⟨w', h1, by rw [h2, splice_nil], h3, h4, ?_⟩
    have := hc.positive
    rw [h5, if_neg (by simp only [List.length_nil]; omega)]
  · have hpos := List.length_pos_iff.2 hne
    obtain ⟨w', h1, h2, h3, h4, h5, _⟩ := writeOne_fits t h m _ pl w hc.pieceLength hd hne hw (by rw [ho]; omega) (by omega)
    rw [ho, Nat.add_zero] at h2
    rw [ho, Nat.zero_add] at h5
    exact ⟨w', h1, h2, h3, h4, h5⟩

/-! ## C43 -/

theorem accept_inv {sha1 : Bytes → Bytes} {t : Torrent} {m m' : PeerMessage} (h : acceptPiece sha1 t m = .ok (some m')) :
    m' = m ∧ ∃ d p, m.data = .ok d ∧ t.pieces[m.index]? = some p ∧ p.sha1 = sha1 d := by
  unfold acceptPiece at h
  cases hd : m.data with
  | ok d =>
    rw [hd] at h
    simp only [Res.bind, checkPiece] at h
    cases hp : t.pieces[m.index]? with
    | none => rw [hp] at h; simp at h
    | some p =>
      rw [hp] at h
      simp only [Res.ok.injEq] at h
      by_cases he : p.sha1 = sha1 d
      · simp [he] at h; exact ⟨h.symm, d, p, rfl, rfl, he⟩
      · simp [he] at h
  | err e => rw [hd] at h; simp [Res.bind] at h
  | panic e => rw [hd] at h; simp [Res.bind] at h

/-- C43, proved for peers that send offset 0 and do not find second preimages: whatever messages were accepted, in
whatever order, the writer goes on, every stored byte is the old or the right one, and no other file is touched.
Missing: other offsets, see `C43_misplaced_violated`. -/
theorem C43_verified_partial (sha1 : Bytes → Bytes) (t : Torrent) (h : Ready t) (content : Bytes) (pl : Nat)
    (hc : ContentOf sha1 t content pl) (ms : List PeerMessage) (w : Written) (hw : WithinLengths w.disk (extents t))
    (hacc : ∀ m ∈ ms, acceptPiece sha1 t m = .ok (some m)) (ho : ∀ m ∈ ms, m.offset = 0)
    (hsec : ∀ m ∈ ms, ∀ d, m.data = .ok d → sha1 d = sha1 (pieceOf content pl m.index) → d = pieceOf content pl m.index) :
    ∃ w', writePieces t ms w = .ok w' ∧ OldOrRight content (layout w.disk (extents t)) (layout w'.disk (extents t)) ∧
      WithinLengths w'.disk (extents t) ∧ OnlyTouches (extents t) w.disk w'.disk := by
  induction ms generalizing w with
  | nil =>
    refine ⟨w, rfl, ⟨?_, fun _ _ => .inl rfl⟩, hw, fun _ _ => rfl⟩
    rw [layout_length, hc.size]
  | cons m ms ih =>
    obtain ⟨_, d, p, hd, hp, he⟩ := accept_inv (hacc m (by simp))
    obtain ⟨hi, hh⟩ := hc.hashes _ _ hp
    have hde := hsec m (by simp) d hd (by rw [← he, hh])
    subst hde
    obtain ⟨w1, g1, g2, g3, g4, _⟩ := writeOne_honest t h content pl hc m w hd (ho m (by simp)) hi hw
    obtain ⟨w2, k1, ⟨k2, k3⟩, k4, k5⟩ := ih w1 g3 (fun x hx => hacc x (by simp [hx])) (fun x hx => ho x (by simp [hx]))
      (fun x hx => hsec x (by simp [hx]))
    refine ⟨w2, ?_, ⟨k2, ?_⟩, k4, fun q hq => (k5 q hq).trans (g4 q hq)⟩
    · unfold writePieces; rw [g1]; exact k1
    · intro i hil
      rcases k3 i hil with e | e
      · rw [e, g2]
        have hlen := pieceOf_length content pl m.index
        have hs := hc.size
        by_cases hne : pieceOf content pl m.index = []
        · rw [hne, splice_nil]; exact .inl rfl
        · have hpos := List.length_pos_iff.2 hne
          rw [getElem?_splice _ _ _ (by rw [layout_length]; omega)]
          split
          · exact .inl rfl
          · split
            · right
              rw [pieceOf_get _ _ _ _ (by omega)]
              congr 1; omega
            · exact .inl rfl
      · exact .inr e

/-- The frame body of a piece message. -/
def pieceFrame (index offset : Nat) (data : Bytes) : Bytes := pieceType :: (putBE 4 index ++ (putBE 4 offset ++ data))

theorem pieceFrame_ok (index offset : Nat) (data : Bytes) (hi : index < 2 ^ 32) (ho : offset < 2 ^ 32) :
    ∃ m, newPeerMessage (pieceFrame index offset data) = .ok m ∧ m.type = pieceType ∧ m.index = index ∧ m.offset = offset ∧
      m.data = .ok data := by
  have l1 := putBE_length 4 index
  have l2 := putBE_length 4 offset
  have e1 : uint32At (putBE 4 index ++ (putBE 4 offset ++ data)) 0 = .ok index := by
    unfold uint32At
    rw [if_neg (by simp [l1]), List.drop_zero, List.take_append_of_le_length (by omega), List.take_of_length_le (by omega),
      getBE_putBE _ _ (by omega)]
  have e2 : uint32At (putBE 4 index ++ (putBE 4 offset ++ data)) 4 = .ok offset := by
    unfold uint32At
    rw [if_neg (by simp only [List.length_append, l1, l2]; omega), List.drop_append_of_le_length (by omega), List.drop_of_length_le (by omega), List.nil_append,
      List.take_append_of_le_length (by omega), List.take_of_length_le (by omega), getBE_putBE _ _ (by omega)]
  refine ⟨{ len := ((putBE 4 index ++ (putBE 4 offset ++ data)).length + 1) % 2 ^ 32, type := pieceType,
            payload := putBE 4 index ++ (putBE 4 offset ++ data), index := index, offset := offset }, ?_, rfl, rfl, rfl, ?_⟩
  · unfold newPeerMessage pieceFrame
    simp only
    rw [if_neg (by decide), if_neg (by decide), e1, e2]
    simp [Res.bind]
  · unfold PeerMessage.data
    simp only
    rw [if_neg (by simp), if_neg (by simp only [List.length_append, l1, l2]; omega)]
    rw [List.drop_append, l1, List.drop_of_length_le (by omega), List.nil_append, List.drop_append, l2,
      List.drop_of_length_le (by omega)]
    simp

/-- C43 is false of the code: the offset in a piece message is never checked. A peer that knows piece `i` can have it stored
at any offset `o` with which it still lies inside the torrent, over the bytes of other pieces. -/
theorem C43_misplaced_violated (sha1 : Bytes → Bytes) (t : Torrent) (h : Ready t) (content : Bytes) (pl : Nat)
    (hc : ContentOf sha1 t content pl) (i o : Nat) (hi : i < t.pieces.length) (hi2 : i < 2 ^ 32) (ho : o < 2 ^ 32)
    (hne : i * pl < content.length) (hfit : i * pl + o + (pieceOf content pl i).length ≤ content.length)
    (w : Written) (hw : WithinLengths w.disk (extents t)) :
    ∃ frame m w', newPeerMessage frame = .ok m ∧ acceptPiece sha1 t m = .ok (some m) ∧ writePieces t [m] w = .ok w' ∧
      layout w'.disk (extents t) = splice (layout w.disk (extents t)) (i * pl + o) (pieceOf content pl i) := by
  obtain ⟨m, h1, h2, h3, h4, h5⟩ := pieceFrame_ok i o (pieceOf content pl i) hi2 ho
  have hlen := pieceOf_length content pl i
  have hp := hc.positive
  have hs := hc.size
  have hb := hc.bound
  obtain ⟨w', g1, g2, -⟩ := writeOne_fits t h m _ pl w hc.pieceLength h5 (by
    apply List.ne_nil_of_length_pos; omega) hw (by rw [h3, h4]; omega) (by omega)
  refine ⟨_, m, w', h1, ?_, ?_, by rw [g2, h3, h4]⟩
  · unfold acceptPiece
    rw [h5, h3]
    have hg : t.pieces[i]? = some t.pieces[i] := List.getElem?_eq_getElem hi
    simp only [Res.bind, checkPiece, hg, (hc.hashes _ _ hg).2]
    simp
  · unfold writePieces; rw [g1]; rfl

/-! ### A concrete torrent -/

/-- Five bytes in pieces of two. -/
def tinyContent : Bytes := [10, 20, 30, 40, 50]

/-- A stand-in for SHA-1 with 20-byte values that tells the pieces below apart. -/
def tinySha (d : Bytes) : Bytes := d.take 2 ++ List.replicate (20 - (d.take 2).length) 0

def tiny : Torrent :=
  { trackers := [], hash := [], length := 5, pieceLength := 2,
    pieces := [⟨0, tinySha [10, 20]⟩, ⟨1, tinySha [30, 40]⟩, ⟨2, tinySha [50]⟩], piecesNum := 3, files := [],
    osFiles := [ascii "f"], name := ascii "f", isDirectory := false, numOfBlocks := 0, requested := BitSet.new 3,
    downloaded := BitSet.new 3 }

theorem tiny_ready : Ready tiny := ⟨fun h => (by cases h), fun _ => ⟨_, rfl, by decide, by decide⟩⟩

theorem tiny_content : ContentOf tinySha tiny tinyContent 2 where
  pieceLength := rfl
  positive := by omega
  size := by decide
  bound := by decide
  hashes := by
    intro i p hp
    have hi : i < 3 := by
      have := (List.getElem?_eq_some_iff.1 hp).1
      simpa [tiny] using this
    have : i = 0 ∨ i = 1 ∨ i = 2 := by omega
    rcases this with rfl | rfl | rfl <;> (simp [tiny] at hp; subst hp; exact ⟨by omega, by decide⟩)

/-- C43 is false of the code, concretely: piece 0 sent with offset 2 replaces the bytes of piece 1. -/
theorem C43_violated : ∃ (sha1 : Bytes → Bytes) (t : Torrent) (content : Bytes) (pl : Nat) (ms : List PeerMessage) (w w' : Written),
    Ready t ∧ ContentOf sha1 t content pl ∧ WithinLengths w.disk (extents t) ∧ (∀ m ∈ ms, acceptPiece sha1 t m = .ok (some m)) ∧
    writePieces t ms w = .ok w' ∧ ¬ OldOrRight content (layout w.disk (extents t)) (layout w'.disk (extents t)) := by
  have hw : WithinLengths (fun _ => []) (extents tiny) := by intro x hx; simp
  obtain ⟨_, m, w', _, h1, h2, h3⟩ := C43_misplaced_violated tinySha tiny tiny_ready tinyContent 2 tiny_content 0 2 (by decide)
    (by decide) (by decide) (by decide) (by decide) ⟨fun _ => [], BitSet.new 3, 0⟩ hw
  refine ⟨tinySha, tiny, tinyContent, 2, [m], _, w', tiny_ready, tiny_content, hw, ?_, h2, ?_⟩
  · intro x hx; rw [List.mem_singleton] at hx; subst hx; exact h1
  · rintro ⟨-, h⟩
    have := h 2 (by decide)
    rw [h3] at this
    revert this
    decide

/-! ## C44 -/

/-- The bits after a list of correct pieces. -/
theorem writePieces_honest {sha1 : Bytes → Bytes} (t : Torrent) (h : Ready t) (content : Bytes) (pl : Nat)
    (hc : ContentOf sha1 t content pl) (ms : List PeerMessage) (w : Written) (hw : WithinLengths w.disk (extents t))
    (hd : ∀ m ∈ ms, m.data = .ok (pieceOf content pl m.index) ∧ m.offset = 0 ∧ m.index < w.downloaded.len ∧ m.index * pl < content.length) :
    ∃ w', writePieces t ms w = .ok w' ∧ WithinLengths w'.disk (extents t) ∧ w'.downloaded.len = w.downloaded.len ∧
      (∀ j, w'.downloaded.bit j = true ↔ w.downloaded.bit j = true ∨ ∃ m ∈ ms, m.index = j ∧ (pieceOf content pl j).length = pl) ∧
      (∀ i, i < content.length → (layout w'.disk (extents t))[i]? =
        if (∃ m ∈ ms, m.index = i / pl) then content[i]? else (layout w.disk (extents t))[i]?) := by
  induction ms generalizing w with
  | nil =>
    refine ⟨w, rfl, hw, rfl, ?_, ?_⟩
    · intro j; simp
    · intro i _; simp
  | cons m ms ih =>
    obtain ⟨d1, d2, d3, d4⟩ := hd m (by simp)
    have hb := hc.bound
    have hpp := hc.positive
    obtain ⟨w1, g1, g2, g3, _, g5⟩ := writeOne_honest t h content pl hc m w d1 d2 (by omega) hw
    have hlen1 : w1.downloaded.len = w.downloaded.len := by
      rw [g5]; split
      · simp only [BitSet.set]; rw [if_neg (by omega)]
      · rfl
    obtain ⟨w2, k1, k2, k3, k4, k5⟩ := ih w1 g3 (fun x hx => by rw [hlen1]; exact hd x (by simp [hx]))
    refine ⟨w2, by unfold writePieces; rw [g1]; exact k1, k2, by rw [k3, hlen1], ?_, ?_⟩
    · intro j
      rw [k4, g5]
      have hset : (if (pieceOf content pl m.index).length = pl then w.downloaded.set m.index else w.downloaded).bit j = true ↔
          (w.downloaded.bit j = true ∨ (m.index = j ∧ (pieceOf content pl j).length = pl)) := by
        split
        · rename_i hf
          simp only [BitSet.set]
          by_cases hj : j = m.index
          · subst hj; simp [hf]
          · rw [if_neg hj]
            constructor
            · exact .inl
            · rintro (a | ⟨a, _⟩)
              · exact a
              · exact absurd a.symm hj
        · rename_i hf
          constructor
          · exact .inl
          · rintro (a | ⟨rfl, a⟩)
            · exact a
            · exact absurd a hf
      rw [hset]
      simp only [List.mem_cons, exists_eq_or_imp]
      constructor
      · rintro ((a | a) | a)
        · exact .inl a
        · exact .inr (.inl a)
        · exact .inr (.inr a)
      · rintro (a | a | a)
        · exact .inl (.inl a)
        · exact .inl (.inr a)
        · exact .inr a
    · intro i hi
      rw [k5 i hi]
      simp only [List.mem_cons, exists_eq_or_imp]
      by_cases hms : ∃ x ∈ ms, x.index = i / pl
      · rw [if_pos hms, if_pos (.inr hms)]
      · rw [if_neg hms, g2]
        have hlen := pieceOf_length content pl m.index
        have hs := hc.size
        by_cases hmi : m.index = i / pl
        · rw [if_pos (.inl hmi), getElem?_splice _ _ _ (by rw [layout_length]; omega)]
          have h1 := Nat.div_mul_le_self i pl
          have h2 : i < i / pl * pl + pl := by
            have := Nat.div_add_mod i pl
            have := Nat.mod_lt i hpp
            rw [Nat.mul_comm]; omega
          rw [← hmi] at h1 h2
          rw [if_neg (by omega), if_pos (by omega), pieceOf_get _ _ _ _ (by omega)]
          congr 1; omega
        · rw [if_neg (by rintro (a | a); exact hmi a; exact hms a), getElem?_splice _ _ _ (by rw [layout_length]; omega)]
          split
          · rfl
          · split
            · rename_i h1 h2
              exfalso
              apply hmi
              symm
              apply Nat.div_eq_of_lt_le
              · omega
              · rw [Nat.add_mul]; omega
            · rfl

/-- C44, exact: after every piece of the content was written once or more, in any order, the files hold the content, and
Done is true exactly if the length is a multiple of the piece length. -/
theorem C44_done_partial (sha1 : Bytes → Bytes) (os : Os) (mi : Metainfo) (root : Bytes) (disk disk' : Disk) (t : Torrent)
    (hn : newTorrent sha1 os mi root disk = (.ok t, disk')) (hs : Sensible mi) (content : Bytes) (pl : Nat)
    (hc : ContentOf sha1 t content pl) (hne : content ≠ []) (hsz : content.length ≤ 2 ^ 51) (hpl : pl ≤ 2 ^ 53) (ms : List PeerMessage)
    (hd : ∀ m ∈ ms, m.data = .ok (pieceOf content pl m.index) ∧ m.offset = 0 ∧ m.index * pl < content.length)
    (hall : ∀ i, i * pl < content.length → ∃ m ∈ ms, m.index = i) (added : Nat) :
    ∃ w', writePieces t ms ⟨disk', t.downloaded, added⟩ = .ok w' ∧ layout w'.disk (extents t) = content ∧
      (w'.downloaded.all = true ↔ pl ∣ content.length) := by
  obtain ⟨hr, hw, htot, _⟩ := C41_reachable _ _ _ _ _ _ _ hn hs
  obtain ⟨_, _, _, _, e1, e2, e3, _, _, _, _, e4, _⟩ := newTorrent_ok hn
  have hpos := List.length_pos_iff.2 hne
  have hp0 := hc.positive
  have hsize := hc.size
  obtain ⟨k, c1, c2, c3, c4⟩ := C40_ceiling content.length pl hpos (by omega) hp0 hpl
  have hpn : t.piecesNum = k := by
    rw [e3, ← e1, ← e2, hc.pieceLength, ← htot, ← hsize]; exact c1
  have hk : k ≤ content.length := by
    have : (k - 1) * 1 ≤ (k - 1) * pl := Nat.mul_le_mul_left _ hp0
    omega
  have hdown : t.downloaded = BitSet.new k := by
    rw [e4, hpn]
    unfold bitsetNew
    have : (((k : Int) % 2 ^ 64).toNat) = k := by omega
    simp only [this]
    rw [if_neg (by unfold BitSet.wordsNeeded; omega)]
  have hidx : ∀ i, i * pl < content.length ↔ i < k := by
    intro i
    constructor
    · intro h
      apply Classical.byContradiction
      intro hge
      have : k * pl ≤ i * pl := Nat.mul_le_mul_right _ (by omega)
      omega
    · intro h
      have : i * pl ≤ (k - 1) * pl := Nat.mul_le_mul_right _ (by omega)
      omega
  obtain ⟨w', g1, g2, g3, g4, g5⟩ := writePieces_honest t hr content pl hc ms ⟨disk', t.downloaded, added⟩ hw (by
    intro m hm
    obtain ⟨a, b, c⟩ := hd m hm
    refine ⟨a, b, ?_, c⟩
    show m.index < t.downloaded.len
    rw [hdown]
    exact (hidx _).1 c)
  refine ⟨w', g1, ?_, ?_⟩
  · apply List.ext_getElem?
    intro i
    by_cases hi : i < content.length
    · rw [g5 i hi, if_pos]
      apply hall
      have := Nat.div_mul_le_self i pl
      omega
    · rw [List.getElem?_eq_none (by rw [layout_length]; omega), List.getElem?_eq_none (by omega)]
  · rw [BitSet.all_iff, g3]
    have hl : t.downloaded.len = k := by rw [hdown]; rfl
    simp only [hl]
    have hbit : ∀ j, t.downloaded.bit j = false := by intro j; rw [hdown]; rfl
    constructor
    · intro h
      have := (g4 (k - 1)).1 (h (k - 1) (by omega))
      simp only [hbit, Bool.false_eq_true, false_or] at this
      obtain ⟨m, _, _, hf⟩ := this
      rw [pieceOf_length] at hf
      refine ⟨k, ?_⟩
      have : k * pl = (k - 1) * pl + pl := by
        conv => lhs; rw [show k = (k - 1) + 1 from by omega, Nat.add_mul, Nat.one_mul]
      rw [Nat.mul_comm]
      omega
    · rintro ⟨q, hq⟩ i hi
      have hqk : q = k := by
        have h1 : ¬ q * pl < content.length := by rw [hq, Nat.mul_comm]; omega
        rw [hidx] at h1
        have h2 : q ≤ k := by
          apply Classical.byContradiction
          intro hgt
          have : (k + 1) * pl ≤ q * pl := Nat.mul_le_mul_right _ (by omega)
          rw [Nat.add_mul] at this
          rw [Nat.mul_comm] at hq
          omega
        omega
      rw [g4]
      right
      obtain ⟨m, hm, e⟩ := hall i ((hidx i).2 hi)
      refine ⟨m, hm, e, ?_⟩
      rw [pieceOf_length]
      have : (i + 1) * pl ≤ k * pl := Nat.mul_le_mul_right _ (by omega)
      rw [Nat.add_mul] at this
      rw [hqk, Nat.mul_comm] at hq
      omega

/-- C44 is false of the code: if the last piece is shorter than the others, Done stays false for ever, although all of
the content is on disk. -/
theorem C44_violated (sha1 : Bytes → Bytes) (os : Os) (mi : Metainfo) (root : Bytes) (disk disk' : Disk) (t : Torrent)
    (hn : newTorrent sha1 os mi root disk = (.ok t, disk')) (hs : Sensible mi) (content : Bytes) (pl : Nat)
    (hc : ContentOf sha1 t content pl) (hne : content ≠ []) (hsz : content.length ≤ 2 ^ 51) (hpl : pl ≤ 2 ^ 53) (ms : List PeerMessage)
    (hd : ∀ m ∈ ms, m.data = .ok (pieceOf content pl m.index) ∧ m.offset = 0 ∧ m.index * pl < content.length)
    (hall : ∀ i, i * pl < content.length → ∃ m ∈ ms, m.index = i) (added : Nat) (hshort : ¬ pl ∣ content.length) :
    ∃ w', writePieces t ms ⟨disk', t.downloaded, added⟩ = .ok w' ∧ layout w'.disk (extents t) = content ∧
      w'.downloaded.all = false := by
  obtain ⟨w', h1, h2, h3⟩ := C44_done_partial sha1 os mi root disk disk' t hn hs content pl hc hne hsz hpl ms hd hall added
  refine ⟨w', h1, h2, ?_⟩
  cases ha : w'.downloaded.all with
  | false => rfl
  | true => exact absurd (h3.1 ha) hshort

/-- Five bytes in pieces of four: both pieces received, all bytes stored, not done. -/
example (content : Bytes) (h5 : content.length = 5) : ∃ t disk' ms w', newTorrent (fun _ => List.replicate 20 1) goodOs (oneFile (ascii "n"))
    (ascii "/r") (fun _ => []) = (.ok t, disk') ∧ ms.length = 2 ∧ writePieces t ms ⟨disk', t.downloaded, 0⟩ = .ok w' ∧
    layout w'.disk (extents t) = content ∧ w'.downloaded.all = false := by
  obtain ⟨t, d', hn⟩ := newTorrent_succeeds (fun _ => List.replicate 20 1) goodOs (oneFile (ascii "n")) (ascii "/r") (fun _ => [])
    (by decide) (by intro h; simp [oneFile] at h) (by simp [goodOs]) (by simp [goodOs])
  have hs : Sensible (oneFile (ascii "n")) := ⟨fun _ => by simp [oneFile], fun h => by simp [oneFile] at h⟩
  obtain ⟨_, _, htot, _⟩ := C41_reachable _ _ _ _ _ _ _ hn hs
  obtain ⟨e0, _, _, _, e1, e2, -⟩ := newTorrent_ok hn
  have hlen : t.length = 5 := by rw [e1]; decide
  have hpieces : t.pieces = [⟨0, List.replicate 20 1⟩, ⟨1, List.replicate 20 1⟩] := by
    have : newPieces (oneFile (ascii "n")).pieces = .ok [⟨0, List.replicate 20 1⟩, ⟨1, List.replicate 20 1⟩] := by decide
    rw [this] at e0; simpa using e0.symm
  have hc : ContentOf (fun _ => List.replicate 20 1) t content 4 :=
    { pieceLength := by rw [e2]; rfl
      positive := by omega
      size := by omega
      bound := by omega
      hashes := by
        intro i p hp
        rw [hpieces] at hp
        have hi : i < 2 := by simpa using (List.getElem?_eq_some_iff.1 hp).1
        have : i = 0 ∨ i = 1 := by omega
        rcases this with rfl | rfl <;> (simp at hp; subst hp; exact ⟨by omega, rfl⟩) }
  obtain ⟨m0, _, _, a1, a2, a3⟩ := pieceFrame_ok 0 0 (pieceOf content 4 0) (by omega) (by omega)
  obtain ⟨m1, _, _, b1, b2, b3⟩ := pieceFrame_ok 1 0 (pieceOf content 4 1) (by omega) (by omega)
  obtain ⟨w', g1, g2, g3⟩ := C44_violated _ _ _ _ _ _ _ hn hs content 4 hc (by intro e; rw [e] at h5; simp at h5) (by omega) (by omega) [m1, m0]
    (by
      intro m hm
      simp only [List.mem_cons, List.not_mem_nil, or_false] at hm
      rcases hm with rfl | rfl
      · rw [b1]; exact ⟨b3, b2, by omega⟩
      · rw [a1]; exact ⟨a3, a2, by omega⟩)
    (by
      intro i hi
      have : i = 0 ∨ i = 1 := by omega
      rcases this with rfl | rfl
      · exact ⟨m0, by simp, a1⟩
      · exact ⟨m1, by simp, b1⟩) 0 (by rw [h5]; decide)
  exact ⟨t, d', [m1, m0], w', hn, rfl, g1, g2, g3⟩

/-! ## C45 -/

/-- C45 is false of the code: in a torrent whose pieces are longer than a block, every correct answer to a block request
is rejected, because the hash of the block is compared with the hash of the piece (unless the block is a second
preimage). -/
theorem C45_violated (sha1 : Bytes → Bytes) (t : Torrent) (content : Bytes) (pl : Nat) (hc : ContentOf sha1 t content pl)
    (p : Peer) (m : PeerMessage) (i o : Nat) (hi : i < t.pieces.length) (hlong : blockLength < (pieceOf content pl i).length)
    (ht : m.type = pieceType) (hidx : m.index = i) (hoff : m.offset = o)
    (hdata : m.data = .ok (((pieceOf content pl i).drop o).take blockLength))
    (hsec : sha1 (((pieceOf content pl i).drop o).take blockLength) = sha1 (pieceOf content pl i) →
      ((pieceOf content pl i).drop o).take blockLength = pieceOf content pl i) :
    p.handlePeerMessage sha1 t m = .ok (none, p) := by
  have hne : ((pieceOf content pl i).drop o).take blockLength ≠ pieceOf content pl i := by
    intro e
    have := congrArg List.length e
    rw [List.length_take] at this
    omega
  have hg : t.pieces[i]? = some t.pieces[i] := List.getElem?_eq_getElem hi
  have hacc : acceptPiece sha1 t m = .ok none := by
    unfold acceptPiece
    rw [hdata, hidx]
    simp only [Res.bind, checkPiece, hg, (hc.hashes _ _ hg).2]
    have : ¬ sha1 (pieceOf content pl i) = sha1 (((pieceOf content pl i).drop o).take blockLength) := fun e => hne (hsec e.symm)
    simp [this]
  unfold Peer.handlePeerMessage
  rw [ht, if_neg (by decide), if_neg (by decide), if_neg (by decide), if_neg (by decide), if_neg (by decide), if_neg (by decide),
    if_neg (by decide), if_pos rfl, hacc]
  rfl

/-- C45, proved for pieces of at most one block: the answer that carries the whole piece is accepted, and the writer
stores it. -/
theorem C45_one_block_partial (sha1 : Bytes → Bytes) (t : Torrent) (h : Ready t) (content : Bytes) (pl : Nat) (hc : ContentOf sha1 t content pl)
    (p : Peer) (m : PeerMessage) (hi : m.index < t.pieces.length) (ht : m.type = pieceType) (hoff : m.offset = 0)
    (hdata : m.data = .ok (pieceOf content pl m.index)) (w : Written) (hw : WithinLengths w.disk (extents t)) :
    ∃ p' w', p.handlePeerMessage sha1 t m = .ok (some m, p') ∧ p'.bitset = p.bitset.set m.index ∧ writeOne t w m = .ok w' ∧
      ∀ i, m.index * pl ≤ i → i < m.index * pl + pl → i < content.length → (layout w'.disk (extents t))[i]? = content[i]? := by
  have hg : t.pieces[m.index]? = some t.pieces[m.index] := List.getElem?_eq_getElem hi
  have hacc : acceptPiece sha1 t m = .ok (some m) := by
    unfold acceptPiece
    rw [hdata]
    simp only [Res.bind, checkPiece, hg, (hc.hashes _ _ hg).2]
    simp
  obtain ⟨w', g1, g2, -⟩ := writeOne_honest t h content pl hc m w hdata hoff (hc.hashes _ _ hg).1 hw
  refine ⟨{ p with bitset := p.bitset.set m.index }, w', ?_, rfl, g1, ?_⟩
  · unfold Peer.handlePeerMessage
    rw [ht, if_neg (by decide), if_neg (by decide), if_neg (by decide), if_neg (by decide), if_neg (by decide), if_neg (by decide),
      if_neg (by decide), if_pos rfl, hacc]
    rfl
  · intro i h1 h2 h3
    have hlen := pieceOf_length content pl m.index
    have hs := hc.size
    rw [g2, getElem?_splice _ _ _ (by rw [layout_length]; omega), if_neg (by omega), if_pos (by omega), pieceOf_get _ _ _ _ (by omega)]
    congr 1; omega

/-- C45, exact: the correct answer to the request for the block at offset `o` of piece `i` is accepted exactly if it is the whole piece,
that is if the offset is 0 and the piece is not longer than a block (assuming no block is a second preimage of its piece).
Missing: all other blocks are discarded. -/
theorem C45_iff_partial (sha1 : Bytes → Bytes) (t : Torrent) (content : Bytes) (pl : Nat) (hc : ContentOf sha1 t content pl)
    (p : Peer) (m : PeerMessage) (i o : Nat) (hi : i < t.pieces.length) (hpos : pieceOf content pl i ≠ [])
    (ht : m.type = pieceType) (hidx : m.index = i)
    (hdata : m.data = .ok (((pieceOf content pl i).drop o).take blockLength))
    (hsec : sha1 (((pieceOf content pl i).drop o).take blockLength) = sha1 (pieceOf content pl i) →
      ((pieceOf content pl i).drop o).take blockLength = pieceOf content pl i) :
    (o = 0 ∧ (pieceOf content pl i).length ≤ blockLength ∧
      p.handlePeerMessage sha1 t m = .ok (some m, { p with bitset := p.bitset.set i })) ∨
    (¬ (o = 0 ∧ (pieceOf content pl i).length ≤ blockLength) ∧ p.handlePeerMessage sha1 t m = .ok (none, p)) := by
  have hg : t.pieces[i]? = some t.pieces[i] := List.getElem?_eq_getElem hi
  by_cases hw : o = 0 ∧ (pieceOf content pl i).length ≤ blockLength
  · left
    refine ⟨hw.1, hw.2, ?_⟩
    rw [hw.1, List.drop_zero, List.take_of_length_le hw.2] at hdata
    have hacc : acceptPiece sha1 t m = .ok (some m) := by
      unfold acceptPiece
      rw [hdata, hidx]
      simp only [Res.bind, checkPiece, hg, (hc.hashes _ _ hg).2]
      simp
    unfold Peer.handlePeerMessage
    rw [ht, if_neg (by decide), if_neg (by decide), if_neg (by decide), if_neg (by decide), if_neg (by decide), if_neg (by decide),
      if_neg (by decide), if_pos rfl, hacc, hidx]
    rfl
  · right
    refine ⟨hw, ?_⟩
    have hne : ((pieceOf content pl i).drop o).take blockLength ≠ pieceOf content pl i := by
      intro e
      have := congrArg List.length e
      rw [List.length_take, List.length_drop] at this
      have hl : (pieceOf content pl i).length ≠ 0 := fun e => hpos (List.length_eq_zero_iff.1 e)
      exact hw ⟨by omega, by omega⟩
    have hacc : acceptPiece sha1 t m = .ok none := by
      unfold acceptPiece
      rw [hdata, hidx]
      simp only [Res.bind, checkPiece, hg, (hc.hashes _ _ hg).2]
      have : ¬ sha1 (pieceOf content pl i) = sha1 (((pieceOf content pl i).drop o).take blockLength) := fun e => hne (hsec e.symm)
      simp [this]
    unfold Peer.handlePeerMessage
    rw [ht, if_neg (by decide), if_neg (by decide), if_neg (by decide), if_neg (by decide), if_neg (by decide), if_neg (by decide),
      if_neg (by decide), if_pos rfl, hacc]
    rfl

/-- A torrent with one piece of two blocks: the first block is discarded. -/
example (content : Bytes) (h2 : content.length = 2 * blockLength) (p : Peer) : ∃ (t : Torrent) (m : PeerMessage),
    ContentOf (fun d => putBE 20 d.length) t content (2 * blockLength) ∧
    newPeerMessage (pieceFrame 0 0 (content.take blockLength)) = .ok m ∧
    p.handlePeerMessage (fun d => putBE 20 d.length) t m = .ok (none, p) := by
  let t : Torrent := { tiny with length := 2 * blockLength, pieceLength := 2 * blockLength,
                                 pieces := [⟨0, putBE 20 (2 * blockLength)⟩] }
  have hb : blockLength = 131072 := rfl
  have hp0 : pieceOf content (2 * blockLength) 0 = content := by
    unfold pieceOf; rw [Nat.zero_mul, List.drop_zero, List.take_of_length_le (by omega)]
  have hc : ContentOf (fun d => putBE 20 d.length) t content (2 * blockLength) :=
    { pieceLength := rfl
      positive := by omega
      size := by rw [h2]; rfl
      bound := by omega
      hashes := by
        intro i p hp
        have hi : i = 0 := by
          have := (List.getElem?_eq_some_iff.1 hp).1
          simp [t] at this; exact this
        subst hi
        simp [t] at hp
        subst hp
        rw [hp0, h2]
        exact ⟨by omega, rfl⟩ }
  obtain ⟨m, h1, h3, h4, h5, h6⟩ := pieceFrame_ok 0 0 (content.take blockLength) (by omega) (by omega)
  refine ⟨t, m, hc, h1, C45_violated _ t content (2 * blockLength) hc p m 0 0 (by simp [t]) (by rw [hp0]; omega) h3 h4 h5
    (by rw [hp0, h6]; rfl) ?_⟩
  rw [hp0, List.drop_zero]
  intro e
  have := congrArg getBE e
  rw [getBE_putBE _ _ (by rw [List.length_take]; omega), getBE_putBE _ _ (by omega)] at this
  rw [List.length_take] at this
  omega

/-- Piece 1 of the concrete torrent, received and stored. -/
example : ∃ m w', newPeerMessage (pieceFrame 1 0 [30, 40]) = .ok m ∧ acceptPiece tinySha tiny m = .ok (some m) ∧
    writePieces tiny [m] ⟨fun _ => [], BitSet.new 3, 0⟩ = .ok w' ∧ layout w'.disk (extents tiny) = [0, 0, 30, 40, 0] ∧
    OldOrRight tinyContent [0, 0, 0, 0, 0] (layout w'.disk (extents tiny)) := by
  have hw : WithinLengths (fun _ => []) (extents tiny) := by intro x hx; simp
  obtain ⟨m, h1, h2, h3, h4, h5⟩ := pieceFrame_ok 1 0 [30, 40] (by omega) (by omega)
  have hacc : acceptPiece tinySha tiny m = .ok (some m) := by
    unfold acceptPiece
    rw [h5, h3]
    simp only [Res.bind, checkPiece]
    rfl
  have hd : m.data = .ok (pieceOf tinyContent 2 m.index) := by rw [h5, h3]; rfl
  obtain ⟨w', g1, g2, -⟩ := writeOne_honest tiny tiny_ready tinyContent 2 tiny_content m ⟨fun _ => [], BitSet.new 3, 0⟩ hd h4
    (by rw [h3]; omega) hw
  have hlay : layout w'.disk (extents tiny) = [0, 0, 30, 40, 0] := by rw [g2, h3]; decide
  refine ⟨m, w', h1, hacc, by unfold writePieces; rw [g1]; rfl, hlay, ?_⟩
  rw [hlay]
  exact ⟨rfl, by decide⟩

end Gotit.Props
