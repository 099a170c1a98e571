import Verif.Spec.Placed
import Verif.Props.Writer
/-
  C43 for messages with any offsets: what every byte of the files is.
-/
namespace Gotit.Props
open Gotit Spec

theorem getElem?_getD {l : Bytes} {i : Nat} (h : i < l.length) : l[i]? = some (l.getD i 0) := by
  rw [List.getD_eq_getElem?_getD, List.getElem?_eq_getElem h]; rfl

/-- What one message does to every byte, wherever it is to be put. For several files no file is longer than declared before and
after; one file may become longer. -/
theorem writeOne_placed (t : Torrent) (h : Ready t) (m : PeerMessage) (d : Bytes) (pl : Nat) (w : Written) (hpl : t.pieceLength = pl)
    (hd : m.data = .ok d) (hw : t.isDirectory = true → WithinLengths w.disk (extents t))
    (hp : m.index * pl + m.offset < 2 ^ 63) :
    ∃ w', writeOne t w m = .ok w' ∧ (t.isDirectory = true → WithinLengths w'.disk (extents t)) ∧
      OnlyTouches (extents t) w.disk w'.disk ∧
      ∀ j, j < total (extents t) → (layout w'.disk (extents t))[j]? =
        if m.index * pl + m.offset ≤ j ∧ j < m.index * pl + m.offset + d.length then d[j - (m.index * pl + m.offset)]?
        else (layout w.disk (extents t))[j]? := by
  have hpos : wrap64 (wrap64 (m.index * t.pieceLength) + m.offset) = ((m.index * pl + m.offset : Nat) : Int) := by
    rw [hpl, show ((m.index : Int) * (pl : Int)) = ((m.index * pl : Nat) : Int) from by push_cast; rfl]
    rw [wrap64_of ((m.index * pl : Nat) : Int) (by omega) (by omega), wrap64_of _ (by omega) (by omega)]
    push_cast; rfl
  generalize hq : m.index * pl + m.offset = pos at *
  have hwrite : ∃ r d', writePieceData t d (pos : Int) w.disk = (r, d') ∧ (r = .ok () ∨ ∃ e, r = .err e) ∧
      (t.isDirectory = true → WithinLengths d' (extents t)) ∧ OnlyTouches (extents t) w.disk d' ∧
      ∀ j, j < total (extents t) → (layout d' (extents t))[j]? =
        if pos ≤ j ∧ j < pos + d.length then d[j - pos]? else (layout w.disk (extents t))[j]? := by
    cases hdir : t.isDirectory with
    | true =>
      obtain ⟨r, d', h1, h2, h3, h4, h5⟩ := writePieceData_spec t h d pos hp w.disk (hw hdir) hdir
      refine ⟨r, d', h1, ?_, fun _ => h4, h5, ?_⟩
      · rw [h2]
        split
        · split
          · exact .inl rfl
          · exact .inr ⟨_, rfl⟩
        · exact .inr ⟨_, rfl⟩
      · intro j hj
        rw [h3]
        by_cases hin : pos < total (extents t)
        · rw [getElem?_splice _ _ _ (by rw [layout_length, List.length_take]; omega), List.length_take, List.getElem?_take]
          by_cases c1 : j < pos
          · rw [if_pos c1, if_neg (by omega)]
          · rw [if_neg c1]
            by_cases c2 : j < pos + d.length
            · rw [if_pos (by omega), if_pos (by omega), if_pos (by omega)]
            · rw [if_neg (by omega), if_neg (by omega)]
        · rw [show total (extents t) - pos = 0 from by omega, List.take_zero, splice_nil, if_neg (by omega)]
    | false =>
      obtain ⟨p, e, h0, hlt⟩ := h.single hdir
      have hx : extents t = [(t.length.toNat, p)] := by simp [extents, hdir, e]
      have hstored : ∀ (c : Bytes) (j : Nat), j < t.length.toNat → (stored t.length.toNat c)[j]? = some (c.getD j 0) := by
        intro c j hj
        rw [getElem?_getD (by rw [stored_length]; exact hj), getD_stored _ _ _ hj]
      by_cases hne : d = []
      · subst hne
        refine ⟨.ok (), w.disk, ?_, .inl rfl, fun h => (by cases h), fun _ _ => rfl, ?_⟩
        · unfold writePieceData
          rw [if_pos (by simp [hdir]), e]
          simp only [writeAt]
          rw [if_neg (by omega)]; simp
        · intro j _
          rw [if_neg (by simp only [List.length_nil]; omega)]
      · refine ⟨.ok (), w.disk.update p (overwrite (w.disk p) pos d), ?_, .inl rfl, fun h => (by cases h), ?_, ?_⟩
        · unfold writePieceData
          rw [if_pos (by simp [hdir]), e]
          simp only [writeAt]
          rw [if_neg (by omega), if_neg hne, Int.toNat_natCast]
        · intro q hq'
          rw [hx] at hq'
          simp only [List.map_cons, List.map_nil, List.mem_singleton] at hq'
          simp [Disk.update, hq']
        · intro j hj
          rw [hx] at hj ⊢
          simp only [total, List.map_cons, List.map_nil, List.sum_cons, List.sum_nil, Nat.add_zero] at hj
          simp only [layout, List.flatMap_cons, List.flatMap_nil, List.append_nil, Disk.update, if_true]
          rw [hstored _ _ hj, hstored _ _ hj, getD_overwrite]
          by_cases c : pos ≤ j ∧ j < pos + d.length
          · rw [if_pos c, if_pos c, getElem?_getD (by omega)]
          · rw [if_neg c, if_neg c]
  obtain ⟨r, d', h1, hr, h2, h3, h4⟩ := hwrite
  unfold writeOne
  rw [hd]
  simp only
  rw [hpos, h1]
  rcases hr with rfl | ⟨e, rfl⟩
  · simp only
    split
    · exact ⟨_, rfl, h2, h3, h4⟩
    · exact ⟨_, rfl, h2, h3, h4⟩
  · exact ⟨_, rfl, h2, h3, h4⟩

theorem lastOver_cons (content : Bytes) (pl j : Nat) (m : PeerMessage) (ms : List PeerMessage) :
    lastOver content pl j (m :: ms) = match lastOver content pl j ms with
      | some x => some x
      | none => if LiesOver content pl j m then some m else none := by
  unfold lastOver
  rw [List.filter_cons]
  by_cases ho : LiesOver content pl j m
  · rw [if_pos (by simpa using ho)]
    generalize ms.filter (fun m => decide (LiesOver content pl j m)) = l
    cases l with
    | nil => simp [ho]
    | cons a l => rw [List.getLast?_cons_cons]; simp [List.getLast?_cons]
  · rw [if_neg (by simpa using ho)]
    generalize (ms.filter (fun m => decide (LiesOver content pl j m))).getLast? = l
    cases l <;> simp [ho]

/-- C43, exactly, for accepted messages that are not second preimages, with any offsets: the writer goes on, no other file is
touched, and every byte of the content's place is decided by the last message lying over it, which puts there the byte of the
content that is `offset` places before. A byte under no message is the old one. -/
theorem C43_exact_partial (sha1 : Bytes → Bytes) (t : Torrent) (h : Ready t) (content : Bytes) (pl : Nat)
    (hc : ContentOf sha1 t content pl) (ms : List PeerMessage) (w : Written) (hw : WithinLengths w.disk (extents t))
    (hacc : ∀ m ∈ ms, acceptPiece sha1 t m = .ok (some m)) (hpos : ∀ m ∈ ms, m.index * pl + m.offset < 2 ^ 63)
    (hsec : ∀ m ∈ ms, ∀ d, m.data = .ok d → sha1 d = sha1 (pieceOf content pl m.index) → d = pieceOf content pl m.index) :
    ∃ w', writePieces t ms w = .ok w' ∧ OnlyTouches (extents t) w.disk w'.disk ∧
      ∀ j, j < content.length → (layout w'.disk (extents t))[j]? =
        match lastOver content pl j ms with
        | none => (layout w.disk (extents t))[j]?
        | some m => content[j - m.offset]? := by
  replace hw : t.isDirectory = true → WithinLengths w.disk (extents t) := fun _ => hw
  induction ms generalizing w with
  | nil => exact ⟨w, rfl, fun _ _ => rfl, fun _ _ => rfl⟩
  | cons m ms ih =>
    obtain ⟨_, d, p, hd, hp, he⟩ := accept_inv (hacc m (by simp))
    have hde := hsec m (by simp) d hd (by rw [← he, (hc.hashes _ _ hp).2])
    subst hde
    obtain ⟨w1, g1, g2, g3, g4⟩ := writeOne_placed t h m _ pl w hc.pieceLength hd hw (hpos m (by simp))
    obtain ⟨w2, k1, k2, k3⟩ := ih w1 (fun x hx => hacc x (by simp [hx])) (fun x hx => hpos x (by simp [hx]))
      (fun x hx => hsec x (by simp [hx])) g2
    refine ⟨w2, ?_, fun q hq => (k2 q hq).trans (g3 q hq), ?_⟩
    · unfold writePieces; rw [g1]; exact k1
    · intro j hj
      rw [k3 j hj, lastOver_cons]
      cases lastOver content pl j ms with
      | some x => rfl
      | none =>
        simp only
        rw [g4 j (by rw [← hc.size]; exact hj)]
        by_cases ho : LiesOver content pl j m
        · rw [if_pos ho]
          unfold LiesOver at ho
          rw [if_pos ho]
          obtain ⟨o1, o2⟩ := ho
          have hlen := pieceOf_length content pl m.index
          rw [pieceOf_get _ _ _ _ (by omega)]
          show _ = content[j - m.offset]?
          congr 1; omega
        · rw [if_neg ho]
          unfold LiesOver at ho
          rw [if_neg ho]

/-- C43 fails for a sequence of messages just where the last one over a place brings a byte that is neither the right nor the old
one. -/
theorem C43_iff_partial (sha1 : Bytes → Bytes) (t : Torrent) (h : Ready t) (content : Bytes) (pl : Nat)
    (hc : ContentOf sha1 t content pl) (ms : List PeerMessage) (w w' : Written) (hw : WithinLengths w.disk (extents t))
    (hacc : ∀ m ∈ ms, acceptPiece sha1 t m = .ok (some m)) (hpos : ∀ m ∈ ms, m.index * pl + m.offset < 2 ^ 63)
    (hsec : ∀ m ∈ ms, ∀ d, m.data = .ok d → sha1 d = sha1 (pieceOf content pl m.index) → d = pieceOf content pl m.index)
    (hr : writePieces t ms w = .ok w') :
    OldOrRight content (layout w.disk (extents t)) (layout w'.disk (extents t)) ↔
      ∀ j m, j < content.length → lastOver content pl j ms = some m →
        content[j - m.offset]? = content[j]? ∨ content[j - m.offset]? = (layout w.disk (extents t))[j]? := by
  obtain ⟨w2, k1, _, k3⟩ := C43_exact_partial sha1 t h content pl hc ms w hw hacc hpos hsec
  rw [hr] at k1
  cases k1
  constructor
  · rintro ⟨_, h2⟩ j m hj hm
    have := h2 j hj
    rw [k3 j hj, hm] at this
    exact this.symm
  · intro h2
    refine ⟨by rw [layout_length, hc.size], ?_⟩
    intro j hj
    rw [k3 j hj]
    cases hm : lastOver content pl j ms with
    | none => exact .inl rfl
    | some m => exact (h2 j m hj hm).symm

/-- Five bytes in pieces of two: piece 0 at offset 2, then piece 1 at offset 1. Positions 2 and 3 come to hold the bytes of positions
0 and 2, position 4 that of position 3. -/
example : ∃ m0 m1 w', acceptPiece tinySha tiny m0 = .ok (some m0) ∧ acceptPiece tinySha tiny m1 = .ok (some m1) ∧
    writePieces tiny [m0, m1] ⟨fun _ => [], BitSet.new 3, 0⟩ = .ok w' ∧
    layout w'.disk (extents tiny) = [0, 0, 10, 30, 40] := by
  obtain ⟨m0, -, -, a2, a3, a4⟩ := pieceFrame_ok 0 2 [10, 20] (by decide) (by decide)
  obtain ⟨m1, -, -, b2, b3, b4⟩ := pieceFrame_ok 1 1 [30, 40] (by decide) (by decide)
  have e0 : acceptPiece tinySha tiny m0 = .ok (some m0) := by
    unfold acceptPiece; rw [a4, a2]; simp only [Res.bind, checkPiece]
    rw [show tiny.pieces[0]? = some ⟨0, tinySha [10, 20]⟩ from rfl]; simp
  have e1 : acceptPiece tinySha tiny m1 = .ok (some m1) := by
    unfold acceptPiece; rw [b4, b2]; simp only [Res.bind, checkPiece]
    rw [show tiny.pieces[1]? = some ⟨1, tinySha [30, 40]⟩ from rfl]; simp
  have hw : WithinLengths (fun _ => []) (extents tiny) := by intro x hx; simp
  obtain ⟨w', g1, _, g3⟩ := C43_exact_partial tinySha tiny tiny_ready tinyContent 2 tiny_content [m0, m1] ⟨fun _ => [], BitSet.new 3, 0⟩ hw
    (by intro m hm; simp at hm; rcases hm with rfl | rfl <;> assumption)
    (by intro m hm; simp at hm; rcases hm with rfl | rfl <;> omega)
    (by
      intro m hm d hd _
      simp at hm
      rcases hm with rfl | rfl
      · rw [a4] at hd; cases hd; rw [a2]; rfl
      · rw [b4] at hd; cases hd; rw [b2]; rfl)
  refine ⟨m0, m1, w', e0, e1, g1, ?_⟩
  have hl : (layout w'.disk (extents tiny)).length = 5 := layout_length _ _
  apply List.ext_getElem?
  intro j
  by_cases hj : j < 5
  · rw [g3 j hj]
    have : j = 0 ∨ j = 1 ∨ j = 2 ∨ j = 3 ∨ j = 4 := by omega
    rcases this with rfl | rfl | rfl | rfl | rfl <;>
      simp [lastOver, LiesOver, pieceOf, List.filter_cons, a2, a3, b2, b3, tinyContent, layout, extents, tiny, stored]
  · rw [List.getElem?_eq_none (by omega), List.getElem?_eq_none (by simp; omega)]

end Gotit.Props
