import Verif.Props.World
/-
  How long the files are after the pieces of the content have been written: the lengths do not depend on what the bytes are, and with
  bytes other than zero one sees that every file has its declared length.
-/
namespace Gotit.Props
open Gotit Gotit.Spec

/-- All files have the same lengths on the two disks. -/
def SameLengths (d d' : Disk) : Prop := ∀ q, (d q).length = (d' q).length

theorem writeAt_lengths {d d' : Disk} (h : SameLengths d d') (p a a' : Bytes) (ha : a.length = a'.length) (pos : Int) :
    (writeAt d p a pos).1 = (writeAt d' p a' pos).1 ∧ SameLengths (writeAt d p a pos).2 (writeAt d' p a' pos).2 := by
  have he : (a = []) ↔ (a' = []) := by rw [← List.length_eq_zero_iff, ← List.length_eq_zero_iff, ha]
  unfold writeAt
  by_cases h1 : pos < 0
  · simp only [if_pos h1]; exact ⟨trivial, h⟩
  · simp only [if_neg h1]
    by_cases h2 : a = []
    · rw [if_pos h2, if_pos (he.1 h2)]; exact ⟨rfl, h⟩
    · rw [if_neg h2, if_neg (fun e => h2 (he.2 e))]
      refine ⟨rfl, fun q => ?_⟩
      simp only [Disk.update]
      split
      · rw [overwrite_length, overwrite_length, ha, h]
      · exact h q

theorem writeLoop_lengths : ∀ (fs : List (TorrentFile × Bytes)) (a a' : Bytes) (pos : Int) (d d' : Disk), SameLengths d d' → a.length = a'.length →
    (writeLoop fs a pos d).1 = (writeLoop fs a' pos d').1 ∧ SameLengths (writeLoop fs a pos d).2 (writeLoop fs a' pos d').2
  | [], a, a', pos, d, d', h, ha => by
    have he : (a = []) ↔ (a' = []) := by rw [← List.length_eq_zero_iff, ← List.length_eq_zero_iff, ha]
    unfold writeLoop
    by_cases h2 : a = []
    · rw [if_pos h2, if_pos (he.1 h2)]; exact ⟨rfl, h⟩
    · rw [if_neg h2, if_neg (fun e => h2 (he.2 e))]; exact ⟨rfl, h⟩
  | (f, p) :: rest, a, a', pos, d, d', h, ha => by
    have he : (a = []) ↔ (a' = []) := by rw [← List.length_eq_zero_iff, ← List.length_eq_zero_iff, ha]
    unfold writeLoop
    by_cases h2 : a = []
    · rw [if_pos h2, if_pos (he.1 h2)]; exact ⟨rfl, h⟩
    · rw [if_neg h2, if_neg (fun e => h2 (he.2 e))]
      simp only [← ha]
      generalize (if (a.length : Int) > wrap64 (f.length - pos) then wrap64 (f.length - pos) else (a.length : Int)) = n
      by_cases hn : n < 0
      · rw [if_pos hn, if_pos hn]; exact ⟨rfl, h⟩
      · rw [if_neg hn, if_neg hn]
        obtain ⟨k1, k2⟩ := writeAt_lengths h p (a.take n.toNat) (a'.take n.toNat) (by simp [ha]) pos
        rcases e1 : writeAt d p (a.take n.toNat) pos with ⟨r1, x1⟩
        rcases e2 : writeAt d' p (a'.take n.toNat) pos with ⟨r2, x2⟩
        rw [e1, e2] at k1 k2
        simp only at k1 k2
        subst k1
        cases r1 with
        | ok u => exact writeLoop_lengths rest _ _ _ _ _ k2 (by simp [ha])
        | err e => exact ⟨rfl, k2⟩
        | panic e => exact ⟨rfl, k2⟩

theorem writePieceData_lengths (t : Torrent) (a a' : Bytes) (pos : Int) (d d' : Disk) (h : SameLengths d d') (ha : a.length = a'.length) :
    (writePieceData t a pos d).1 = (writePieceData t a' pos d').1 ∧ SameLengths (writePieceData t a pos d).2 (writePieceData t a' pos d').2 := by
  unfold writePieceData
  split
  · split
    · exact ⟨rfl, h⟩
    · exact writeAt_lengths h _ _ _ ha _
  · split
    · exact ⟨rfl, h⟩
    · exact writeLoop_lengths _ _ _ _ _ _ h ha

/-- Messages for the same places. -/
inductive SamePlaces : List PeerMessage → List PeerMessage → Prop
  | nil : SamePlaces [] []
  | cons {m m' : PeerMessage} {ms ms' : List PeerMessage} {a a' : Bytes} : m.index = m'.index → m.offset = m'.offset → m.data = .ok a →
      m'.data = .ok a' → a.length = a'.length → SamePlaces ms ms' → SamePlaces (m :: ms) (m' :: ms')

theorem writePieces_lengths (t : Torrent) {ms ms' : List PeerMessage} (hm : SamePlaces ms ms') : ∀ (w w' o o' : Written),
    SameLengths w.disk w'.disk → writePieces t ms w = .ok o → writePieces t ms' w' = .ok o' → SameLengths o.disk o'.disk := by
  induction hm with
  | nil =>
    intro w w' o o' h h1 h2
    simp only [writePieces, Res.ok.injEq] at h1 h2
    subst h1; subst h2; exact h
  | @cons m m' ms ms' a a' e1 e2 e3 e4 e5 _ ih =>
    intro w w' o o' h h1 h2
    unfold writePieces at h1 h2
    have hone : ∀ x x', writeOne t w m = .ok x → writeOne t w' m' = .ok x' → SameLengths x.disk x'.disk := by
      intro x x' g1 g2
      unfold writeOne at g1 g2
      rw [e3] at g1
      rw [e4] at g2
      simp only [← e1, ← e2] at g1 g2
      obtain ⟨k1, k2⟩ := writePieceData_lengths t a a' (wrap64 (wrap64 (m.index * t.pieceLength) + m.offset)) w.disk w'.disk h e5
      rcases q1 : writePieceData t a (wrap64 (wrap64 (m.index * t.pieceLength) + m.offset)) w.disk with ⟨r1, x1⟩
      rcases q2 : writePieceData t a' (wrap64 (wrap64 (m.index * t.pieceLength) + m.offset)) w'.disk with ⟨r2, x2⟩
      rw [q1, q2] at k1 k2
      rw [q1] at g1
      rw [q2] at g2
      simp only at k1 k2
      subst k1
      cases r1 with
      | ok u =>
        simp only at g1 g2
        split at g1 <;> split at g2 <;> (simp only [Res.ok.injEq] at g1 g2; subst g1; subst g2; exact k2)
      | err e => simp only [Res.ok.injEq] at g1 g2; subst g1; subst g2; exact k2
      | panic e => cases g1
    cases q1 : writeOne t w m with
    | err e => rw [q1] at h1; cases h1
    | panic e => rw [q1] at h1; cases h1
    | ok x =>
      cases q2 : writeOne t w' m' with
      | err e => rw [q2] at h2; cases h2
      | panic e => rw [q2] at h2; cases h2
      | ok x' =>
        rw [q1] at h1
        rw [q2] at h2
        exact ih x x' o o' (hone x x' q1 q2) h1 h2

theorem writePieces_hashes (t : Torrent) (ps : List Piece) : ∀ (ms : List PeerMessage) (w : Written),
    writePieces { t with pieces := ps } ms w = writePieces t ms w
  | [], _ => rfl
  | m :: ms, w => by
    unfold writePieces
    have : writeOne { t with pieces := ps } w m = writeOne t w m := rfl
    rw [this]
    cases writeOne t w m with
    | ok x => exact writePieces_hashes t ps ms x
    | err e => rfl
    | panic e => rfl

theorem samePlaces_range (c c' : Bytes) (pl : Nat) (h : c.length = c'.length) : ∀ l : List Nat, (∀ i ∈ l, i < 2 ^ 32) →
    SamePlaces (l.map (fun i => pieceMsg i 0 (pieceOf c pl i))) (l.map (fun i => pieceMsg i 0 (pieceOf c' pl i)))
  | [], _ => .nil
  | i :: l, hl => by
    obtain ⟨_, _, a1, a2, a3⟩ := pieceMsg_ok i 0 (pieceOf c pl i) (hl i (by simp)) (by omega)
    obtain ⟨_, _, b1, b2, b3⟩ := pieceMsg_ok i 0 (pieceOf c' pl i) (hl i (by simp)) (by omega)
    exact .cons (by rw [a1, b1]) (by rw [a2, b2]) a3 b3 (by rw [pieceOf_length, pieceOf_length, h])
      (samePlaces_range c c' pl h l (fun j hj => hl j (by simp [hj])))

/-- After all pieces the files together are the content, and every file has its length. -/
theorem all_pieces {sha1 : Bytes → Bytes} {t : Torrent} (hr : Ready t) {content : Bytes} {pl k : Nat} (hc : ContentOf sha1 t content pl)
    {disk : Disk} (hw : WithinLengths disk (extents t)) (hdown : t.downloaded = BitSet.new k)
    (hidx : ∀ i, i * pl < content.length ↔ i < k) (hk : k ≤ 2 ^ 32) :
    ∃ w', writePieces t (((List.range k).map (wholePiece content pl)).map (·.2)) ⟨disk, t.downloaded, 0⟩ = .ok w' ∧
      layout w'.disk (extents t) = content ∧ ∀ x ∈ extents t, (w'.disk x.2).length = x.1 := by
  have whole : ∀ (c : Bytes) (d : Disk), c.length = content.length →
      (∀ i, i < c.length → (layout d (extents t))[i]? = if i / pl < k then c[i]? else (layout disk (extents t))[i]?) →
      layout d (extents t) = c := by
    intro c d hl h
    apply List.ext_getElem?
    intro i
    rcases Nat.lt_or_ge i c.length with hi | hi
    · rw [h i hi, if_pos]
      rw [← hidx]
      have := Nat.div_mul_le_self i pl
      omega
    · rw [List.getElem?_eq_none hi, List.getElem?_eq_none]
      rw [layout_length, ← hc.size]; omega
  obtain ⟨w', f1, f2, _, _, f5⟩ := first_pieces hr hc hw hdown hidx hk k (Nat.le_refl _)
  have hc1 : ContentOf sha1 { t with pieces := [] } (List.replicate content.length 1) pl :=
    { pieceLength := hc.pieceLength, positive := hc.positive, size := (by rw [List.length_replicate]; exact hc.size),
      bound := (by rw [List.length_replicate]; exact hc.bound), hashes := fun i p h => by simp at h }
  obtain ⟨w1, g1, _, _, _, g5⟩ := first_pieces (t := { t with pieces := [] }) ⟨hr.multi, hr.single⟩ hc1 (disk := disk) hw hdown
    (fun i => by rw [List.length_replicate]; exact hidx i) hk k (Nat.le_refl _)
  rw [writePieces_hashes] at g1
  have hlay := whole (List.replicate content.length 1) w1.disk (by simp) g5
  have hsame := writePieces_lengths t (by
      simp only [List.map_map]
      exact samePlaces_range content (List.replicate content.length 1) pl (by simp) (List.range k) (fun i hi => by rw [List.mem_range] at hi; omega))
    ⟨disk, t.downloaded, 0⟩ ⟨disk, t.downloaded, 0⟩ w' w1 (fun q => rfl) f1 (by rw [List.map_map] at g1; exact g1)
  refine ⟨w', f1, whole content w'.disk rfl f5, ?_⟩
  intro x hx
  have h1 := f2 x hx
  rw [hsame] at h1 ⊢
  rcases Nat.lt_or_ge (w1.disk x.2).length x.1 with h2 | h2
  · exfalso
    have hz : (0 : UInt8) ∈ layout w1.disk (extents t) := by
      unfold layout
      refine List.mem_flatMap.2 ⟨x, hx, ?_⟩
      unfold stored
      refine List.mem_append_right _ (List.mem_replicate.2 ⟨by omega, rfl⟩)
    rw [hlay] at hz
    have := (List.mem_replicate.1 hz).2
    revert this
    decide
  · omega

end Gotit.Props
