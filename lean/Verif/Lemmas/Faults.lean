import Verif.Model.Faults
/-
  A failing disk: what is written of a block is a part of it from its beginning.
-/
namespace Gotit.Props
open Gotit

theorem writeAt_nil (disk : Disk) (p : Bytes) (pos : Int) : (writeAt disk p [] pos).2 = disk := by
  unfold writeAt; split
  · rfl
  · rfl

theorem writeAtF_prefix (f : Option Nat) (disk : Disk) (p d : Bytes) (pos : Int) :
    ∃ n, n ≤ d.length ∧ (writeAtF f disk p d pos).2 = (writeAt disk p (d.take n) pos).2 ∧
      (writeAtF f disk p d pos = writeAt disk p d pos ∨ ∃ e, (writeAtF f disk p d pos).1 = .err e) := by
  cases f with
  | none => exact ⟨d.length, by omega, by rw [List.take_length]; rfl, .inl rfl⟩
  | some k =>
    simp only [writeAtF]
    split
    · exact ⟨d.length, by omega, by rw [List.take_length], .inl rfl⟩
    · refine ⟨min k d.length, by omega, ?_, .inr ⟨_, rfl⟩⟩
      rw [← List.take_take, List.take_length]

theorem writeAtF_none (disk : Disk) (p d : Bytes) (pos : Int) : writeAtF none disk p d pos = writeAt disk p d pos := rfl

/-- One round of the loop that is stopped after `n` bytes of the part for this file. -/
theorem writeLoop_short (f : TorrentFile) (p : Bytes) (rest : List (TorrentFile × Bytes)) (data : Bytes) (pos : Int) (disk : Disk) (n : Nat)
    (h1 : (n : Int) ≤ wrap64 (f.length - pos)) (h2 : n ≤ data.length) :
    (writeLoop ((f, p) :: rest) (data.take n) pos disk).2 = (writeAt disk p (data.take n) pos).2 := by
  rw [writeLoop]
  by_cases h0 : data.take n = []
  · rw [if_pos h0, h0, writeAt_nil]
  · rw [if_neg h0]
    have hl : (data.take n).length = n := by rw [List.length_take]; omega
    simp only [hl]
    rw [if_neg (by omega), if_neg (by omega), Int.toNat_natCast, List.take_take, Nat.min_self]
    cases e : writeAt disk p (data.take n) pos with
    | mk r disk' =>
      cases r with
      | ok u =>
        simp only
        rw [List.drop_eq_nil_of_le (by omega)]
        cases rest with
        | nil => simp [writeLoop]
        | cons x xs => rw [writeLoop]; simp
      | err e => rfl
      | panic e => rfl

theorem writeLoopF_prefix (fl : Faults) : ∀ (fs : List (TorrentFile × Bytes)) (i : Nat) (data : Bytes) (pos : Int) (disk : Disk),
    ∃ n, n ≤ data.length ∧ (writeLoopF fl i fs data pos disk).2 = (writeLoop fs (data.take n) pos disk).2 ∧
      (writeLoopF fl i fs data pos disk = writeLoop fs data pos disk ∨ ∃ e, (writeLoopF fl i fs data pos disk).1 = .err e)
  | [], i, data, pos, disk => by
    refine ⟨data.length, by omega, ?_, .inl ?_⟩
    · rw [List.take_length]; rfl
    · rfl
  | (f, p) :: rest, i, data, pos, disk => by
    rw [writeLoopF]
    by_cases h0 : data = []
    · rw [if_pos h0]
      exact ⟨0, by omega, by rw [List.take_zero, writeLoop, if_pos rfl], .inl (by rw [writeLoop, if_pos h0])⟩
    rw [if_neg h0]
    simp only
    obtain ⟨a, ha⟩ : ∃ a, a = wrap64 (f.length - pos) := ⟨_, rfl⟩
    obtain ⟨w, hw⟩ : ∃ w : Int, w = if (data.length : Int) > a then a else data.length := ⟨_, rfl⟩
    rw [← ha, ← hw]
    have hwa : w ≤ a := by rw [hw]; split <;> omega
    have hwd : w ≤ data.length := by rw [hw]; split <;> omega
    by_cases hneg : w < 0
    · rw [if_pos hneg]
      refine ⟨0, by omega, by rw [List.take_zero, writeLoop, if_pos rfl], .inl ?_⟩
      rw [writeLoop, if_neg h0]
      simp only
      rw [← ha, ← hw, if_pos hneg]
    rw [if_neg hneg]
    obtain ⟨k, hk⟩ : ∃ k : Nat, w = k := ⟨w.toNat, by omega⟩
    rw [hk, Int.toNat_natCast]
    have hkd : k ≤ data.length := by omega
    have hfree : writeLoop ((f, p) :: rest) data pos disk = match writeAt disk p (data.take k) pos with
        | (.ok (), disk') => writeLoop rest (data.drop k) 0 disk'
        | x => x := by
      rw [writeLoop, if_neg h0]
      simp only
      rw [← ha, ← hw, if_neg hneg, hk, Int.toNat_natCast]
      rfl
    obtain ⟨n, g1, g2, g3⟩ := writeAtF_prefix (fl i) disk p (data.take k) pos
    have hlk : (data.take k).length = k := by rw [List.length_take]; omega
    rw [hlk] at g1
    rcases g3 with g3 | ⟨e, g3⟩
    · -- written
      rw [hfree, g3]
      cases e : writeAt disk p (data.take k) pos with
      | mk r disk' =>
        cases r with
        | err x =>
          refine ⟨k, hkd, ?_, .inl rfl⟩
          rw [writeLoop_short f p rest data pos disk k (by omega) hkd, e]
        | panic x =>
          refine ⟨k, hkd, ?_, .inl rfl⟩
          rw [writeLoop_short f p rest data pos disk k (by omega) hkd, e]
        | ok u =>
          simp only
          obtain ⟨n', q1, q2, q3⟩ := writeLoopF_prefix fl rest (i + 1) (data.drop k) 0 disk'
          rw [List.length_drop] at q1
          refine ⟨k + n', by omega, ?_, q3⟩
          rw [q2]
          have hlt : (data.take (k + n')).length = k + n' := by rw [List.length_take]; omega
          have hdrop : (data.take (k + n')).drop k = (data.drop k).take n' := by
            rw [List.drop_take]; congr 1; omega
          have htake : (data.take (k + n')).take k = data.take k := by
            rw [List.take_take]; congr 1; omega
          by_cases hz : k + n' = 0
          · have hk0 : k = 0 := by omega
            have hn0 : n' = 0 := by omega
            subst hk0; subst hn0
            simp only [List.take_zero] at e ⊢
            have : disk' = disk := by have := writeAt_nil disk p pos; rw [e] at this; exact this
            subst this
            cases rest with
            | nil => simp [writeLoop]
            | cons x xs => rw [writeLoop]; simp [writeLoop]
          · rw [writeLoop, if_neg (fun h => by rw [h] at hlt; simp at hlt; omega)]
            simp only [hlt]
            rw [← ha]
            have hw' : (if ((k + n' : Nat) : Int) > a then a else ((k + n' : Nat) : Int)) = k := by
              split at hw <;> split <;> omega
            rw [hw', if_neg (by omega), Int.toNat_natCast, htake, e]
            simp only [hdrop]
    · -- failed
      refine ⟨n, by omega, ?_, .inr ⟨e, ?_⟩⟩
      · have ht : (data.take k).take n = data.take n := by rw [List.take_take]; congr 1; omega
        rw [ht] at g2
        rw [writeLoop_short f p rest data pos disk n (by omega) (by omega), ← g2]
        cases h : writeAtF (fl i) disk p (data.take k) pos with
        | mk r disk' => rw [h] at g3; simp only at g3; subst g3; rfl
      · cases h : writeAtF (fl i) disk p (data.take k) pos with
        | mk r disk' => rw [h] at g3; simp only at g3; subst g3; rfl

/-- What a failing disk has of a block is what a good disk has of a part of it from its beginning. If the failing disk reports no
error, it did all that a good disk does; and it crashes only where a good disk would. -/
theorem writePieceDataF_prefix (fl : Faults) (t : Torrent) (data : Bytes) (pos : Int) (disk : Disk) :
    ∃ n, n ≤ data.length ∧ (writePieceDataF fl t data pos disk).2 = (writePieceData t (data.take n) pos disk).2 ∧
      (writePieceDataF fl t data pos disk = writePieceData t data pos disk ∨ ∃ e, (writePieceDataF fl t data pos disk).1 = .err e) := by
  unfold writePieceDataF writePieceData
  by_cases hd : ¬ t.isDirectory = true
  · simp only [if_pos hd]
    cases t.osFiles with
    | nil => exact ⟨0, by omega, rfl, .inl rfl⟩
    | cons p ps => exact writeAtF_prefix (fl 0) disk p data pos
  · simp only [if_neg hd]
    cases h : findFile (t.files.zip t.osFiles) pos with
    | mk fs pos' =>
      cases fs with
      | nil => exact ⟨0, by omega, rfl, .inl rfl⟩
      | cons x xs => exact writeLoopF_prefix fl (x :: xs) 0 data pos' disk

theorem writeLoopF_none : ∀ (fs : List (TorrentFile × Bytes)) (i : Nat) (data : Bytes) (pos : Int) (disk : Disk),
    writeLoopF Faults.none i fs data pos disk = writeLoop fs data pos disk
  | [], _, _, _, _ => rfl
  | (f, p) :: rest, i, data, pos, disk => by
    rw [writeLoopF, writeLoop]
    simp only [Faults.none, writeAtF_none]
    generalize (if (data.length : Int) > wrap64 (f.length - pos) then wrap64 (f.length - pos) else (data.length : Int)) = k
    by_cases h0 : data = []
    · rw [if_pos h0, if_pos h0]
    · rw [if_neg h0, if_neg h0]
      by_cases h1 : k < 0
      · rw [if_pos h1, if_pos h1]
      · rw [if_neg h1, if_neg h1]
        cases writeAt disk p (data.take k.toNat) pos with
        | mk r disk' =>
          cases r with
          | ok u => exact writeLoopF_none rest (i + 1) _ 0 disk'
          | err e => rfl
          | panic e => rfl

theorem writePieceDataF_none (t : Torrent) (data : Bytes) (pos : Int) (disk : Disk) :
    writePieceDataF Faults.none t data pos disk = writePieceData t data pos disk := by
  unfold writePieceDataF writePieceData
  split
  · rfl
  · cases h : findFile (t.files.zip t.osFiles) pos with
    | mk fs pos' =>
      cases fs with
      | nil => rfl
      | cons x xs => exact writeLoopF_none _ 0 data pos' disk

/-- With no failures the two models of the writer agree. -/
theorem writeOneF_none (t : Torrent) (w : Written) (m : PeerMessage) : writeOneF Faults.none t w m = writeOne t w m := by
  unfold writeOneF writeOne
  cases m.data with
  | ok d => simp only [writePieceDataF_none]; rfl
  | err e => rfl
  | panic e => rfl

theorem writePiecesF_none (t : Torrent) : ∀ (ms : List PeerMessage) (w : Written),
    writePiecesF t (ms.map (fun m => (m, Faults.none))) w = writePieces t ms w
  | [], _ => rfl
  | m :: ms, w => by
    simp only [List.map_cons, writePiecesF, writePieces, writeOneF_none]
    cases writeOne t w m with
    | ok w' => exact writePiecesF_none t ms w'
    | err e => rfl
    | panic e => rfl

theorem writePiecesF_append (t : Torrent) (a b : List (PeerMessage × Faults)) (w : Written) :
    writePiecesF t (a ++ b) w = (writePiecesF t a w).bind (writePiecesF t b) := by
  induction a generalizing w with
  | nil => rfl
  | cons m a ih =>
    simp only [List.cons_append, writePiecesF]
    cases writeOneF m.2 t w m.1 with
    | ok w' => exact ih w'
    | err e => rfl
    | panic e => rfl

/-- What one message does: the bytes are counted whatever happens; a part of the block is on the disk; and if there was no error
everything is as on a good disk, otherwise no bit changes. -/
theorem writeOneF_cases {fl : Faults} {t : Torrent} {w w' : Written} {m : PeerMessage} (h : writeOneF fl t w m = .ok w') :
    ∃ d, m.data = .ok d ∧ w'.added = (w.added + d.length) % 2 ^ 64 ∧
      (writeOne t w m = .ok w' ∨
        w'.downloaded = w.downloaded ∧ ∃ n, n ≤ d.length ∧
          w'.disk = (writePieceData t (d.take n) (wrap64 (wrap64 (m.index * t.pieceLength) + m.offset)) w.disk).2) := by
  unfold writeOneF at h
  unfold writeOne
  cases hd : m.data with
  | err e => rw [hd] at h; cases h
  | panic e => rw [hd] at h; cases h
  | ok d =>
    rw [hd] at h
    simp only at h ⊢
    refine ⟨d, rfl, ?_, ?_⟩
    · split at h
      · split at h <;> (cases h; rfl)
      · cases h; rfl
      · cases h
    · obtain ⟨n, h1, h2, h3⟩ := writePieceDataF_prefix fl t d (wrap64 (wrap64 (m.index * t.pieceLength) + m.offset)) w.disk
      rcases h3 with h3 | ⟨e, h3⟩
      · left; rw [h3] at h; exact h
      · right
        cases hx : writePieceDataF fl t d (wrap64 (wrap64 (m.index * t.pieceLength) + m.offset)) w.disk with
        | mk r disk' =>
          rw [hx] at h h2 h3
          simp only at h3
          subst h3
          simp only [Res.ok.injEq] at h
          subst h
          exact ⟨rfl, n, h1, h2⟩

/-- A failing disk crashes the writer only where a good one would. -/
theorem writeOneF_survives {fl : Faults} {t : Torrent} {w w' : Written} {m : PeerMessage} (h : writeOne t w m = .ok w') :
    ∃ w'', writeOneF fl t w m = .ok w'' := by
  unfold writeOne at h
  unfold writeOneF
  cases hd : m.data with
  | err e => rw [hd] at h; cases h
  | panic e => rw [hd] at h; cases h
  | ok d =>
    rw [hd] at h
    simp only at h ⊢
    obtain ⟨n, _, _, h3⟩ := writePieceDataF_prefix fl t d (wrap64 (wrap64 (m.index * t.pieceLength) + m.offset)) w.disk
    rcases h3 with h3 | ⟨e, h3⟩
    · rw [h3]; exact ⟨_, h⟩
    · cases hx : writePieceDataF fl t d (wrap64 (wrap64 (m.index * t.pieceLength) + m.offset)) w.disk with
      | mk r disk' => rw [hx] at h3; simp only at h3; subst h3; exact ⟨_, rfl⟩

end Gotit.Props
