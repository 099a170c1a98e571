import Verif.Spec.Opened
import Verif.Props.PiecesNum
import Verif.Props.Paths
import Verif.Props.Torrent
/-
  C36, C38, C39, C40 for the torrents `New` returns.
-/
namespace Gotit.Props
open Gotit Spec

theorem sum_lengths (fs : List TorrentFile) (a : Int) (ha : 0 ≤ a) (h0 : ∀ f ∈ fs, 0 ≤ f.length)
    (hb : a + (fs.map (·.length)).sum < 2 ^ 63) :
    fs.foldl (fun a f => wrap64 (a + f.length)) a = a + (fs.map (·.length)).sum := by
  induction fs generalizing a with
  | nil => simp
  | cons f fs ih =>
    have hf := h0 f (by simp)
    have hs : 0 ≤ (fs.map (·.length)).sum := by
      have h0' : ∀ f ∈ fs, 0 ≤ f.length := fun g hg => h0 g (by simp [hg])
      clear ih h0 hb
      induction fs with
      | nil => simp
      | cons g gs ih =>
        have := h0' g (by simp)
        have := ih (fun x hx => h0' x (by simp [hx]))
        simp only [List.map_cons, List.sum_cons]; omega
    simp only [List.map_cons, List.sum_cons] at hb ⊢
    rw [List.foldl_cons, wrap64_of _ (by omega) (by omega),
      ih (a + f.length) (by omega) (fun g hg => h0 g (by simp [hg])) (by omega)]
    omega

/-- The length of a torrent is the size of the content. -/
theorem torrentLength_size (m : Metainfo) (hm : Countable m) : torrentLength m = contentSize m := by
  have h1 := hm.some
  have h2 := hm.bound
  unfold torrentLength contentSize at *
  by_cases h : m.infoLength = 0
  · simp only [h, if_true, ne_eq, not_true, if_false] at h1 h2 ⊢
    rw [sum_lengths _ _ (by omega) (hm.files h) (by omega)]; omega
  · rw [if_pos h, if_neg h]

/-- There is only one such number. -/
theorem justEnough_unique {m : Metainfo} (hp : 0 < m.pieceLength) {j k : Nat} (hj : JustEnough m j) (hk : JustEnough m k) : j = k := by
  have key : ∀ {a b : Nat}, JustEnough m a → JustEnough m b → a ≤ b := by
    intro a b ha hb
    apply Classical.byContradiction
    intro hlt
    have h1 : (b : Int) ≤ a - 1 := by omega
    have := Int.mul_le_mul_of_nonneg_right h1 (Int.le_of_lt hp)
    have := ha.1
    have := hb.2
    omega
  exact Nat.le_antisymm (key hj hk) (key hk hj)

/-- C40 for the torrents of New: as many pieces as are just enough for the content; and the two sets have that many places, none
taken. -/
theorem C40_new (sha1 : Bytes → Bytes) (os : Os) (m : Metainfo) (root : Bytes) (disk disk' : Disk) (t : Torrent)
    (h : newTorrent sha1 os m root disk = (.ok t, disk')) (hm : Countable m) :
    ∃ k : Nat, 0 < k ∧ JustEnough m k ∧ t.length = contentSize m ∧ t.piecesNum = k ∧ t.requested = BitSet.new k ∧
      t.downloaded = BitSet.new k := by
  obtain ⟨_, _, _, _, e1, e2, e3, _, _, _, r1, r2, _⟩ := newTorrent_ok h
  have h1 := hm.some
  have h2 := hm.bound
  obtain ⟨h3, h4⟩ := hm.pieces
  have hs := torrentLength_size m hm
  generalize hL : contentSize m = L at *
  generalize hP : m.pieceLength = P at *
  obtain ⟨l, rfl⟩ : ∃ l : Nat, L = l := ⟨L.toNat, by omega⟩
  obtain ⟨p, rfl⟩ : ∃ p : Nat, P = p := ⟨P.toNat, by omega⟩
  obtain ⟨k, q1, q2, q3, q4⟩ := C40_ceiling l p (by omega) (by omega) (by omega) (by omega)
  have hk : k ≤ l := by
    cases k with
    | zero => omega
    | succ k =>
      simp only [Nat.add_sub_cancel] at q2
      have : k * 1 ≤ k * p := Nat.mul_le_mul_left _ (by omega)
      omega
  have hn : t.piecesNum = k := by rw [e3, hs, q1]
  have hb : bitsetNew (k : Int) = BitSet.new k := by
    unfold bitsetNew
    have : ((k : Int) % 2 ^ 64).toNat = k := by rw [Int.emod_eq_of_lt (by omega) (by omega)]; omega
    simp only [this]
    rw [if_neg (by simp only [BitSet.wordsNeeded]; omega)]
  refine ⟨k, q4, ⟨?_, ?_⟩, by rw [e1, hs], hn, by rw [r1, hn, hb], by rw [r2, hn, hb]⟩
  · rw [hL, hP]
    have : ((k - 1 : Nat) : Int) = (k : Int) - 1 := by omega
    rw [← this]; exact_mod_cast q2
  · rw [hL, hP]; exact_mod_cast q3

/-- C39 for the torrents of New, stated on the metainfo: nothing downloaded, so not done. -/
theorem C39_opened_partial (sha1 : Bytes → Bytes) (os : Os) (m : Metainfo) (root : Bytes) (disk disk' : Disk) (t : Torrent)
    (h : newTorrent sha1 os m root disk = (.ok t, disk')) (hm : Countable m) : t.downloaded.all = false := by
  obtain ⟨k, hk, _, _, _, _, hd⟩ := C40_new sha1 os m root disk disk' t h hm
  rw [hd]
  cases hb : (BitSet.new k).all with
  | false => rfl
  | true => rw [all_new] at hb; omega

/-- C36 for the torrents of New: the answers of `Next` are right for the number of pieces that are just enough for the content. -/
theorem C36_new (sha1 : Bytes → Bytes) (os : Os) (m : Metainfo) (root : Bytes) (disk disk' : Disk) (t : Torrent)
    (h : newTorrent sha1 os m root disk = (.ok t, disk')) (hm : Countable m) (k : Nat) (hk : JustEnough m k)
    (σ : Sys BitSet BitSet NextLoc (Option Nat)) (hσ : Sys.Reachable nextMethod t.requested σ)
    (h1 h2 : List (BitSet × Option Nat)) (have_ : BitSet) (r : Option Nat) (hh : σ.history = h1 ++ (have_, r) :: h2) :
    NextAnswer k have_.test (handedOut h1) r ∧ (handedOut σ.history).Nodup := by
  obtain ⟨k', _, hj, _, _, hr, _⟩ := C40_new sha1 os m root disk disk' t h hm
  obtain rfl := justEnough_unique hm.pieces.1 hk hj
  rw [hr] at hσ
  exact ⟨C36_next k σ hσ h1 h2 have_ r hh, (C36_distinct k σ hσ).1⟩

/-- C38 for the torrents of New: `Done` says true exactly if all pieces of the content were marked. -/
theorem C38_new (sha1 : Bytes → Bytes) (os : Os) (m : Metainfo) (root : Bytes) (disk disk' : Disk) (t : Torrent)
    (h : newTorrent sha1 os m root disk = (.ok t, disk')) (hm : Countable m) (k : Nat) (hk : JustEnough m k)
    (σ : Sys BitSet DownOp Unit (Option Bool)) (hσ : Sys.Reachable downMethods t.downloaded σ)
    (h1 h2 : List (DownOp × Option Bool)) (r : Option Bool) (hh : σ.history = h1 ++ (.done, r) :: h2)
    (hvalid : ∀ i ∈ marked h1, i < k) : ∃ b, r = some b ∧ (b = true ↔ ∀ i, i < k → i ∈ marked h1) := by
  obtain ⟨k', _, hj, _, _, _, hd⟩ := C40_new sha1 os m root disk disk' t h hm
  obtain rfl := justEnough_unique hm.pieces.1 hk hj
  rw [hd] at hσ
  exact C38_done k σ hσ h1 h2 r hh hvalid

/-- Two files of 3 and 4 bytes in pieces of 2 bytes: four pieces. -/
example (sha1 : Bytes → Bytes) : ∃ t disk', newTorrent sha1 goodOs
    { manyFiles (ascii "n") [⟨[ascii "a"], 3⟩, ⟨[ascii "b"], 4⟩] with pieceLength := 2 } (ascii "/r") (fun _ => []) = (.ok t, disk') ∧
    t.piecesNum = 4 ∧ t.downloaded = BitSet.new 4 := by
  let m : Metainfo := { manyFiles (ascii "n") [⟨[ascii "a"], 3⟩, ⟨[ascii "b"], 4⟩] with pieceLength := 2 }
  obtain ⟨t, d', h⟩ := newTorrent_succeeds sha1 goodOs m (ascii "/r") (fun _ => []) (by decide)
    (by intro _ f hf; simp [m, manyFiles] at hf; rcases hf with rfl | rfl <;> simp) (by simp [goodOs]) (by simp [goodOs])
  have hm : Countable m := ⟨by decide, by decide, by decide, by decide⟩
  obtain ⟨k, _, hk, _, h1, _, h2⟩ := C40_new _ _ _ _ _ _ _ h hm
  have h4 : JustEnough m 4 := by constructor <;> decide
  obtain rfl := justEnough_unique (by decide) hk h4
  exact ⟨t, d', h, h1, h2⟩

end Gotit.Props
