import Verif.Props.DisplayCrash
/-
  The figures of a status line.
-/
namespace Gotit.Props
open Gotit Spec

/-- C147, what holds in every execution of the program: the figures of every line were read one after the other while blocks were being counted. The
percentage is not newer than the bytes downloaded, these are at most one block ahead of the bytes left, and the speed is the newest.
Missing: that they are of the same moment; they need not be: C147_violated. -/
theorem C147_lines_partial {S : JobSetup} {disk : Disk} {W : Watched} (h : Watched.Reachable S disk W) :
    ∀ l ∈ W.lines, LineOf (shownSize S.t) (taken W.prog) l := by
  obtain ⟨nd, nl, w⟩ := watching h
  exact w.lines

/-- C147, in bytes: with at most 2^63 bytes in all and no more bytes than the torrent has, `downloaded` and `left` of a line together exceed the
size by at most one block; the percentage is at most that of `downloaded`, and the speed is computed from no fewer bytes. -/
theorem C147_bound_partial {S : JobSetup} {disk : Disk} {W : Watched} (h : Watched.Reachable S disk W)
    (hb : ((taken W.prog).map blockBytes).sum ≤ shownSize S.t) (l : ShownLine) (hl : l ∈ W.lines) :
    l.downloaded ≤ l.speedOf ∧ l.speedOf ≤ shownSize S.t ∧ l.left ≤ shownSize S.t ∧ l.percent ≤ percentCompleted (shownSize S.t) l.downloaded ∧
    (l.downloaded + l.left ≤ shownSize S.t ∨ ∃ m ∈ taken W.prog, l.downloaded + l.left ≤ shownSize S.t + blockBytes m) := by
  have hz := shownSize_lt S.t
  obtain ⟨i, j, k, r, h1, h2, h3, h4, h5, h6, h7, h8, h9⟩ := C147_lines_partial h l hl
  have hall : firstBytes (taken W.prog) (taken W.prog).length = ((taken W.prog).map blockBytes).sum := by
    unfold firstBytes; rw [List.take_length]
  have hr := firstBytes_mono (taken W.prog) h3
  have hj := firstBytes_mono (taken W.prog) h2
  have hi := firstBytes_mono (taken W.prog) h1
  have hk := firstBytes_mono (taken W.prog) h5
  have e : ∀ x, x ≤ shownSize S.t → x % 2 ^ 64 = x := fun x hx => Nat.mod_eq_of_lt (by omega)
  rw [e _ (by omega)] at h6 h7 h9
  have hleft : (l.left : Int) = (shownSize S.t : Int) - firstBytes (taken W.prog) k := by
    rw [h8]
    generalize firstBytes (taken W.prog) k = x at *
    generalize shownSize S.t = z at *
    omega
  refine ⟨by omega, by omega, by omega, ?_, ?_⟩
  · rw [h6, h7]
    exact (C68_percent _ _ _ hi (by omega)).1
  · by_cases hjk : j ≤ k
    · have := firstBytes_mono (taken W.prog) hjk
      exact .inl (by omega)
    · have hj' : j = k + 1 := by omega
      have hlt : k < (taken W.prog).length := by omega
      refine .inr ⟨(taken W.prog)[k], List.getElem_mem hlt, ?_⟩
      have : firstBytes (taken W.prog) (k + 1) = firstBytes (taken W.prog) k + blockBytes (taken W.prog)[k] := by
        unfold firstBytes
        rw [List.take_succ_eq_append_getElem hlt, List.map_append, List.sum_append]
        simp only [List.map_cons, List.map_nil, List.sum_cons, List.sum_nil, Nat.add_zero]
      rw [hj'] at h7
      omega

/-- C147 is false of the code: for every torrent there is an execution that prints a line which shows no single moment: nothing downloaded, and yet less
left than there is. -/
theorem C147_violated (S : JobSetup) (os : Os) (mi : Metainfo) (root : Bytes) (disk0 disk : Disk)
    (hn : newTorrent S.sha1 os mi root disk0 = (.ok S.t, disk)) (hsen : Sensible mi) (content : Bytes) (pl : Nat)
    (hc : ContentOf S.sha1 S.t content pl) (hne : content ≠ []) (hsz : content.length ≤ 2 ^ 51) (hpl : pl + 9 < 2 ^ 32) (hp : S.t.pieces ≠ [])
    (hh : S.t.hash.length = 20) (ipOf : Nat → AddrPort) (reply : Nat → HttpReply) (hs : Supply S ipOf reply 1) :
    ∃ W l, Watched.Reachable S disk W ∧ W.alive ∧ l ∈ W.lines ∧ ¬ OneMoment (shownSize S.t) (taken W.prog) l ∧
      l.downloaded = 0 ∧ l.left = shownSize S.t - min pl content.length := by
  obtain ⟨hr, hw, htot, _⟩ := C41_reachable _ _ _ _ _ _ _ hn hsen
  obtain ⟨k, k0, hdown, k1, k2, hidx⟩ := new_count hn hsen hc hne hsz (by omega)
  have hp0 := hc.positive
  have hpos := List.length_pos_iff.2 hne
  obtain ⟨b1, b2, b3, b4, b5⟩ := pieceMsg_ok 0 0 (pieceOf content pl 0) (by omega) (by omega)
  have hacc := pieceMsg_accepted hc (List.length_pos_iff.2 hp) (show 0 < 2 ^ 32 by omega) (show 0 < 2 ^ 32 by omega)
  generalize hfm : pieceFrame 0 0 (pieceOf content pl 0) = f at *
  have hfl : f.length < 2 ^ 32 := by
    rw [← hfm]
    have := pieceOf_length content pl 0
    simp [pieceFrame]
    omega
  generalize pieceMsg 0 0 (pieceOf content pl 0) = m at *
  have hlen : (pieceOf content pl 0).length = min pl content.length := by rw [pieceOf_length]; simp
  have hb : blockBytes m = min pl content.length := by unfold blockBytes; rw [b5]; exact hlen
  have hall : S.t.downloaded.all = false := by
    cases h : S.t.downloaded.all with
    | false => rfl
    | true =>
      rw [BitSet.all_iff, hdown] at h
      exact absurd (h 0 k0) (by simp [BitSet.new])
  obtain ⟨r, a, hloc⟩ := at_reading S.sha1 S.t disk hall
  have hu : ∀ s : Run, s.loc = .unchokeRead → Run.Step S.sha1 S.t s { s with log := s.log ++ [.received f], peer := { s.peer with bitset := s.peer.bitset.set m.index }, loc := .deliver m true } := by
    intro s hs
    rw [← pushed_handle b1 b2 hacc s true]
    exact .uRead f hs
  have a1 := a.quiet [.received f] (hu _ hloc) rfl (by simp [quietEv]) (by simp)
  obtain ⟨W, hW, so⟩ := a1.accept rfl (by decide)
  obtain ⟨P, hL⟩ := lifted_any hs hh hW (one_queue so.peers) (fun i g h => by
      rw [so.trace] at h
      simp at h
      rw [h.2]; exact hfl) (by simp [so.peers]) (fun _ => [])
  have hal : P.alive := ⟨hL.panicked, by rw [hL.world]; exact so.isAlive⟩
  have hj := progJoined hL.reach
  have st : Prog.Step S P { P with mgr := { P.mgr with inHand := some m, buffer := [] }, world := { P.world with inHand := some m, buffer := [] } } :=
    .receive hal hL.writer (by rw [hj.inHand, hL.world]; exact so.inHand) (by rw [hj.buffer, hL.world]; exact so.buffer)
  obtain ⟨X, hX, hXP, hXa, hXd, _⟩ := watch_lift hL.reach
  obtain ⟨nd, nl, wt⟩ := watching hX
  have hin : X.prog.world.inHand = none := by rw [hXP, hL.world]; exact so.inHand
  have htaken : taken X.prog = [] := by
    unfold taken
    rw [hin, hXP, hL.world, so.written]; rfl
  have hdl : X.stats.download = 0 := by
    rw [wt.down, htaken]; simp [firstBytes]
  have hlf : X.stats.left = shownSize S.t := by
    have := wt.left
    have hz := shownSize_lt S.t
    rw [htaken] at this
    simp only [firstBytes, List.take_nil, List.map_nil, List.sum_nil] at this
    omega
  have hsz' : shownSize S.t = content.length := by
    unfold shownSize
    rw [← htot, ← hc.size]
    omega
  subst hXP
  have x1 := hX.step (.tick ⟨hal, by rw [hXd]; simp⟩ hXd)
  have x2 := x1.step (.nothing ⟨hal, by simp⟩ rfl (.inr hdl))
  have x3 := x2.step (.draw ⟨hal, by simp⟩ rfl (by decide))
  have x4 := x3.step (.readDownload ⟨hal, by simp⟩ rfl)
  have x5 := x4.step (.receive ⟨hal, by simp⟩ st hin rfl)
  have x6 := x5.step (.count ⟨hal, by simp⟩ rfl)
  have x7 := x6.step (.count ⟨hal, by simp⟩ rfl)
  have x8 := x7.step (.readLeft ⟨hal, by simp⟩ rfl)
  have x9 := x8.step (.readSpeed ⟨hal, by simp⟩ rfl)
  have x10 := x9.step (.readPeers ⟨hal, by simp⟩ rfl)
  have hdb : dataBytes m = min pl content.length := hb
  have hleft : ∀ y : Nat, y = ((X.stats.add .download (dataBytes m % 2 ^ 64)).add .left ((2 ^ 64 - dataBytes m % 2 ^ 64) % 2 ^ 64)).left →
      y = content.length - min pl content.length := by
    rintro y rfl
    simp only [Stats.add, hlf, hdb, hsz']
    omega
  refine ⟨_, _, x10, ⟨hal, by simp⟩, List.mem_append_right _ (List.mem_singleton.2 rfl), ?_, hdl, by rw [hsz']; exact hleft _ rfl⟩
  have htk : taken { X.prog with mgr := { X.prog.mgr with inHand := some m, buffer := [] }, world := { X.prog.world with inHand := some m, buffer := [] } } = [m] := by
    unfold taken at htaken ⊢
    simp only [hin, Option.toList_none, List.append_nil] at htaken
    simp [htaken]
  rintro ⟨n, h1, h2, h3, h4, h5⟩
  simp only [htk] at h1 h2 h3 h4 h5
  have h0 : n = 0 ∨ n = 1 := by simp at h1; omega
  rcases h0 with rfl | rfl
  · have := hleft _ rfl
    simp only [firstBytes, List.take_zero, List.map_nil, List.sum_nil] at h4
    have h4' : ((content.length - min pl content.length : Nat) : Int) = (content.length : Int) := by
      rw [← this, ← hsz']
      have hz := shownSize_lt S.t
      refine Eq.trans h4 ?_
      omega
    omega
  · rw [hdl] at h3
    simp only [firstBytes, List.take_succ_cons, List.take_zero, List.map_cons, List.map_nil, List.sum_cons, List.sum_nil, hb] at h3
    omega

/-- A download of eight bytes in pieces of four. -/
example : ∃ t disk W l, newTorrent (twoPeers t).sha1 goodOs (fewBytes 8 2) (ascii "/r") (fun _ => []) = (.ok (twoPeers t).t, disk) ∧
    Watched.Reachable (twoPeers t) disk W ∧ l ∈ W.lines ∧ ¬ OneMoment (shownSize t) (taken W.prog) l ∧ LineOf (shownSize t) (taken W.prog) l ∧
    l.downloaded = 0 := by
  obtain ⟨t, d', h1, h2, h3, h4, _⟩ := fewBytes_opens 8 2 (by omega) (by omega) (by omega) [1, 2, 3, 4, 5, 6, 7, 8] rfl
  obtain ⟨_, _, _, _, _, _, _, _, hhash, _⟩ := newTorrent_ok h1
  obtain ⟨W, l, g1, _, g2, g3, g4, _⟩ := C147_violated (twoPeers t) goodOs (fewBytes 8 2) (ascii "/r") (fun _ => []) d' h1 h2
    _ _ h3 (by simp) (by simp) (by omega) (by intro h; rw [show (twoPeers t).t = t from rfl] at h; rw [h] at h4; simp at h4)
    (by show t.hash.length = 20; rw [hhash]; rfl) _ _ ((twoPeers_supply t).less (by omega))
  exact ⟨t, d', W, l, h1, g1, g2, g3, C147_lines_partial g1 l g2, g4⟩

end Gotit.Props
