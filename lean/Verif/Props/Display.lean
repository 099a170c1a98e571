import Verif.Spec.Display
import Verif.Props.ProgramCrash
import Verif.Props.Stats
/-
  The display of the running program.
-/
namespace Gotit.Props
open Gotit Spec

/-! ### Counting -/

theorem firstBytes_append {ms ms' : List PeerMessage} {n : Nat} (h : n ≤ ms.length) : firstBytes (ms ++ ms') n = firstBytes ms n := by
  unfold firstBytes
  rw [List.take_append_of_le_length h]

theorem firstBytes_snoc (ms : List PeerMessage) (m : PeerMessage) : firstBytes (ms ++ [m]) (ms.length + 1) = firstBytes ms ms.length + blockBytes m := by
  unfold firstBytes
  rw [List.take_of_length_le (by simp), List.take_length]
  simp

theorem firstBytes_mono (ms : List PeerMessage) {i j : Nat} (h : i ≤ j) : firstBytes ms i ≤ firstBytes ms j := by
  unfold firstBytes
  have : ms.take j = ms.take i ++ (ms.take j).drop i := by
    conv => lhs; rw [← List.take_append_drop i (ms.take j), List.take_take, Nat.min_eq_left h]
  rw [this]
  simp

/-- What a step of the program does to the messages taken. -/
theorem prog_taken {S : JobSetup} {P P' : Prog} (hi : P.mgr.inHand = P.world.inHand) (st : Prog.Step S P P') :
    (P'.world.inHand = P.world.inHand ∧ P'.world.written = P.world.written) ∨
    (P.world.inHand = none ∧ (∃ m, P'.world.inHand = some m) ∧ P'.world.written = P.world.written) ∨
    (∃ m, P.world.inHand = some m ∧ P'.world.inHand = none ∧ P'.world.written = P.world.written ++ [m]) := by
  cases st with
  | peer _ _ _ _ _ he _ => obtain ⟨h1, _, _, h4, _⟩ := effects_rest he; exact .inl ⟨h1, h4⟩
  | receive _ _ h _ => exact .inr (.inl ⟨hi ▸ h, ⟨_, rfl⟩, rfl⟩)
  | write _ _ h _ => exact .inr (.inr ⟨_, hi ▸ h, rfl, rfl⟩)
  | _ => exact .inl ⟨rfl, rfl⟩

/-- What the display has read so far. -/
def ShowOk (size : Nat) (ms : List PeerMessage) (nd nl : Nat) : ShowLoc → Prop
  | .drawing p | .drawn p => ∃ i, i ≤ nd ∧ p = percentCompleted size (firstBytes ms i % 2 ^ 64)
  | .gotDownload p d => ∃ i j, i ≤ j ∧ j ≤ nd ∧ p = percentCompleted size (firstBytes ms i % 2 ^ 64) ∧ d = firstBytes ms j % 2 ^ 64
  | .gotLeft p d l => ∃ i j k, i ≤ j ∧ j ≤ nd ∧ j ≤ k + 1 ∧ k ≤ nl ∧ p = percentCompleted size (firstBytes ms i % 2 ^ 64) ∧ d = firstBytes ms j % 2 ^ 64 ∧
      (l : Int) = ((size : Int) - firstBytes ms k) % 2 ^ 64
  | .gotSpeed p d l s => ∃ i j k r, i ≤ j ∧ j ≤ r ∧ r ≤ nd ∧ j ≤ k + 1 ∧ k ≤ r ∧ p = percentCompleted size (firstBytes ms i % 2 ^ 64) ∧
      d = firstBytes ms j % 2 ^ 64 ∧ (l : Int) = ((size : Int) - firstBytes ms k) % 2 ^ 64 ∧ s = firstBytes ms r % 2 ^ 64
  | .panicked => ∃ i, i ≤ nd ∧ (progressBar (percentCompleted size (firstBytes ms i % 2 ^ 64)) 20).isPanic = true
  | _ => True

theorem ShowOk.mono {size : Nat} {ms ms' : List PeerMessage} {nd nd' nl nl' : Nat} (hd : nd ≤ ms.length) (hl : nl ≤ nd) (h1 : nd ≤ nd') (h2 : nl ≤ nl')
    {loc : ShowLoc} (h : ShowOk size ms nd nl loc) : ShowOk size (ms ++ ms') nd' nl' loc := by
  have e : ∀ {n}, n ≤ nd → firstBytes (ms ++ ms') n = firstBytes ms n := fun h => firstBytes_append (Nat.le_trans h hd)
  cases loc with
  | drawing p => obtain ⟨i, a, b⟩ := h; exact ⟨i, by omega, by rw [e a]; exact b⟩
  | drawn p => obtain ⟨i, a, b⟩ := h; exact ⟨i, by omega, by rw [e a]; exact b⟩
  | gotDownload p d => obtain ⟨i, j, a, b, c, d⟩ := h; exact ⟨i, j, a, by omega, by rw [e (by omega)]; exact c, by rw [e b]; exact d⟩
  | gotLeft p d l =>
    obtain ⟨i, j, k, a, b, c, d, f, g, h⟩ := h
    exact ⟨i, j, k, a, by omega, c, by omega, by rw [e (by omega)]; exact f, by rw [e b]; exact g, by rw [e (by omega)]; exact h⟩
  | gotSpeed p d l s =>
    obtain ⟨i, j, k, r, a, b, c, d, f, g, h, o, q⟩ := h
    exact ⟨i, j, k, r, a, b, by omega, d, f, by rw [e (by omega)]; exact g, by rw [e (by omega)]; exact h, by rw [e (by omega)]; exact o,
      by rw [e c]; exact q⟩
  | panicked => obtain ⟨i, a, b⟩ := h; exact ⟨i, by omega, by rw [e a]; exact b⟩
  | _ => trivial

theorem LineOf.mono {size : Nat} {ms ms' : List PeerMessage} {l : ShownLine} (h : LineOf size ms l) : LineOf size (ms ++ ms') l := by
  have e : ∀ {n}, n ≤ ms.length → firstBytes (ms ++ ms') n = firstBytes ms n := fun h => firstBytes_append h
  obtain ⟨i, j, k, r, a, b, c, d, f, g, h, o, q⟩ := h
  exact ⟨i, j, k, r, a, b, by simp; omega, d, f, by rw [e (by omega)]; exact g, by rw [e (by omega)]; exact h, by rw [e (by omega)]; exact o,
    by rw [e c]; exact q⟩

/-- How far the counters are. -/
structure Watching (S : JobSetup) (disk : Disk) (W : Watched) (nd nl : Nat) : Prop where
  prog : Prog.Reachable S disk W.prog
  size : W.stats.torrentSize = shownSize S.t
  order : nl ≤ nd ∧ nd ≤ nl + 1 ∧ nd ≤ (taken W.prog).length
  down : W.stats.download = firstBytes (taken W.prog) nd % 2 ^ 64
  left : (W.stats.left : Int) = ((shownSize S.t : Int) - firstBytes (taken W.prog) nl) % 2 ^ 64
  adding : (W.adding = [] ∧ nd = (taken W.prog).length ∧ nl = nd) ∨
    (∃ m, W.prog.world.inHand = some m ∧ W.adding = (StatOp.addDownload (blockBytes m)).atoms ∧ nd + 1 = (taken W.prog).length ∧ nl = nd) ∨
    (∃ m, W.prog.world.inHand = some m ∧ W.adding = (StatOp.addDownload (blockBytes m)).atoms.tail ∧ nd = (taken W.prog).length ∧ nl + 1 = nd)
  display : ShowOk (shownSize S.t) (taken W.prog) nd nl W.display
  lines : ∀ l ∈ W.lines, LineOf (shownSize S.t) (taken W.prog) l

theorem shownSize_lt (t : Torrent) : shownSize t < 2 ^ 64 := by unfold shownSize; omega

theorem watching {S : JobSetup} {disk : Disk} {W : Watched} (h : Watched.Reachable S disk W) : ∃ nd nl, Watching S disk W nd nl := by
  have hz := shownSize_lt S.t
  induction h with
  | start =>
    refine ⟨0, 0, .start, rfl, ⟨by omega, by omega, by omega⟩, rfl, ?_, .inl ⟨rfl, rfl, rfl⟩, trivial, by intro l hl; cases hl⟩
    show ((shownSize S.t : Nat) : Int) = ((shownSize S.t : Int) - (0 : Nat)) % 2 ^ 64
    omega
  | @step W W' _ st ih =>
    obtain ⟨nd, nl, ih⟩ := ih
    have hj := progJoined ih.prog
    cases st with
    | @other P' ha st hh =>
      have e : taken P' = taken W.prog := by
        unfold taken
        rcases prog_taken hj.inHand st with ⟨h1, h2⟩ | ⟨h1, ⟨m, h2⟩, _⟩ | ⟨m, h1, h2, _⟩
        · rw [h1, h2]
        · rw [h1, h2] at hh; cases hh
        · rw [h1, h2] at hh; cases hh
      exact ⟨nd, nl, ih.prog.step st, ih.size, by simp only [e]; exact ih.order, by simp only [e]; exact ih.down, by simp only [e]; exact ih.left,
        by simp only [e, hh]; exact ih.adding, by simp only [e]; exact ih.display, by simp only [e]; exact ih.lines⟩
    | @receive P' m ha st h0 h1 =>
      have e : taken P' = taken W.prog ++ [m] := by
        unfold taken
        rcases prog_taken hj.inHand st with ⟨g1, g2⟩ | ⟨g1, ⟨m', g2⟩, g3⟩ | ⟨m', g1, g2, _⟩
        · rw [h0, h1] at g1; cases g1
        · rw [h0, h1, g3]; simp
        · rw [h0] at g1; cases g1
      rcases ih.adding with ⟨a0, a1, a2⟩ | ⟨m', a0, _⟩ | ⟨m', a0, _⟩
      · have ho := ih.order
        refine ⟨nd, nl, ih.prog.step st, ih.size, ?_, ?_, ?_, .inr (.inl ⟨m, h1, rfl, ?_, a2⟩), ?_, ?_⟩
        · simp only [e, List.length_append]; omega
        · simp only [e]; rw [firstBytes_append ho.2.2]; exact ih.down
        · simp only [e]; rw [firstBytes_append (by omega)]; exact ih.left
        · simp only [e]; simp; omega
        · simp only [e]; exact ih.display.mono ho.2.2 ho.1 (Nat.le_refl _) (Nat.le_refl _)
        · simp only [e]; exact fun l hl => LineOf.mono (ih.lines l hl)
      · rw [h0] at a0; cases a0
      · rw [h0] at a0; cases a0
    | @count r d rest ha had =>
      have ho := ih.order
      rcases ih.adding with ⟨a0, _⟩ | ⟨m, a0, a1, a2, a3⟩ | ⟨m, a0, a1, a2, a3⟩
      · rw [a0] at had; cases had
      · rw [a1] at had
        simp only [StatOp.atoms, List.cons.injEq, Prod.mk.injEq] at had
        obtain ⟨⟨rfl, rfl⟩, rfl⟩ := had
        have e : taken W.prog = W.prog.world.written ++ [m] := by unfold taken; rw [a0]; rfl
        have hn : nd = W.prog.world.written.length := by rw [e] at a2; simp at a2; omega
        refine ⟨nd + 1, nl, ih.prog, ih.size, ⟨by omega, by omega, by show nd + 1 ≤ (taken W.prog).length; omega⟩, ?_, ih.left,
          .inr (.inr ⟨m, a0, rfl, a2, by omega⟩), ?_, ih.lines⟩
        · show (W.stats.download + blockBytes m % 2 ^ 64) % 2 ^ 64 = firstBytes (taken W.prog) (nd + 1) % 2 ^ 64
          rw [ih.down, e, hn, firstBytes_snoc, firstBytes_append (Nat.le_refl _)]
          omega
        · have := ih.display.mono (ms' := []) ho.2.2 ho.1 (nd' := nd + 1) (nl' := nl) (by omega) (Nat.le_refl _)
          rwa [List.append_nil] at this
      · rw [a1] at had
        simp only [StatOp.atoms, List.tail_cons, List.cons.injEq, Prod.mk.injEq] at had
        obtain ⟨⟨rfl, rfl⟩, rfl⟩ := had
        have e : taken W.prog = W.prog.world.written ++ [m] := by unfold taken; rw [a0]; rfl
        have hn : nl = W.prog.world.written.length := by rw [e] at a2; simp at a2; omega
        refine ⟨nd, nl + 1, ih.prog, ih.size, ⟨by omega, by omega, ho.2.2⟩, ih.down, ?_, .inl ⟨rfl, a2, a3⟩, ?_, ih.lines⟩
        · show (((W.stats.left + (2 ^ 64 - blockBytes m % 2 ^ 64) % 2 ^ 64) % 2 ^ 64 : Nat) : Int) = ((shownSize S.t : Int) - (firstBytes (taken W.prog) (nl + 1) : Nat)) % 2 ^ 64
          have := ih.left
          rw [e, hn, firstBytes_append (Nat.le_refl _)] at this
          rw [e, hn, firstBytes_snoc]
          generalize firstBytes W.prog.world.written W.prog.world.written.length = x at *
          generalize blockBytes m = y at *
          generalize shownSize S.t = z at *
          generalize W.stats.left = w at *
          omega
        · have := ih.display.mono (ms' := []) ho.2.2 ho.1 (nd' := nd) (nl' := nl + 1) (Nat.le_refl _) (by omega)
          rwa [List.append_nil] at this
    | @write P' m ha st h0 h1 h2 =>
      have e : taken P' = taken W.prog := by
        unfold taken
        rcases prog_taken hj.inHand st with ⟨g1, g2⟩ | ⟨g1, ⟨m', g2⟩, _⟩ | ⟨m', g1, g2, g3⟩
        · rw [h1, h2] at g1; cases g1
        · rw [h1] at g1; cases g1
        · rw [g1, g2, g3]; simp
      have ha : nd = (taken W.prog).length ∧ nl = nd := by
        rcases ih.adding with ⟨_, a1, a2⟩ | ⟨m', _, a1, _⟩ | ⟨m', _, a1, _⟩
        · exact ⟨a1, a2⟩
        · rw [h0] at a1; cases a1
        · rw [h0] at a1; cases a1
      exact ⟨nd, nl, ih.prog.step st, ih.size, by simp only [e]; exact ih.order, by simp only [e]; exact ih.down, by simp only [e]; exact ih.left,
        .inl ⟨h0, by simp only [e]; exact ha⟩, by simp only [e]; exact ih.display, by simp only [e]; exact ih.lines⟩
    | ctxDone ha hd hc => exact ⟨nd, nl, ih.prog, ih.size, ih.order, ih.down, ih.left, ih.adding, trivial, ih.lines⟩
    | tick ha hd => exact ⟨nd, nl, ih.prog, ih.size, ih.order, ih.down, ih.left, ih.adding, trivial, ih.lines⟩
    | nothing ha hd h0 =>
      refine ⟨nd, nl, ih.prog, ih.size, ih.order, ih.down, ih.left, ih.adding, ⟨nd, Nat.le_refl _, ?_⟩, ih.lines⟩
      rw [ih.size, ih.down] at h0
      unfold percentCompleted
      rw [if_pos h0]
    | something ha hd h0 => exact ⟨nd, nl, ih.prog, ih.size, ih.order, ih.down, ih.left, ih.adding, trivial, ih.lines⟩
    | divide ha hd =>
      exact ⟨nd, nl, ih.prog, ih.size, ih.order, ih.down, ih.left, ih.adding, ⟨nd, Nat.le_refl _, by rw [ih.size, ih.down]⟩, ih.lines⟩
    | draw ha hd hp =>
      have := ih.display; rw [hd] at this
      exact ⟨nd, nl, ih.prog, ih.size, ih.order, ih.down, ih.left, ih.adding, this, ih.lines⟩
    | drawCrash ha hd hp =>
      have := ih.display; rw [hd] at this
      obtain ⟨i, h1, h2⟩ := this
      exact ⟨nd, nl, ih.prog, ih.size, ih.order, ih.down, ih.left, ih.adding, ⟨i, h1, h2 ▸ hp⟩, ih.lines⟩
    | readDownload ha hd =>
      have := ih.display; rw [hd] at this
      obtain ⟨i, h1, h2⟩ := this
      exact ⟨nd, nl, ih.prog, ih.size, ih.order, ih.down, ih.left, ih.adding, ⟨i, nd, h1, Nat.le_refl _, h2, ih.down⟩, ih.lines⟩
    | readLeft ha hd =>
      have := ih.display; rw [hd] at this
      obtain ⟨i, j, h1, h2, h3, h4⟩ := this
      have ho := ih.order
      exact ⟨nd, nl, ih.prog, ih.size, ih.order, ih.down, ih.left, ih.adding, ⟨i, j, nl, h1, h2, by omega, Nat.le_refl _, h3, h4, ih.left⟩, ih.lines⟩
    | readSpeed ha hd =>
      have := ih.display; rw [hd] at this
      obtain ⟨i, j, k, h1, h2, h3, h4, h5, h6, h7⟩ := this
      have ho := ih.order
      exact ⟨nd, nl, ih.prog, ih.size, ih.order, ih.down, ih.left, ih.adding,
        ⟨i, j, k, nd, h1, h2, Nat.le_refl _, h3, by omega, h5, h6, h7, ih.down⟩, ih.lines⟩
    | readPeers ha hd =>
      have := ih.display; rw [hd] at this
      obtain ⟨i, j, k, r, h1, h2, h3, h4, h5, h6, h7, h8, h9⟩ := this
      have ho := ih.order
      refine ⟨nd, nl, ih.prog, ih.size, ih.order, ih.down, ih.left, ih.adding, trivial, fun l hl => ?_⟩
      rcases List.mem_append.1 hl with hl | hl
      · exact ih.lines l hl
      · rw [List.mem_singleton] at hl
        subst hl
        exact ⟨i, j, k, r, h1, h2, Nat.le_trans h3 ho.2.2, h4, h5, h6, h7, h8, h9⟩

/-! ### When the display crashes -/

/-- Up to 104% no more than 104 is shown. -/
theorem percent_under (size d : Nat) (hs : 0 < size) (hs2 : size ≤ 2 ^ 52) (h : 100 * d ≤ 104 * size) :
    (fmul 53 (fdiv 53 (toFloat 53 d) (toFloat 53 size)) ⟨100, 1⟩).round ≤ 104 := by
  have n1 := toFloat_num_pos 52 size hs
  obtain ⟨x1, x2⟩ := toFloat_exact 52 d (by omega)
  obtain ⟨y1, y2⟩ := toFloat_exact 52 size (by omega)
  have q : (fdiv 53 (toFloat 53 d) (toFloat 53 size)).le (roundBits 53 104 100) := by
    apply roundBits_mono 52 _ _ _ _ (Nat.mul_pos x2 n1) (by omega)
    rw [x1, y1]
    generalize (toFloat (52 + 1) d).den = u
    generalize (toFloat (52 + 1) size).den = v
    calc d * u * v * 100 = (100 * d) * (u * v) := by ac_rfl
      _ ≤ (104 * size) * (u * v) := Nat.mul_le_mul_right _ h
      _ = 104 * (u * (size * v)) := by ac_rfl
  have m := fmul_mono 52 (y := ⟨100, 1⟩) (y' := ⟨100, 1⟩) (roundBits_den _ _ _) (roundBits_den 53 104 100) (by simp) (by simp) q (Nat.le_refl _)
  have r := round_mono (roundBits_den _ _ _) (roundBits_den _ _ _) m
  exact Nat.le_trans r (by decide)

/-- The bar cannot be drawn only if more than 104% are counted. -/
theorem bar_crash {size d : Nat} (hs2 : size ≤ 2 ^ 52) (h : (progressBar (percentCompleted size d) 20).isPanic = true) :
    0 < size ∧ 104 * size < 100 * d := by
  have hi := (C60_iff_partial (percentCompleted size d)).1.1 h
  apply Classical.byContradiction
  intro hn
  have : 0 ≤ percentCompleted size d ∧ percentCompleted size d ≤ 104 := by
    unfold percentCompleted
    split
    · omega
    · rename_i h0
      have := percent_under size d (by omega) hs2 (by omega)
      simp only
      generalize (fmul 53 (fdiv 53 (toFloat 53 d) (toFloat 53 size)) ⟨100, 1⟩).round = r at *
      rw [if_pos (by omega)]
      omega
  omega

theorem step_alive {S : JobSetup} {P P' : Prog} (st : Prog.Step S P P') : P.alive := by
  cases st <;> assumption

/-- Every execution of the program is possible with the display waiting all the time. -/
theorem watch_lift {S : JobSetup} {disk : Disk} {P : Prog} (h : Prog.Reachable S disk P) :
    ∃ W, Watched.Reachable S disk W ∧ W.prog = P ∧ W.adding = [] ∧ W.display = .waiting ∧ W.lines = [] := by
  induction h with
  | start => exact ⟨_, .start, rfl, rfl, rfl, rfl⟩
  | @step P P' hP st ih =>
    obtain ⟨W, h1, rfl, h3, h4, h5⟩ := ih
    have hj := progJoined hP
    have ha : W.alive := ⟨step_alive st, by rw [h4]; simp⟩
    rcases prog_taken hj.inHand st with ⟨g1, _⟩ | ⟨g1, ⟨m, g2⟩, _⟩ | ⟨m, g1, g2, _⟩
    · exact ⟨_, h1.step (.other ha st g1), rfl, h3, h4, h5⟩
    · have ha' : P'.alive := by
        cases st with
        | receive h _ _ _ => exact h
        | write _ _ _ _ => cases g2
        | peer _ _ _ _ _ he _ => rw [← (effects_rest he).1] at g1; simp only at g2; rw [g1] at g2; cases g2
        | _ => simp only at g2; rw [g1] at g2; cases g2
      have s1 := h1.step (.receive ha st g1 g2)
      have s2 := s1.step (.count ⟨ha', by simp only; rw [h4]; simp⟩ rfl)
      have s3 := s2.step (.count ⟨ha', by simp only; rw [h4]; simp⟩ rfl)
      exact ⟨_, s3, rfl, rfl, h4, h5⟩
    · exact ⟨_, h1.step (.write ha st h3 g1 g2), rfl, h3, h4, h5⟩

/-- C137 with the display, exact until the download is cancelled: the program has crashed if and only if a peer sent a message that is too short
for its type or names a piece that does not exist, or `Download` found its wait group in use again, or a tracker sent one of the replies of C148, or the display has panicked; and that only if
the blocks the writer got are more than 104% of the torrent.
Missing: that it does not crash in these cases (all occur, see C137_print_violated for the last). -/
theorem C137_shown_partial (S : JobSetup) (os : Os) (mi : Metainfo) (root : Bytes) (disk0 disk : Disk) (hm : Measured mi)
    (hn : newTorrent S.sha1 os mi root disk0 = (.ok S.t, disk)) (hz : S.t.length ≤ 2 ^ 52) (h0 : 0 ≤ S.t.length) (W : Watched)
    (hW : Watched.Reachable S disk W) (hc : W.prog.mgr.cancelled = false) :
    (¬ W.alive ↔ (∃ i f, (i, RunEv.received f) ∈ W.prog.world.trace ∧ Poison S.t.pieces.length f) ∨ W.prog.mgr.panicked = some reusedText ∨
      (∃ u r, W.prog.fatal = some (u, r) ∧ u ∈ S.urls ∧ DeadlyReply r) ∨ W.display = .panicked) ∧
    (W.display = .panicked → 0 < S.t.length ∧ 104 * S.t.length < 100 * ((taken W.prog).map blockBytes).sum) := by
  obtain ⟨nd, nl, w⟩ := watching hW
  have hx := C137_exact_partial S os mi root disk0 disk hm hn W.prog w.prog hc
  refine ⟨?_, fun hp => ?_⟩
  · unfold Watched.alive
    constructor
    · intro h
      by_cases hd : W.display = .panicked
      · exact .inr (.inr (.inr hd))
      · rcases hx.1 (fun ha => h ⟨ha, hd⟩) with h | h | h
        · exact .inl h
        · exact .inr (.inl h)
        · exact .inr (.inr (.inl h))
    · rintro (h | h | h | h) ⟨a, b⟩
      · exact hx.2 (.inl h) a
      · exact hx.2 (.inr (.inl h)) a
      · exact hx.2 (.inr (.inr h)) a
      · exact b h
  · have hd := w.display
    rw [hp] at hd
    obtain ⟨i, h1, h2⟩ := hd
    have hs : (shownSize S.t : Int) = S.t.length := by unfold shownSize; omega
    obtain ⟨g1, g2⟩ := bar_crash (by omega) h2
    have hle : firstBytes (taken W.prog) i % 2 ^ 64 ≤ ((taken W.prog).map blockBytes).sum := by
      refine Nat.le_trans (Nat.mod_le _ _) (Nat.le_trans (firstBytes_mono _ (Nat.le_trans h1 w.order.2.2)) ?_)
      unfold firstBytes
      rw [List.take_length]
      exact Nat.le_refl _
    omega

/-- C60, in bytes: as long as no more than 104% of the size were received, the line of the statistics is printed, for every torrent of up to 2^52 bytes.
Missing: that it is printed whatever was received; from 105% on it is not (C60_violated). -/
theorem C60_received_partial (s : Stats) (h1 : s.torrentSize ≤ 2 ^ 52) (h : 100 * s.download ≤ 104 * s.torrentSize) : (printBar s).isPanic = false := by
  cases hp : (printBar s).isPanic with
  | false => rfl
  | true =>
    unfold printBar at hp
    have := bar_crash h1 hp
    omega

/-- 104 of 100 bytes. -/
example : (printBar { newStats 100 with download := 104 }).isPanic = false := C60_received_partial _ (by decide) (by decide)

end Gotit.Props
