import Verif.Lemmas.Late
import Verif.Props.Faults
import Verif.Props.WorldCrash
/-
  C78 once more: what can still become of a download that has got somewhere.
-/
namespace Gotit.Props
open Gotit Spec

/-- The bits of pieces that are shorter than the piece length stay unset. -/
theorem full_all {sha1 : Bytes → Bytes} (t : Torrent) (h : Ready t) (content : Bytes) (pl : Nat) (hc : ContentOf sha1 t content pl) :
    ∀ (l : List (PeerMessage × Faults)) (w w' : Written),
    (∀ m ∈ l.map (·.1), m.data = .ok (pieceOf content pl m.index) ∧ m.offset = 0 ∧ m.index * pl < content.length) →
    WithinLengths w.disk (extents t) → (∀ j, w.downloaded.bit j = true → (pieceOf content pl j).length = pl) →
    writePiecesF t l w = .ok w' → ∀ j, w'.downloaded.bit j = true → (pieceOf content pl j).length = pl
  | [], w, w', _, _, hk, he => by cases he; exact hk
  | m :: l, w, w', hm, hwi, hk, he => by
    unfold writePiecesF at he
    cases h1 : writeOneF m.2 t w m.1 with
    | err e => rw [h1] at he; cases he
    | panic e => rw [h1] at he; cases he
    | ok w1 =>
      rw [h1] at he
      obtain ⟨a1, a2, a3⟩ := hm m.1 (by simp)
      obtain ⟨n, _, _, b3, b4⟩ := writeOneF_honest m.2 t h content pl hc m.1 w w1 a1 a2 a3 hwi h1
      refine full_all t h content pl hc l w1 w' (fun x hx => hm x (by rw [List.map_cons]; exact List.mem_cons_of_mem _ hx)) b3 ?_ he
      intro j hj
      rcases b4 with e | ⟨e1, e2, e⟩
      · exact hk j (by rw [← e]; exact hj)
      · by_cases c : j = m.1.index
        · rw [c, ← e1, e2]
        · apply hk j
          rw [e] at hj
          simp only [BitSet.set, if_neg c] at hj
          exact hj

/-- Everything on its way to the disk is a piece. -/
theorem carried_piece {sha1 : Bytes → Bytes} {t : Torrent} {content : Bytes} {pl : Nat} (hc : ContentOf sha1 t content pl)
    (hcount : t.pieces.length * pl < content.length + pl) {W : World} (hh : HonestBlocks sha1 content pl W.trace) {m : PeerMessage}
    (hm : Carried sha1 t W m) :
    m.data = .ok (pieceOf content pl m.index) ∧ m.offset = 0 ∧ m.index * pl < content.length := by
  obtain ⟨i, f, g1, g2, g3, g4⟩ := hm
  obtain ⟨d, e1, e2, _⟩ := piece_heard g2 g3
  obtain ⟨_, d', p, q1, q2, q3⟩ := accept_inv g4
  rw [e2] at q1
  cases q1
  have hlt : m.index < t.pieces.length := (List.getElem?_eq_some_iff.1 q2).1
  have hin : m.index * pl < content.length := by
    have : (m.index + 1) * pl ≤ t.pieces.length * pl := Nat.mul_le_mul_right _ hlt
    rw [Nat.add_mul] at this
    omega
  obtain ⟨x1, x2⟩ := hh _ _ _ _ _ g1 e1
  refine ⟨?_, x1, hin⟩
  rw [e2, x2]
  rw [← (hc.hashes _ _ q2).2]
  exact q3.symm

/-- What a peer that joins can do: it sends the pieces up to `j`, or stops before because the torrent is done. -/
theorem joined_pushes {sha1 : Bytes → Bytes} {t : Torrent} (hr : Ready t) {content : Bytes} {pl k : Nat} (hc : ContentOf sha1 t content pl)
    (hk : k ≤ t.pieces.length) (hk2 : k ≤ 2 ^ 32) (hin : ∀ i, i < k → i * pl + pl ≤ content.length) {p0 : Peer} {W0 : World}
    {os : List (Nat × Run)} {r : Run} {o : Written} {tr : List (Nat × RunEv)} (a : Joined sha1 t p0 W0 os r [] none o tr) (h1 : r.loc = .loopTop)
    (h2 : r.peer.clientChoked = true) (h3 : r.sentPieceMsg = false) (hw : WithinLengths o.disk (extents t)) (hl : o.downloaded.len = k) :
    ∀ j, j ≤ k → ∃ r' o' es, Joined sha1 t p0 W0 os r' [] none o' (tr ++ es) ∧
      (∀ x ∈ es, x.1 = os.length) ∧
      (∀ i f, (i, RunEv.received f) ∈ es → ∃ n, n < k ∧ f = pieceFrame n 0 (pieceOf content pl n)) ∧
      (o'.downloaded.all = true ∨ r'.loc = .loopTop ∧ r'.peer.clientChoked = true ∧ r'.sentPieceMsg = false ∧
        WithinLengths o'.disk (extents t) ∧ o'.downloaded.len = k ∧ ∀ i, i < j → o'.downloaded.bit i = true) := by
  intro j
  induction j with
  | zero =>
    intro _
    exact ⟨r, o, [], by simpa using a, by simp, by simp, .inr ⟨h1, h2, h3, hw, hl, fun i hi => absurd hi (Nat.not_lt_zero _)⟩⟩
  | succ j ih =>
    intro hj
    obtain ⟨r', o', es, b1, b2, b3, b4⟩ := ih (by omega)
    cases hall : o'.downloaded.all with
    | true => exact ⟨r', o', es, b1, b2, b3, .inl hall⟩
    | false =>
      rcases b4 with b4 | ⟨c1, c2, c3, c4, c5, c6⟩
      · rw [hall] at b4; cases b4
      · have hb := hc.bound
        have hjl := hin j (by omega)
        obtain ⟨f1, f2, f3, f4, f5⟩ := pieceMsg_ok j 0 (pieceOf content pl j) (by omega) (by omega)
        have hd : (pieceMsg j 0 (pieceOf content pl j)).data = .ok (pieceOf content pl (pieceMsg j 0 (pieceOf content pl j)).index) := by
          rw [f3]; exact f5
        obtain ⟨o2, w1, _, w3, _, w5⟩ := writeOne_honest t hr content pl hc _ o' hd f4 (by rw [f3]; omega) c4
        obtain ⟨r2, d1, d2, d3, d4⟩ := b1.push c1 c2 c3 hall f1 f2 (pieceMsg_accepted hc (by omega) (by omega) (by omega)) w1
        rw [f3, if_pos (by rw [pieceOf_length]; omega)] at w5
        rw [List.append_assoc] at d1
        refine ⟨r2, o2, _, d1, ?_, ?_, .inr ⟨d2, d3, d4, w3, ?_, ?_⟩⟩
        · intro x hx
          rcases List.mem_append.1 hx with hx | hx
          · exact b2 x hx
          · simp at hx
            rcases hx with h | h | h | h <;> rw [h]
        · intro i f hx
          rcases List.mem_append.1 hx with hx | hx
          · exact b3 i f hx
          · simp at hx
            exact ⟨j, by omega, hx.2⟩
        · rw [w5]
          simp only [BitSet.set]
          rw [if_neg (by omega)]; exact c5
        · intro i hi
          rw [w5]
          simp only [BitSet.set]
          by_cases e : i = j
          · rw [if_pos e]
          · rw [if_neg e]; exact c6 i (by omega)

/-- C78, whole downloads, exact: whatever has happened so far (peers that came, stalled, failed or sent garbage, writes that failed), as
long as nobody sent a block with an offset or a block with the hash of a piece and other bytes, the program has not crashed and was not
cancelled, it can still reach a state in which the torrent counts as done and the files hold the content, if and only if the content
fills its last piece; one more peer that sends the pieces without being asked is enough for it. -/
theorem C78_anywhere_partial (sha1 : Bytes → Bytes) (os : Os) (mi : Metainfo) (root : Bytes) (disk disk' : Disk) (t : Torrent)
    (hn : newTorrent sha1 os mi root disk = (.ok t, disk')) (hs : Sensible mi) (content : Bytes) (pl : Nat)
    (hc : ContentOf sha1 t content pl) (hne : content ≠ []) (hsz : content.length ≤ 2 ^ 51) (hpl : pl + 9 < 2 ^ 32)
    (hcount : t.pieces.length * pl < content.length + pl) (hcount' : content.length ≤ t.pieces.length * pl) (hnum : t.pieces.length ≤ 2 ^ 32)
    (W : World) (hW : World.Reachable sha1 t (newPeer t) disk' W) (hh : HonestBlocks sha1 content pl W.trace) (ha : W.alive)
    (hcan : W.cancelled = false) :
    (∃ W', Leads sha1 t (newPeer t) W W' ∧ HonestBlocks sha1 content pl W'.trace ∧ W'.out.downloaded.all = true ∧
      layout W'.out.disk (extents t) = content ∧
      ∃ es, W'.trace = W.trace ++ es ∧ (∀ x ∈ es, x.1 = W.peers.length) ∧ ∀ i f, (i, RunEv.received f) ∈ es → f.length < 2 ^ 32) ↔
    pl ∣ content.length := by
  obtain ⟨hr, hw, htot, _⟩ := C41_reachable _ _ _ _ _ _ _ hn hs
  obtain ⟨k, k0, hdown, k1, k2, hidx⟩ := new_count hn hs hc hne hsz (by omega)
  have hp0 := hc.positive
  have hkl : k ≤ t.pieces.length := by
    apply Classical.byContradiction
    intro h
    have : t.pieces.length * pl ≤ (k - 1) * pl := Nat.mul_le_mul_right _ (by omega)
    omega
  have hdlen : t.downloaded.len = k := by rw [hdown]; rfl
  have keeps : ∀ W', World.Reachable sha1 t (newPeer t) disk' W' → HonestBlocks sha1 content pl W'.trace →
      Keeps t content pl (List.replicate content.length 0) t.downloaded.len W'.out := fun W' hW' hh' =>
    (world_keeps sha1 os mi root disk disk' t hn hs content pl hc hne hsz (by omega) hcount (newPeer t) W' hW'
      (fun i f index b d h1 h2 => (hh' i f index b d h1 h2).1) (fun i f index b d h1 h2 => (hh' i f index b d h1 h2).2)).1
  constructor
  · rintro ⟨W', hl, hh', hall, -⟩
    have hW' := Leads.reachable hl hW
    obtain ⟨g1, _, l, hll, g3⟩ := world_carried hW'
    have hfull := full_all t hr content pl hc l _ _ (fun m hm => carried_piece hc hcount hh' (g1 m (.inr (.inr (hll ▸ hm))))) hw
      (by intro j hj; simp only [hdown, BitSet.new] at hj; cases hj) g3
    rw [BitSet.all_iff] at hall
    have hk := keeps W' hW' hh'
    have := hfull (k - 1) (hall _ (by rw [hk.count, hdlen]; omega))
    rw [pieceOf_length] at this
    have e1 : content.length = k * pl := by
      have : k * pl = (k - 1) * pl + pl := by
        conv => lhs; rw [show k = (k - 1) + 1 from by omega, Nat.add_mul, Nat.one_mul]
      omega
    exact ⟨k, by rw [e1, Nat.mul_comm]⟩
  · intro hfull
    have hex : content.length = k * pl := by
      obtain ⟨q, hq⟩ := hfull
      rw [Nat.mul_comm] at hq
      rw [hq] at k1 k2 ⊢
      have a1 := Nat.lt_of_mul_lt_mul_right k1
      have a2 := Nat.le_of_mul_le_mul_right k2 hp0
      rw [show q = k from by omega]
    have hin : ∀ i, i < k → i * pl + pl ≤ content.length := by
      intro i hi
      have : (i + 1) * pl ≤ k * pl := Nat.mul_le_mul_right _ hi
      rw [Nat.add_mul] at this
      omega
    have hk := keeps W hW hh
    obtain ⟨g1, _, _⟩ := world_carried hW
    have hb := hc.bound
    obtain ⟨W1, a1, a2, a3, a4, a5, a6, a7, a8, a9⟩ := drains (sha1 := sha1) (t := t) (p0 := newPeer t)
      (good := fun m => m.data = .ok (pieceOf content pl m.index) ∧ m.offset = 0 ∧ m.index * pl < content.length)
      (keep := fun o => WithinLengths o.disk (extents t) ∧ o.downloaded.len = k) (by
        rintro o m ⟨b1, b2⟩ ⟨c1, c2, c3⟩
        obtain ⟨o', d1, _, d3, _, d5⟩ := writeOne_honest t hr content pl hc m o c1 c2 (by omega) b1
        refine ⟨o', d1, d3, ?_⟩
        rw [d5]
        split
        · simp only [BitSet.set]
          have := (hidx _).1 c3
          rw [if_neg (by omega)]; exact b2
        · exact b2) W.buffer W rfl ha ⟨hk.within, by rw [hk.count, hdlen]⟩
      (fun m hm => carried_piece hc hcount hh (g1 m (.inl hm))) (fun m hm => carried_piece hc hcount hh (g1 m (.inr (.inl hm))))
    have hclosed : W.closed = false := by
      cases h : W.closed with
      | false => rfl
      | true => rw [world_closed hW h] at hcan; cases hcan
    obtain ⟨r, b1, b2, b3, b4⟩ := Joined.start (p0 := newPeer t) rfl a1 a2 (by rw [a3]; exact hcan) (by rw [a4]; exact hclosed) a5 a6
    obtain ⟨r', o', es, ⟨W', c1, c1'⟩, c2, c3, c4⟩ := joined_pushes hr hc hkl (by omega) hin b1 b2 b3 b4 a9.1 a9.2 k (Nat.le_refl _)
    have hall : o'.downloaded.all = true := by
      rcases c4 with c4 | ⟨_, _, _, _, d5, d6⟩
      · exact c4
      · rw [BitSet.all_iff]; intro i hi; rw [d5] at hi; exact d6 i hi
    have htr : W'.trace = W.trace ++ es := by rw [c1'.trace, a7]
    have hh' : HonestBlocks sha1 content pl W'.trace := by
      rw [htr]
      intro i f index b d hm hf
      rcases List.mem_append.1 hm with hm | hm
      · exact hh i f index b d hm hf
      · obtain ⟨n, n1, n2⟩ := c3 i f hm
        obtain ⟨p1, p2, p3, p4, p5⟩ := pieceMsg_ok n 0 (pieceOf content pl n) (by omega) (by omega)
        obtain ⟨d', q1, q2, _⟩ := piece_heard p1 p2
        rw [← n2, hf] at q1
        rw [p5] at q2
        cases q2
        cases q1
        rw [p3, p4]
        exact ⟨rfl, fun _ => rfl⟩
    refine ⟨W', c1, hh', by rw [c1'.out]; exact hall, ?_, es, htr, ?_, ?_⟩
    · exact (C79_done_partial sha1 os mi root disk disk' t hn hs content pl hc hne hsz (by omega) hcount (newPeer t) W' (Leads.reachable c1 hW)
        (fun i f index b d h1 h2 => (hh' i f index b d h1 h2).1) (fun i f index b d h1 h2 => (hh' i f index b d h1 h2).2)).2
        (by rw [c1'.out]; exact hall)
    · intro x hx
      rw [c2 x hx, a8]
    · intro i f hm
      obtain ⟨n, _, rfl⟩ := c3 i f hm
      have := pieceOf_length content pl n
      simp [pieceFrame]
      omega

/-- Eight bytes in two pieces; a peer sent the first piece and the disk was full. The torrent can still be completed. -/
example : ∃ t disk' W W', World.Reachable (fun _ => List.replicate 20 1) t (newPeer t) disk' W ∧ W.peers.length = 1 ∧ W.out.disk = disk' ∧
    W.out.added = 4 ∧ Leads (fun _ => List.replicate 20 1) t (newPeer t) W W' ∧ W'.out.downloaded.all = true ∧
    layout W'.out.disk (extents t) = [1, 2, 3, 4, 5, 6, 7, 8] := by
  obtain ⟨t, d', h1, h2, h3, h4, _⟩ := fewBytes_opens 8 2 (by omega) (by omega) (by omega) [1, 2, 3, 4, 5, 6, 7, 8] rfl
  obtain ⟨hr, hw, htot, _⟩ := C41_reachable _ _ _ _ _ _ _ h1 h2
  obtain ⟨k, k0, hdown, _⟩ := new_count h1 h2 h3 (by simp) (by simp) (by omega)
  have hall : t.downloaded.all = false := by
    cases h : t.downloaded.all with
    | false => rfl
    | true =>
      rw [BitSet.all_iff, hdown] at h
      exact absurd (h 0 k0) (by simp [BitSet.new])
  obtain ⟨r, a0, a1, a2, a3⟩ := At.start (sha1 := fun _ => List.replicate 20 1) (t := t) (p0 := newPeer t) (disk := d') rfl
  obtain ⟨b1, b2, b3, b4, b5⟩ := pieceMsg_ok 0 0 (pieceOf [1, 2, 3, 4, 5, 6, 7, 8] 4 0) (by omega) (by omega)
  obtain ⟨w1, g1, _⟩ := writeOne_honest t hr _ 4 h3 (pieceMsg 0 0 (pieceOf [1, 2, 3, 4, 5, 6, 7, 8] 4 0))
    ⟨d', t.downloaded, 0⟩ (by rw [b3]; exact b5) b4 (by rw [b3]; omega) hw
  obtain ⟨w2, g2⟩ := writeOneF_survives (fl := fullDisk) g1
  have e := writeOneF_full b5 (by simp [pieceOf]) g2
  obtain ⟨r', ⟨W, c1, so⟩, _⟩ := a0.pushF a1 a2 a3 hall b1 b2 (pieceMsg_accepted h3 (by omega) (by omega) (by omega)) g2
  obtain ⟨W', l, _, f1, f2, _⟩ := (C78_anywhere_partial _ _ _ _ _ _ _ h1 h2 _ 4 h3 (by simp) (by simp) (by omega) (by rw [h4]; decide)
    (by rw [h4]; decide) (by omega) W c1 (by
      rw [so.trace]
      intro i f index b d hm hf
      simp at hm
      obtain ⟨_, rfl⟩ := hm
      obtain ⟨d', q1, q2, _⟩ := piece_heard b1 b2
      rw [hf] at q1
      rw [b5] at q2
      injection q2 with q2
      injection q1 with i1 i2 i3
      rw [i1, i2, i3, ← q2, b3, b4]
      exact ⟨rfl, fun _ => rfl⟩) so.isAlive so.cancelled).2 (by simp)
  exact ⟨t, d', W, W', c1, by rw [so.peers]; rfl, by rw [so.out, e], by rw [so.out, e]; simp [pieceOf], l, f1, f2⟩

end Gotit.Props
