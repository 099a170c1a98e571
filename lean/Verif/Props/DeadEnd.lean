import Verif.Props.Resume
import Verif.Props.WriterCrash
/-
  C142: what peers that misbehave can do to the end of a download.
-/
namespace Gotit.Props
open Gotit Spec

/-! ### Whether a write succeeds does not depend on what the disk holds -/

theorem writeAt_fst (d1 d2 : Disk) (p d : Bytes) (pos : Int) : (writeAt d1 p d pos).1 = (writeAt d2 p d pos).1 := by
  unfold writeAt
  split
  · rfl
  · split <;> rfl

theorem writeLoop_fst : ∀ (fs : List (TorrentFile × Bytes)) (data : Bytes) (pos : Int) (d1 d2 : Disk),
    (writeLoop fs data pos d1).1 = (writeLoop fs data pos d2).1
  | [], data, _, d1, d2 => by
    unfold writeLoop
    split <;> rfl
  | (f, p) :: rest, data, pos, d1, d2 => by
    unfold writeLoop
    split
    · rfl
    · simp only
      generalize (if (data.length : Int) > wrap64 (f.length - pos) then wrap64 (f.length - pos) else (data.length : Int)) = n
      by_cases hn : n < 0
      · rw [if_pos hn, if_pos hn]
      · rw [if_neg hn, if_neg hn]
        have h := writeAt_fst d1 d2 p (data.take n.toNat) pos
        rcases e1 : writeAt d1 p (data.take n.toNat) pos with ⟨r1, x1⟩
        rcases e2 : writeAt d2 p (data.take n.toNat) pos with ⟨r2, x2⟩
        rw [e1, e2] at h
        simp only at h
        subst h
        cases r1 with
        | ok u => exact writeLoop_fst rest _ _ _ _
        | err e => rfl
        | panic e => rfl

theorem writePieceData_fst (t : Torrent) (data : Bytes) (pos : Int) (d1 d2 : Disk) :
    (writePieceData t data pos d1).1 = (writePieceData t data pos d2).1 := by
  unfold writePieceData
  split
  · split
    · rfl
    · exact writeAt_fst _ _ _ _ _
  · split
    · rfl
    · exact writeLoop_fst _ _ _ _ _

theorem le_sum {n : Nat} : ∀ {l : List Nat}, n ∈ l → n ≤ l.sum
  | x :: l, h => by
    rw [List.sum_cons]
    rcases List.mem_cons.1 h with h | h
    · omega
    · have := le_sum h; omega

/-- A whole piece can always be written. -/
theorem writeOne_whole {sha1 : Bytes → Bytes} {t : Torrent} (hr : Ready t) {content : Bytes} {pl : Nat} (hc : ContentOf sha1 t content pl)
    {m : PeerMessage} (o : Written) (hd : m.data = .ok (pieceOf content pl m.index)) (ho : m.offset = 0)
    (hi : m.index * pl + pl ≤ content.length) :
    ∃ o', writeOne t o m = .ok o' ∧ o'.downloaded = o.downloaded.set m.index := by
  have hb := hc.bound
  have hl : (pieceOf content pl m.index).length = pl := by rw [pieceOf_length]; omega
  have hne : pieceOf content pl m.index ≠ [] := by
    intro h; rw [h] at hl; have := hc.positive; simp at hl; omega
  obtain ⟨d', h1, _⟩ := C41_layout t hr (pieceOf content pl m.index) (m.index * pl) (fun _ => []) (by intro x _; simp) hne
    (by rw [← hc.size, hl]; exact hi)
  have h2 := writePieceData_fst t (pieceOf content pl m.index) (m.index * pl : Nat) o.disk (fun _ => [])
  rw [h1] at h2
  have hpos : wrap64 (wrap64 (m.index * t.pieceLength) + m.offset) = (m.index * pl : Nat) := by
    rw [hc.pieceLength, ho, show ((m.index : Int) * (pl : Int)) = ((m.index * pl : Nat) : Int) from by simp]
    rw [wrap64_of ((m.index * pl : Nat) : Int) (by omega) (by omega), wrap64_of _ (by omega) (by omega)]
    simp
  rcases e : writePieceData t (pieceOf content pl m.index) (m.index * pl : Nat) o.disk with ⟨r, d2⟩
  rw [e] at h2
  simp only at h2
  subst h2
  unfold writeOne
  rw [hd]
  simp only [hpos, e]
  rw [if_pos (by rw [ho, hl, hc.pieceLength]; simp)]
  exact ⟨_, rfl, rfl⟩

/-- The number of bits does not change while the pieces that come exist. -/
theorem writeOneF_len {fl : Faults} {t : Torrent} {w w' : Written} {m : PeerMessage} (he : writeOneF fl t w m = .ok w')
    (hi : m.index < w.downloaded.len) : w'.downloaded.len = w.downloaded.len := by
  obtain ⟨d, hd, _, h3⟩ := writeOneF_cases he
  rcases h3 with h3 | ⟨h3, _⟩
  · unfold writeOne at h3
    rw [hd] at h3
    simp only at h3
    split at h3
    · split at h3
      · cases h3
        simp only [BitSet.set]
        rw [if_neg (by omega)]
      · cases h3; rfl
    · cases h3; rfl
    · cases h3
  · rw [h3]

theorem writePiecesF_len {t : Torrent} {k : Nat} : ∀ (l : List (PeerMessage × Faults)) (w w' : Written), (∀ m ∈ l.map (·.1), m.index < k) →
    w.downloaded.len = k → writePiecesF t l w = .ok w' → w'.downloaded.len = k
  | [], w, w', _, hk, he => by cases he; exact hk
  | m :: l, w, w', hm, hk, he => by
    unfold writePiecesF at he
    cases h1 : writeOneF m.2 t w m.1 with
    | err e => rw [h1] at he; cases he
    | panic e => rw [h1] at he; cases he
    | ok w1 =>
      rw [h1] at he
      exact writePiecesF_len l w1 w' (fun x hx => hm x (by rw [List.map_cons]; exact List.mem_cons_of_mem _ hx))
        (by rw [writeOneF_len h1 (by rw [hk]; exact hm m.1 (by simp)), hk]) he

/-- A peer that joins and sends the pieces up to `j`, whatever the files hold. -/
theorem joined_pushes_any {sha1 : Bytes → Bytes} {t : Torrent} (hr : Ready t) {content : Bytes} {pl k : Nat} (hc : ContentOf sha1 t content pl)
    (hk : k ≤ t.pieces.length) (hk2 : k ≤ 2 ^ 32) (hin : ∀ i, i < k → i * pl + pl ≤ content.length) {p0 : Peer} {W0 : World}
    {os : List (Nat × Run)} {r : Run} {o : Written} {tr : List (Nat × RunEv)} (a : Joined sha1 t p0 W0 os r [] none o tr) (h1 : r.loc = .loopTop)
    (h2 : r.peer.clientChoked = true) (h3 : r.sentPieceMsg = false) (hl : o.downloaded.len = k) :
    ∀ j, j ≤ k → ∃ r' o' es, Joined sha1 t p0 W0 os r' [] none o' (tr ++ es) ∧
      (∀ x ∈ es, x.1 = os.length) ∧
      (∀ i f, (i, RunEv.received f) ∈ es → ∃ n, n < k ∧ f = pieceFrame n 0 (pieceOf content pl n)) ∧
      (o'.downloaded.all = true ∨ r'.loc = .loopTop ∧ r'.peer.clientChoked = true ∧ r'.sentPieceMsg = false ∧
        o'.downloaded.len = k ∧ ∀ i, i < j → o'.downloaded.bit i = true) := by
  intro j
  induction j with
  | zero =>
    intro _
    exact ⟨r, o, [], by simpa using a, by simp, by simp, .inr ⟨h1, h2, h3, hl, fun i hi => absurd hi (Nat.not_lt_zero _)⟩⟩
  | succ j ih =>
    intro hj
    obtain ⟨r', o', es, b1, b2, b3, b4⟩ := ih (by omega)
    cases hall : o'.downloaded.all with
    | true => exact ⟨r', o', es, b1, b2, b3, .inl hall⟩
    | false =>
      rcases b4 with b4 | ⟨c1, c2, c3, c5, c6⟩
      · rw [hall] at b4; cases b4
      · have hjl := hin j (by omega)
        obtain ⟨f1, f2, f3, f4, f5⟩ := pieceMsg_ok j 0 (pieceOf content pl j) (by omega) (by omega)
        obtain ⟨o2, w1, w5⟩ := writeOne_whole hr hc o' (m := pieceMsg j 0 (pieceOf content pl j)) (by rw [f3]; exact f5) f4 (by rw [f3]; exact hjl)
        obtain ⟨r2, d1, d2, d3, d4⟩ := b1.push c1 c2 c3 hall f1 f2 (pieceMsg_accepted hc (by omega) (by omega) (by omega)) w1
        rw [f3] at w5
        rw [List.append_assoc] at d1
        refine ⟨r2, o2, _, d1, ?_, ?_, .inr ⟨d2, d3, d4, ?_, ?_⟩⟩
        · intro x hx
          rcases List.mem_append.1 hx with hx | hx
          · exact b2 x hx
          · simp at hx
            rcases hx with h | h | h | h <;> rw [h]
        · intro i f hx
          rcases List.mem_append.1 hx with hx | hx
          · exact b3 i f hx
          · simp at hx
            exact ⟨j, by omega, hx.2⟩
        · rw [w5]
          simp only [BitSet.set]
          rw [if_neg (by omega)]; exact c5
        · intro i hi
          rw [w5]
          simp only [BitSet.set]
          by_cases e : i = j
          · rw [if_pos e]
          · rw [if_neg e]; exact c6 i (by omega)

/-- The index of everything on its way to the disk. -/
theorem carried_index {sha1 : Bytes → Bytes} {t : Torrent} {pl n : Nat} (hcount : t.pieces.length * pl < n + pl) {W : World} {m : PeerMessage}
    (hm : Carried sha1 t W m) : m.index * pl < n := by
  obtain ⟨_, f, _, _, _, g4⟩ := hm
  have : (m.index + 1) * pl ≤ t.pieces.length * pl := Nat.mul_le_mul_right _ (accept_index g4)
  rw [Nat.add_mul] at this
  omega

/-- C142, what holds: if the content fills its last piece, then from every state of a download that has not crashed and was not cancelled,
whatever the peers have sent so far and whatever writes have failed, one more peer that sends the pieces is enough for the torrent to
count as done; nobody else has to do anything. (That the files then hold the content needs more: `C79_done_partial`,
`C78_anywhere_partial`.) Missing: contents with a short last piece, for which it is false: `C142_violated`. -/
theorem C142_partial (sha1 : Bytes → Bytes) (os : Os) (mi : Metainfo) (root : Bytes) (disk disk' : Disk) (t : Torrent)
    (hn : newTorrent sha1 os mi root disk = (.ok t, disk')) (hs : Sensible mi) (content : Bytes) (pl : Nat)
    (hc : ContentOf sha1 t content pl) (hne : content ≠ []) (hsz : content.length ≤ 2 ^ 51) (hpl : pl + 9 < 2 ^ 32)
    (hcount : t.pieces.length * pl < content.length + pl) (hcount' : content.length ≤ t.pieces.length * pl) (hnum : t.pieces.length ≤ 2 ^ 32)
    (hfull : pl ∣ content.length)
    (W : World) (hW : World.Reachable sha1 t (newPeer t) disk' W) (ha : W.alive) (hcan : W.cancelled = false) :
    ∃ W' es, Leads sha1 t (newPeer t) W W' ∧ W'.out.downloaded.all = true ∧ W'.trace = W.trace ++ es ∧
      (∀ x ∈ es, x.1 = W.peers.length) ∧
      ∀ i f, (i, RunEv.received f) ∈ es → f.length < 2 ^ 32 ∧ ∃ n, n < t.pieces.length ∧ hear f = .piece n 0 (pieceOf content pl n) := by
  obtain ⟨hr, hw, htot, _⟩ := C41_reachable _ _ _ _ _ _ _ hn hs
  obtain ⟨k, k0, hdown, k1, k2, hidx⟩ := new_count hn hs hc hne hsz (by omega)
  obtain ⟨-, e5, e3, e4, e1, e2, -⟩ := newTorrent_ok hn
  have hp0 := hc.positive
  have hkl : k ≤ t.pieces.length := by
    apply Classical.byContradiction
    intro h
    have : t.pieces.length * pl ≤ (k - 1) * pl := Nat.mul_le_mul_right _ (by omega)
    omega
  have hex : content.length = k * pl := by
    obtain ⟨q, hq⟩ := hfull
    rw [Nat.mul_comm] at hq
    rw [hq] at k1 k2 ⊢
    have a1 := Nat.lt_of_mul_lt_mul_right k1
    have a2 := Nat.le_of_mul_le_mul_right k2 hp0
    rw [show q = k from by omega]
  have hin : ∀ i, i < k → i * pl + pl ≤ content.length := by
    intro i hi
    have : (i + 1) * pl ≤ k * pl := Nat.mul_le_mul_right _ hi
    rw [Nat.add_mul] at this
    omega
  have hfiles : ∀ f ∈ t.files, 0 ≤ f.length ∧ f.length < 2 ^ 63 := by
    intro f hf
    rw [e4] at hf
    split at hf
    · rename_i hz
      obtain ⟨g1, g2, _⟩ := hs.multi (by simpa using hz)
      refine ⟨(g1 f hf).1, ?_⟩
      have h0 := (g1 f hf).1
      have hmem : f.length.toNat ∈ mi.files.map (fun f => f.length.toNat) := List.mem_map.2 ⟨f, hf, rfl⟩
      have := le_sum hmem
      omega
    · cases hf
  have hos : t.isDirectory = false → t.osFiles ≠ [] := by
    intro hd
    obtain ⟨p, e, _⟩ := hr.single hd
    rw [e]; simp
  obtain ⟨g1, _, l, hll, g3⟩ := world_carried hW
  have hlen : W.out.downloaded.len = k := by
    refine writePiecesF_len l _ _ (fun m hm => ?_) (by rw [hdown]; rfl) g3
    exact (hidx _).1 (carried_index hcount (g1 m (.inr (.inr (hll ▸ hm)))))
  have hgood : ∀ m, Carried sha1 t W m → (∃ d, m.data = .ok d) ∧ m.offset < 2 ^ 32 ∧ m.index * pl < content.length := by
    intro m hm
    have hm' := hm
    obtain ⟨_, f, _, h1, h2, _⟩ := hm
    obtain ⟨d, _, hd, _, hoff⟩ := piece_heard h1 h2
    exact ⟨⟨d, hd⟩, hoff, carried_index hcount hm'⟩
  obtain ⟨W1, a1, a2, a3, a4, a5, a6, a7, a8, a9⟩ := drains (sha1 := sha1) (t := t) (p0 := newPeer t)
    (good := fun m => (∃ d, m.data = .ok d) ∧ m.offset < 2 ^ 32 ∧ m.index * pl < content.length)
    (keep := fun o => o.downloaded.len = k) (by
      rintro o m b2 ⟨⟨d, c1⟩, c2, c3⟩
      have h5 := hin _ ((hidx _).1 c3)
      obtain ⟨o', d1⟩ := writeOne_noPanic o c1 hfiles hos (by rw [hc.pieceLength]; omega) (by
        have h6 : ((m.index + 1 : Nat) : Int) * t.pieceLength = ((m.index * pl + pl : Nat) : Int) := by
          rw [hc.pieceLength]; simp [Int.add_mul]
        rw [h6]
        omega)
      refine ⟨o', d1, ?_⟩
      rw [← writeOneF_none] at d1
      rw [writeOneF_len d1 (by rw [b2]; exact (hidx _).1 c3)]; exact b2) W.buffer W rfl ha hlen
    (fun m hm => hgood m (g1 m (.inl hm))) (fun m hm => hgood m (g1 m (.inr (.inl hm))))
  have hclosed : W.closed = false := by
    cases h : W.closed with
    | false => rfl
    | true => rw [world_closed hW h] at hcan; cases hcan
  obtain ⟨r, b1, b2, b3, b4⟩ := Joined.start (p0 := newPeer t) rfl a1 a2 (by rw [a3]; exact hcan) (by rw [a4]; exact hclosed) a5 a6
  obtain ⟨r', o', es, ⟨W', c1, c1'⟩, c2, c3, c4⟩ := joined_pushes_any hr hc hkl (by omega) hin b1 b2 b3 b4 a9 k (Nat.le_refl _)
  have hall : o'.downloaded.all = true := by
    rcases c4 with c4 | ⟨_, _, _, d5, d6⟩
    · exact c4
    · rw [BitSet.all_iff]; intro i hi; rw [d5] at hi; exact d6 i hi
  refine ⟨W', es, c1, by rw [c1'.out]; exact hall, by rw [c1'.trace, a7], fun x hx => by rw [c2 x hx, a8], ?_⟩
  intro i f hm
  obtain ⟨n, n1, rfl⟩ := c3 i f hm
  have hlp := pieceOf_length content pl n
  refine ⟨by simp [pieceFrame]; omega, n, by omega, ?_⟩
  obtain ⟨p1, p2, p3, p4, p5⟩ := pieceMsg_ok n 0 (pieceOf content pl n) (by omega) (by omega)
  obtain ⟨d', q1, q2, _⟩ := piece_heard p1 p2
  rw [p5] at q2
  cases q2
  rw [p3, p4] at q1
  exact q1

/-- C142 is false for every torrent of several files whose content does not fill its last piece: whatever any number of peers send, and in
whatever order, no state of a download of it counts as done. -/
theorem C142_violated (sha1 : Bytes → Bytes) (os : Os) (mi : Metainfo) (root : Bytes) (disk disk' : Disk) (t : Torrent)
    (hn : newTorrent sha1 os mi root disk = (.ok t, disk')) (hs : Sensible mi) (hdir : t.isDirectory = true) (content : Bytes) (pl : Nat)
    (hc : ContentOf sha1 t content pl) (hne : content ≠ []) (hsz : content.length ≤ 2 ^ 51) (hpl : pl ≤ 2 ^ 53)
    (hcount : t.pieces.length * pl < content.length + pl) (hshort : ¬ pl ∣ content.length)
    (p0 : Peer) (W : World) (hW : World.Reachable sha1 t p0 disk' W) : W.out.downloaded.all = false := by
  obtain ⟨hr, hw, htot, _⟩ := C41_reachable _ _ _ _ _ _ _ hn hs
  obtain ⟨k, k0, hdown, k1, k2, hidx⟩ := new_count hn hs hc hne hsz hpl
  have hp0 := hc.positive
  have hb := hc.bound
  have hkk : k * pl = (k - 1) * pl + pl := by
    conv => lhs; rw [show k = (k - 1) + 1 from by omega, Nat.add_mul, Nat.one_mul]
  have hlt : content.length < k * pl := by
    rcases Nat.lt_or_ge content.length (k * pl) with h | h
    · exact h
    · exact absurd ⟨k, by rw [Nat.mul_comm]; omega⟩ hshort
  obtain ⟨g1, _, l, hll, g3⟩ := world_carried hW
  have hix : ∀ m ∈ l.map (·.1), m.index < k := fun m hm => (hidx _).1 (carried_index hcount (g1 m (.inr (.inr (hll ▸ hm)))))
  have hlen : W.out.downloaded.len = k := writePiecesF_len l _ _ hix (by rw [hdown]; rfl) g3
  have key : ∀ (l : List (PeerMessage × Faults)) (w w' : Written), w.downloaded.bit (k - 1) = false → writePiecesF t l w = .ok w' →
      w'.downloaded.bit (k - 1) = false := by
    intro l
    induction l with
    | nil => intro w w' h0 he; cases he; exact h0
    | cons m l ih =>
      intro w w' h0 he
      unfold writePiecesF at he
      cases h1 : writeOneF m.2 t w m.1 with
      | err e => rw [h1] at he; cases he
      | panic e => rw [h1] at he; cases he
      | ok w1 =>
        rw [h1] at he
        refine ih w1 w' ?_ he
        cases hbit : w1.downloaded.bit (k - 1) with
        | false => rfl
        | true =>
          exfalso
          obtain ⟨d, _, hi, hsum, hwr⟩ := writeOneF_bit h1 h0 hbit
          rw [hc.pieceLength] at hsum hwr
          have hnat : (k - 1) * pl + m.1.offset + d.length = k * pl := by omega
          have hsmall : (k - 1) * pl + m.1.offset < 2 ^ 63 := by omega
          have hpos : wrap64 (wrap64 (m.1.index * (pl : Int)) + m.1.offset) = ((k - 1) * pl + m.1.offset : Nat) := by
            rw [hi, show ((k - 1 : Nat) : Int) * (pl : Int) = (((k - 1) * pl : Nat) : Int) from by simp]
            rw [wrap64_of (((k - 1) * pl : Nat) : Int) (by omega) (by omega), wrap64_of _ (by omega) (by omega)]
            simp
          rw [hpos] at hwr
          have h2 := writePieceData_fst t d ((k - 1) * pl + m.1.offset : Nat) w.disk (fun _ => [])
          obtain ⟨r, d', s1, s2, _⟩ := writePieceData_spec t hr d ((k - 1) * pl + m.1.offset) hsmall (fun _ => [])
            (by intro x _; simp) hdir
          rw [hwr, s1] at h2
          simp only at h2
          rw [← h2] at s2
          split at s2
          · rw [if_neg (by rw [← hc.size, hnat]; exact Nat.not_le.2 hlt)] at s2; cases s2
          · cases s2
  cases hall : W.out.downloaded.all with
  | false => rfl
  | true =>
    rw [BitSet.all_iff, hlen] at hall
    have := key l _ _ (by rw [hdown]; rfl) g3
    rw [hall (k - 1) (by omega)] at this
    cases this

/-- C142 is false for every torrent whose content does not fill its last piece, as long as nobody sends a block with an offset or a block
with the hash of a piece and other bytes: no state counts as done. -/
theorem C142_honest_violated (sha1 : Bytes → Bytes) (os : Os) (mi : Metainfo) (root : Bytes) (disk disk' : Disk) (t : Torrent)
    (hn : newTorrent sha1 os mi root disk = (.ok t, disk')) (hs : Sensible mi) (content : Bytes) (pl : Nat)
    (hc : ContentOf sha1 t content pl) (hne : content ≠ []) (hsz : content.length ≤ 2 ^ 51) (hpl : pl ≤ 2 ^ 53)
    (hcount : t.pieces.length * pl < content.length + pl) (hshort : ¬ pl ∣ content.length)
    (p0 : Peer) (W : World) (hW : World.Reachable sha1 t p0 disk' W) (hh : HonestBlocks sha1 content pl W.trace) :
    W.out.downloaded.all = false := by
  obtain ⟨hr, hw, htot, _⟩ := C41_reachable _ _ _ _ _ _ _ hn hs
  obtain ⟨k, k0, hdown, k1, k2, hidx⟩ := new_count hn hs hc hne hsz hpl
  obtain ⟨g1, _, l, hll, g3⟩ := world_carried hW
  have hix : ∀ m ∈ l.map (·.1), m.index < k := fun m hm => (hidx _).1 (carried_index hcount (g1 m (.inr (.inr (hll ▸ hm)))))
  have hlen : W.out.downloaded.len = k := writePiecesF_len l _ _ hix (by rw [hdown]; rfl) g3
  have hfull := full_all t hr content pl hc l _ _ (fun m hm => carried_piece hc hcount hh (g1 m (.inr (.inr (hll ▸ hm))))) hw
    (by intro j hj; simp only [hdown, BitSet.new] at hj; cases hj) g3
  cases hall : W.out.downloaded.all with
  | false => rfl
  | true =>
    exfalso
    rw [BitSet.all_iff, hlen] at hall
    have h1 := hfull (k - 1) (hall (k - 1) (by omega))
    rw [pieceOf_length] at h1
    have hkk : k * pl = (k - 1) * pl + pl := by
      conv => lhs; rw [show k = (k - 1) + 1 from by omega, Nat.add_mul, Nat.one_mul]
    exact hshort ⟨k, by rw [Nat.mul_comm]; omega⟩

/-! ### Cases -/

/-- Eight bytes in two pieces; a peer has sent two wrong bytes with an offset, and they were written. The torrent can still be done. -/
example : ∃ t disk' W W', World.Reachable (fun _ => List.replicate 20 1) t (newPeer t) disk' W ∧ W.out.added = 2 ∧
    Leads (fun _ => List.replicate 20 1) t (newPeer t) W W' ∧ W'.out.downloaded.all = true := by
  obtain ⟨t, d', h1, h2, h3, h4, h5⟩ := fewBytes_opens 8 2 (by omega) (by omega) (by omega) [1, 2, 3, 4, 5, 6, 7, 8] rfl
  obtain ⟨hr, hw, htot, _⟩ := C41_reachable _ _ _ _ _ _ _ h1 h2
  obtain ⟨k, k0, hdown, _⟩ := new_count h1 h2 h3 (by simp) (by simp) (by omega)
  have hall : t.downloaded.all = false := by
    cases h : t.downloaded.all with
    | false => rfl
    | true =>
      rw [BitSet.all_iff, hdown] at h
      exact absurd (h 0 k0) (by simp [BitSet.new])
  obtain ⟨r, a0, a1, a2, a3⟩ := At.start (sha1 := fun _ => List.replicate 20 1) (t := t) (p0 := newPeer t) (disk := d') rfl
  obtain ⟨b1, b2, b3, b4, b5⟩ := pieceMsg_ok 0 1 [9, 9] (by omega) (by omega)
  have hacc : acceptPiece (fun _ => List.replicate 20 1) t (pieceMsg 0 1 [9, 9]) = .ok (some (pieceMsg 0 1 [9, 9])) := by
    have hg : t.pieces[0]? = some t.pieces[0] := List.getElem?_eq_getElem (by omega)
    unfold acceptPiece
    rw [b5, b3]
    simp only [Res.bind, checkPiece, hg, (h3.hashes _ _ hg).2]
    simp
  obtain ⟨w1, g1⟩ := writeOne_noPanic (t := t) ⟨d', t.downloaded, 0⟩ b5 (by
      intro f hf
      obtain ⟨_, _, _, e4, _⟩ := newTorrent_ok h1
      rw [e4] at hf
      simp [fewBytes] at hf) (by
      intro hd
      obtain ⟨p, e, _⟩ := hr.single hd
      rw [e]; simp) (by rw [h3.pieceLength]; omega) (by rw [h3.pieceLength, b3, b4]; omega)
  obtain ⟨r', ⟨W, c1, so⟩, _⟩ := a0.push a1 a2 a3 hall b1 b2 hacc g1
  rw [← writeOneF_none] at g1
  obtain ⟨d, e1, e2, _⟩ := writeOneF_cases g1
  rw [b5] at e1
  cases e1
  obtain ⟨W', es, l, f1, _⟩ := C142_partial _ _ _ _ _ _ _ h1 h2 _ 4 h3 (by simp) (by simp) (by omega) (by rw [h4]; decide)
    (by rw [h4]; decide) (by omega) (by simp) W c1 so.isAlive so.cancelled
  exact ⟨t, d', W, W', c1, by rw [so.out, e2]; rfl, l, f1⟩

/-- Two files of two and three bytes, in pieces of four. -/
def shortTail : Metainfo := manyFiles (ascii "n") [⟨[ascii "a"], 2⟩, ⟨[ascii "b"], 3⟩]

/-- The torrent of two files is never done. -/
example (content : Bytes) (h5 : content.length = 5) : ∃ t disk', newTorrent (fun _ => List.replicate 20 1) goodOs shortTail (ascii "/r")
    (fun _ => []) = (.ok t, disk') ∧ t.pieces.length = 2 ∧ ∀ W, World.Reachable (fun _ => List.replicate 20 1) t (newPeer t) disk' W →
    W.out.downloaded.all = false := by
  obtain ⟨t, d', hn⟩ := newTorrent_succeeds (fun _ => List.replicate 20 1) goodOs shortTail (ascii "/r") (fun _ => [])
    (by decide) (by intro _; simp [shortTail, manyFiles]) (by simp [goodOs]) (by simp [goodOs])
  have hs : Sensible shortTail := ⟨fun h => by simp [shortTail, manyFiles] at h, fun _ => by decide⟩
  obtain ⟨_, _, htot, _⟩ := C41_reachable _ _ _ _ _ _ _ hn hs
  obtain ⟨e0, _, e3, _, e1, e2, -⟩ := newTorrent_ok hn
  have hlen : t.length = 5 := by rw [e1]; decide
  have hpieces : t.pieces = [⟨0, List.replicate 20 1⟩, ⟨1, List.replicate 20 1⟩] := by
    have : newPieces shortTail.pieces = .ok [⟨0, List.replicate 20 1⟩, ⟨1, List.replicate 20 1⟩] := by decide
    rw [this] at e0; simpa using e0.symm
  have hc : ContentOf (fun _ => List.replicate 20 1) t content 4 :=
    { pieceLength := by rw [e2]; rfl
      positive := by omega
      size := by omega
      bound := by omega
      hashes := by
        intro i p hp
        rw [hpieces] at hp
        have hi : i < 2 := by simpa using (List.getElem?_eq_some_iff.1 hp).1
        have : i = 0 ∨ i = 1 := by omega
        rcases this with rfl | rfl <;> (simp at hp; subst hp; exact ⟨by omega, rfl⟩) }
  refine ⟨t, d', hn, by rw [hpieces]; rfl, fun W hW => ?_⟩
  exact C142_violated _ _ _ _ _ _ _ hn hs (by rw [e3]; decide) content 4 hc (by intro e; rw [e] at h5; simp at h5) (by omega) (by omega)
    (by rw [hpieces]; simp [h5]) (by rw [h5]; decide) _ W hW

end Gotit.Props
