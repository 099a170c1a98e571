import Verif.Spec.World
import Verif.Lemmas.World
import Verif.Lemmas.Push
import Verif.Props.Paths
import Verif.Props.PeerMessage
import Verif.Props.Torrent
/-
  C76–C79: whole downloads.
-/
namespace Gotit.Props
open Gotit Spec

/-! ## C76 -/

/-- The writer's reading of a piece message is that of BEP 3. -/
theorem piece_heard {f : Bytes} {m : PeerMessage} (h : newPeerMessage f = .ok m) (ht : m.type = pieceType) :
    ∃ d, hear f = .piece m.index m.offset d ∧ m.data = .ok d ∧ m.index < 2 ^ 32 ∧ m.offset < 2 ^ 32 := by
  have hty := newPeerMessage_type h
  cases f with
  | nil => rw [ht] at hty; simp [keepaliveType, pieceType] at hty
  | cons id p =>
    simp only [List.head?_cons, Option.getD_some] at hty
    have hid : id = 7 := by rw [← hty, ht]; rfl
    subst hid
    unfold newPeerMessage at h
    simp only [haveType, requestType, cancelType, pieceType] at h
    rw [if_neg (by decide), if_neg (by decide), if_pos trivial] at h
    by_cases h0 : p.length < 4
    · simp [uint32At, h0, Res.bind] at h
    by_cases h8 : p.length < 8
    · simp [uint32At, h0, h8, Res.bind] at h
    simp only [uint32At, Nat.zero_add, h0, if_false, Res.bind, List.drop_zero] at h
    rw [if_neg (by omega)] at h
    simp only [Res.ok.injEq] at h
    subst h
    have b1 := getBE_lt (p.take 4)
    have b2 := getBE_lt ((p.drop 4).take 4)
    rw [List.length_take, Nat.min_eq_left (by omega)] at b1
    rw [List.length_take, List.length_drop, Nat.min_eq_left (by omega)] at b2
    refine ⟨p.drop 8, ?_, ?_, by simpa using b1, by simpa using b2⟩
    · simp only [hear]
      rw [if_neg (by decide), if_neg (by decide), if_neg (by decide), if_neg (by decide), if_pos trivial, if_pos (by omega)]
      simp [num4, bigEndian_eq]
    · simp [PeerMessage.data, pieceType]; omega

theorem getElem?_of_getD {a b : Bytes} {i j : Nat} (ha : i < a.length) (hb : j < b.length) (h : a.getD i 0 = b.getD j 0) : a[i]? = b[j]? := by
  rw [List.getElem?_eq_getElem ha, List.getElem?_eq_getElem hb]
  simpa [List.getD, ha, hb] using h

/-- What the bytes of a block do to the disk, wherever they go. -/
theorem writePieceData_bytes (t : Torrent) (h : Ready t) (d : Bytes) (pos : Nat) (w : Written)
    (hw : t.isDirectory = true → WithinLengths w.disk (extents t)) (hb : pos < 2 ^ 63) :
    OldOrFrom (fun p x => p = pos ∧ x = d) (layout w.disk (extents t)) (layout (writePieceData t d pos w.disk).2 (extents t)) ∧
    (t.isDirectory = true → WithinLengths (writePieceData t d pos w.disk).2 (extents t)) ∧
    OnlyTouches (extents t) w.disk (writePieceData t d pos w.disk).2 := by
  cases hdir : t.isDirectory with
  | true =>
    obtain ⟨r, d', h1, _, h3, h4, h5⟩ := writePieceData_spec t h d pos hb w.disk (hw hdir) hdir
    rw [h1]
    refine ⟨⟨by rw [layout_length, layout_length], ?_⟩, fun _ => h4, h5⟩
    intro i hi
    simp only at hi ⊢
    rw [layout_length] at hi
    by_cases hin : pos ≤ i ∧ i < pos + d.length
    · refine .inr ⟨pos, d, ⟨rfl, rfl⟩, hin.1, hin.2, ?_⟩
      apply getElem?_of_getD (by rw [layout_length]; exact hi) (by omega)
      rw [h3, getD_splice _ _ _ (by rw [layout_length]; omega), if_pos (by simp; omega), getD_take, if_pos (by omega)]
    · left
      by_cases hp : pos ≤ total (extents t)
      · apply getElem?_of_getD (by rw [layout_length]; exact hi) (by rw [layout_length]; exact hi)
        rw [h3, getD_splice _ _ _ (by rw [layout_length]; omega), if_neg (by simp; omega)]
      · rw [h3, show total (extents t) - pos = 0 from by omega, List.take_zero, splice_nil]
  | false =>
    obtain ⟨p, e, hl0, hl1⟩ := h.single hdir
    have hx : extents t = [(t.length.toNat, p)] := by simp [extents, hdir, e]
    have hwr : (writePieceData t d (pos : Int) w.disk).2 = if d = [] then w.disk else w.disk.update p (overwrite (w.disk p) pos d) := by
      unfold writePieceData
      rw [if_pos (by simp [hdir]), e]
      simp only [writeAt]
      rw [if_neg (by omega)]
      split <;> simp
    rw [hwr, hx]
    refine ⟨⟨by rw [layout_length, layout_length], ?_⟩, (fun h => by cases h), ?_⟩
    · intro i hi
      rw [layout_length] at hi
      have hi' : i < t.length.toNat := by simpa [total] using hi
      by_cases hne : d = []
      · rw [if_pos hne]; exact .inl rfl
      · rw [if_neg hne]
        simp only [layout, List.flatMap_cons, List.flatMap_nil, List.append_nil, Disk.update, if_true]
        by_cases hin : pos ≤ i ∧ i < pos + d.length
        · refine .inr ⟨pos, d, ⟨rfl, rfl⟩, hin.1, hin.2, ?_⟩
          apply getElem?_of_getD (by rw [stored_length]; exact hi') (by omega)
          rw [getD_stored _ _ _ hi', getD_overwrite, if_pos hin]
        · left
          apply getElem?_of_getD (by rw [stored_length]; exact hi') (by rw [stored_length]; exact hi')
          rw [getD_stored _ _ _ hi', getD_overwrite, if_neg hin, getD_stored _ _ _ hi']
    · intro q hq
      simp only [List.map_cons, List.map_nil, List.mem_singleton] at hq
      split
      · rfl
      · simp [Disk.update, hq]

theorem writePlace {t : Torrent} {m : PeerMessage} {pl : Nat} (hpl : t.pieceLength = pl) (hb : m.index * pl + m.offset < 2 ^ 63) :
    wrap64 (wrap64 (m.index * t.pieceLength) + m.offset) = ((m.index * pl + m.offset : Nat) : Int) := by
  rw [hpl, show ((m.index : Int) * (pl : Int)) = ((m.index * pl : Nat) : Int) from by push_cast; rfl]
  rw [wrap64_of ((m.index * pl : Nat) : Int) (by omega) (by omega), wrap64_of _ (by omega) (by omega)]
  push_cast; rfl

theorem writeOne_disk {t : Torrent} {m : PeerMessage} {d : Bytes} {w w' : Written} (hd : m.data = .ok d) (he : writeOne t w m = .ok w') :
    w'.disk = (writePieceData t d (wrap64 (wrap64 (m.index * t.pieceLength) + m.offset)) w.disk).2 := by
  unfold writeOne at he
  rw [hd] at he
  simp only at he
  split at he
  · rename_i e; rw [e]; split at he <;> (cases he; rfl)
  · rename_i e; rw [e]; cases he; rfl
  · cases he

/-- What one message does to the bytes on disk, wherever it points and however much of it can be written. -/
theorem writeOne_bytes (fl : Faults) (t : Torrent) (h : Ready t) (m : PeerMessage) (d : Bytes) (pl : Nat) (w w' : Written) (hpl : t.pieceLength = pl)
    (hd : m.data = .ok d) (hw : t.isDirectory = true → WithinLengths w.disk (extents t)) (hb : m.index * pl + m.offset < 2 ^ 63)
    (he : writeOneF fl t w m = .ok w') :
    OldOrFrom (fun pos x => pos = m.index * pl + m.offset ∧ x = d) (layout w.disk (extents t)) (layout w'.disk (extents t)) ∧
    (t.isDirectory = true → WithinLengths w'.disk (extents t)) ∧ OnlyTouches (extents t) w.disk w'.disk := by
  have hdisk : ∃ n, n ≤ d.length ∧ w'.disk = (writePieceData t (d.take n) ((m.index * pl + m.offset : Nat) : Int) w.disk).2 := by
    obtain ⟨d', h1, _, h3⟩ := writeOneF_cases he
    rw [hd] at h1
    cases h1
    rcases h3 with h3 | ⟨_, n, h3, h4⟩
    · exact ⟨d.length, Nat.le_refl _, by rw [List.take_length, ← writePlace hpl hb]; exact writeOne_disk hd h3⟩
    · exact ⟨n, h3, by rw [← writePlace hpl hb]; exact h4⟩
  obtain ⟨n, hn, hdisk⟩ := hdisk
  rw [hdisk]
  obtain ⟨⟨a1, a2⟩, a3, a4⟩ := writePieceData_bytes t h (d.take n) (m.index * pl + m.offset) w hw hb
  refine ⟨⟨a1, fun i hi => (a2 i hi).imp id ?_⟩, a3, a4⟩
  rintro ⟨_, _, ⟨rfl, rfl⟩, b1, b2, b3⟩
  rw [List.length_take] at b2
  refine ⟨_, _, ⟨rfl, rfl⟩, b1, by omega, ?_⟩
  rw [b3, List.getElem?_take, if_pos (by omega)]

theorem oldOrFrom_weaken {A B : Nat → Bytes → Prop} {o n : Bytes} (h : OldOrFrom A o n) (hab : ∀ p d, A p d → B p d) : OldOrFrom B o n :=
  ⟨h.1, fun i hi => (h.2 i hi).imp id fun ⟨p, d, a, b⟩ => ⟨p, d, hab p d a, b⟩⟩

theorem oldOrFrom_trans {A : Nat → Bytes → Prop} {x y z : Bytes} (h1 : OldOrFrom A x y) (h2 : OldOrFrom A y z) : OldOrFrom A x z := by
  refine ⟨h2.1.trans h1.1, fun i hi => ?_⟩
  rcases h2.2 i hi with e | e
  · rcases h1.2 i (by rw [← h2.1]; exact hi) with e' | ⟨p, d, a, b, c, e'⟩
    · exact .inl (e.trans e')
    · exact .inr ⟨p, d, a, b, c, e.trans e'⟩
  · exact .inr e

theorem writePieces_bytes (t : Torrent) (h : Ready t) (pl : Nat) (hpl : t.pieceLength = pl) (A : Nat → Bytes → Prop) :
    ∀ (ms : List (PeerMessage × Faults)) (w w' : Written), (t.isDirectory = true → WithinLengths w.disk (extents t)) →
    (∀ m ∈ ms.map (·.1), m.index * pl + m.offset < 2 ^ 63 ∧ ∃ d, m.data = .ok d ∧ A (m.index * pl + m.offset) d) →
    writePiecesF t ms w = .ok w' →
    OldOrFrom A (layout w.disk (extents t)) (layout w'.disk (extents t)) ∧ OnlyTouches (extents t) w.disk w'.disk := by
  intro ms
  induction ms with
  | nil => intro w w' _ _ he; cases he; exact ⟨⟨rfl, fun _ _ => .inl rfl⟩, fun _ _ => rfl⟩
  | cons m ms ih =>
    intro w w' hw hm he
    unfold writePiecesF at he
    cases h1 : writeOneF m.2 t w m.1 with
    | err e => rw [h1] at he; cases he
    | panic e => rw [h1] at he; cases he
    | ok w1 =>
      rw [h1] at he
      obtain ⟨hb, d, hd, ha⟩ := hm m.1 (by simp)
      obtain ⟨a1, a2, a3⟩ := writeOne_bytes m.2 t h m.1 d pl w w1 hpl hd hw hb h1
      obtain ⟨b1, b2⟩ := ih w1 w' a2 (fun x hx => hm x (by rw [List.map_cons]; exact List.mem_cons_of_mem _ hx)) he
      refine ⟨oldOrFrom_trans (oldOrFrom_weaken a1 ?_) b1, fun q hq => (b2 q hq).trans (a3 q hq)⟩
      rintro p d' ⟨rfl, rfl⟩
      exact ha

theorem layout_zero {disk : Disk} {fs : List (Nat × Bytes)} (h : ∀ x ∈ fs, disk x.2 = []) : layout disk fs = List.replicate (total fs) 0 := by
  induction fs with
  | nil => rfl
  | cons x fs ih =>
    rw [layout_cons, total_cons, ih (fun y hy => h y (by simp [hy])), h x (by simp)]
    simp [stored, List.replicate_append_replicate]

theorem extents_paths (t : Torrent) : ∀ x ∈ extents t, x.2 ∈ t.osFiles := by
  intro x hx
  unfold extents at hx
  split at hx
  · obtain ⟨y, hy, rfl⟩ := List.mem_map.1 hx
    exact (List.of_mem_zip hy).2
  · obtain ⟨y, hy, rfl⟩ := List.mem_map.1 hx
    exact hy

/-- The verified messages of a download, as BEP 3 reads them. -/
theorem carried_checked {sha1 : Bytes → Bytes} {t : Torrent} {W : World} {m : PeerMessage} {pl : Nat} (h : Carried sha1 t W m)
    (hsm : t.pieces.length * pl + 2 ^ 32 ≤ 2 ^ 63) :
    m.index * pl + m.offset < 2 ^ 63 ∧ ∃ d, m.data = .ok d ∧ Checked sha1 t pl W.trace (m.index * pl + m.offset) d := by
  obtain ⟨i, f, h1, h2, h3, h4⟩ := h
  obtain ⟨d, g1, g2, _, g4⟩ := piece_heard h2 h3
  obtain ⟨_, d', p, k1, k2, k3⟩ := accept_inv h4
  rw [g2] at k1
  cases k1
  refine ⟨?_, d, g2, i, f, m.index, m.offset, p, h1, g1, k2, k3, rfl⟩
  have : m.index < t.pieces.length := by
    rcases Nat.lt_or_ge m.index t.pieces.length with h | h
    · exact h
    · rw [List.getElem?_eq_none h] at k2; cases k2
  have : m.index * pl ≤ t.pieces.length * pl := Nat.mul_le_mul_right _ (by omega)
  omega

/-- C76: at any time of any download, with any number of peers that send whatever they like, and any
writes that fail, every byte of the torrent's files is zero or comes from a block that a peer sent for that position and whose SHA-1
the metainfo lists for the piece it names; no other file is touched. -/
theorem C76_verified (sha1 : Bytes → Bytes) (os : Os) (mi : Metainfo) (root : Bytes) (disk0 disk : Disk) (t : Torrent)
    (hn : newTorrent sha1 os mi root disk0 = (.ok t, disk)) (hs : Sensible mi) (pl : Nat) (hpl : t.pieceLength = pl)
    (hsm : t.pieces.length * pl + 2 ^ 32 ≤ 2 ^ 63) (p0 : Peer) (W : World) (hW : World.Reachable sha1 t p0 disk W) :
    OldOrFrom (Checked sha1 t pl W.trace) (List.replicate (total (extents t)) 0) (layout W.out.disk (extents t)) ∧
    OnlyTouches (extents t) disk W.out.disk := by
  obtain ⟨hr, hw, _, hempty⟩ := C41_reachable _ _ _ _ _ _ _ hn hs
  obtain ⟨h1, _, l, hl, h3⟩ := world_carried hW
  have := writePieces_bytes t hr pl hpl (Checked sha1 t pl W.trace) l _ _ (fun _ => hw)
    (fun m hm => carried_checked (h1 m (.inr (.inr (hl ▸ hm)))) hsm) h3
  rw [layout_zero (fun x hx => hempty _ (extents_paths t x hx))] at this
  exact this

/-! ## C77 -/

theorem piecesGiven_append (a b : List (Nat × RunEv)) : piecesGiven (a ++ b) = piecesGiven a ++ piecesGiven b := by simp [piecesGiven]

/-- `requested` holds the pieces given out. -/
theorem effects_requested {q i : Nat} {b : BitSet} {W W' : World} {es : List RunEv} (h : World.Effects q b W es W') :
    ∀ tr : List (Nat × RunEv), (piecesGiven tr).Nodup → (∀ k, W.requested.bit k = true ↔ k ∈ piecesGiven tr) →
    W'.requested.len = W.requested.len ∧ (piecesGiven (tr ++ es.map (fun e => (i, e)))).Nodup ∧
    (∀ k, W'.requested.bit k = true ↔ k ∈ piecesGiven (tr ++ es.map (fun e => (i, e)))) ∧
    ∀ k ∈ piecesGiven (es.map (fun e => (i, e))), k < W.requested.len ∧ b.test k = true := by
  induction h with
  | nil => intro tr h1 h2; rw [List.map_nil, List.append_nil]; exact ⟨rfl, h1, h2, by simp [piecesGiven]⟩
  | @cons W W1 W2 e es he _ ih =>
    intro tr h1 h2
    have quiet : piecesGiven [(i, e)] = [] → W1.requested = W.requested →
        W2.requested.len = W.requested.len ∧ (piecesGiven (tr ++ (e :: es).map (fun e => (i, e)))).Nodup ∧
        (∀ k, W2.requested.bit k = true ↔ k ∈ piecesGiven (tr ++ (e :: es).map (fun e => (i, e)))) ∧
        ∀ k ∈ piecesGiven ((e :: es).map (fun e => (i, e))), k < W.requested.len ∧ b.test k = true := by
      intro hq hreq
      obtain ⟨g1, g2, g3, g4⟩ := ih tr h1 (by rw [hreq]; exact h2)
      have hc : piecesGiven ((e :: es).map (fun e => (i, e))) = piecesGiven (es.map (fun e => (i, e))) := by
        rw [List.map_cons, show (i, e) :: es.map (fun e => (i, e)) = [(i, e)] ++ es.map (fun e => (i, e)) from rfl, piecesGiven_append, hq]; rfl
      rw [piecesGiven_append, hc, ← piecesGiven_append]
      exact ⟨by rw [g1, hreq], g2, g3, by rw [← hreq]; exact g4⟩
    cases he with
    | @next r s' hr =>
      have hn := next_runs hr
      simp only [nextMethod] at hn
      cases r with
      | none =>
        simp only at hn
        exact quiet rfl hn.1
      | some j =>
        simp only at hn
        obtain ⟨_, a2, a3, a4, a5, _⟩ := hn
        have hlen : s'.len = W.requested.len := by rw [a5]; simp only [BitSet.set]; rw [if_neg (by omega)]
        have hpg : piecesGiven (tr ++ [(i, RunEv.req (.next (some j)))]) = piecesGiven tr ++ [j] := by rw [piecesGiven_append]; rfl
        have hnot : j ∉ piecesGiven tr := by intro hm; rw [(h2 j).2 hm] at a3; cases a3
        obtain ⟨g1, g2, g3, g4⟩ := ih (tr ++ [(i, .req (.next (some j)))])
          (by
            rw [hpg, List.nodup_append]
            refine ⟨h1, by simp, ?_⟩
            intro a ha c hc
            rw [List.mem_singleton] at hc
            subst hc
            intro e; subst e; exact hnot ha)
          (by
            intro k
            rw [hpg]
            simp only [a5, BitSet.set, List.mem_append, List.mem_singleton]
            by_cases e : k = j
            · simp [e]
            · simp only [e, if_false, or_false]; exact h2 k)
        simp only [List.append_assoc, List.singleton_append] at g2 g3
        refine ⟨g1.trans hlen, g2, g3, ?_⟩
        intro k hk
        rw [List.map_cons, show (i, RunEv.req (.next (some j))) :: es.map (fun e => (i, e)) = [(i, RunEv.req (.next (some j)))] ++
          es.map (fun e => (i, e)) from rfl, piecesGiven_append] at hk
        rcases List.mem_append.1 hk with hk | hk
        · have : k = j := by simpa [piecesGiven] using hk
          subst this
          exact ⟨a2, a4⟩
        · have := g4 k hk
          simp only at this
          rw [hlen] at this
          exact this
    | _ => exact quiet rfl rfl

theorem world_given {sha1 : Bytes → Bytes} {t : Torrent} {p0 : Peer} {disk : Disk} {W : World} (h : World.Reachable sha1 t p0 disk W)
    (ht : ∀ k, t.requested.bit k = false) :
    W.requested.len = t.requested.len ∧ (piecesGiven W.trace).Nodup ∧ (∀ k, W.requested.bit k = true ↔ k ∈ piecesGiven W.trace) ∧
    ∀ k ∈ piecesGiven W.trace, k < t.requested.len := by
  induction h with
  | start =>
    refine ⟨rfl, by simp [World.start, piecesGiven], ?_, by simp [World.start, piecesGiven]⟩
    intro k
    simp [World.start, piecesGiven, ht k]
  | @step W W' _ st ih =>
    cases st with
    | @peer W1 i q r r' es _ hi st hl he =>
      obtain ⟨h1, h2, h3, h4⟩ := ih
      obtain ⟨g1, g2, g3, g4⟩ := effects_requested (i := i) he W.trace h2 h3
      refine ⟨g1.trans h1, g2, g3, ?_⟩
      intro k hk
      simp only [piecesGiven_append] at hk
      rcases List.mem_append.1 hk with hk | hk
      · exact h4 k hk
      · rw [← h1]; exact (g4 k hk).1
    | _ => exact ih

/-- C77: in every download, whatever the number of peers and the schedule, no piece is given to two peers (nor twice to one), and
only pieces of the torrent are. -/
theorem C77_once (sha1 : Bytes → Bytes) (os : Os) (mi : Metainfo) (root : Bytes) (disk0 disk : Disk) (t : Torrent)
    (hn : newTorrent sha1 os mi root disk0 = (.ok t, disk)) (p0 : Peer) (W : World) (hW : World.Reachable sha1 t p0 disk W) :
    (piecesGiven W.trace).Nodup ∧ ∀ k ∈ piecesGiven W.trace, k < t.requested.len := by
  obtain ⟨_, _, _, _, _, _, _, _, _, _, hreq, _⟩ := newTorrent_ok hn
  obtain ⟨_, h2, _, h4⟩ := world_given hW (by
    intro k
    rw [hreq]; unfold bitsetNew
    simp only
    split <;> rfl)
  exact ⟨h2, h4⟩

/-! ## C78 -/

/-- C78 is false of the code: if the remote peers send blocks only when they were asked for some, nothing is ever written, however many
peers there are and whatever they have, and the torrent is never done. -/
theorem C78_violated (sha1 : Bytes → Bytes) (t : Torrent) (disk : Disk) (W : World) (hW : World.Reachable sha1 t (newPeer t) disk W)
    (ha : AnswersOnly W.trace) (hlen : 0 < t.downloaded.len) (hbit : ∀ k, t.downloaded.bit k = false) :
    W.written = [] ∧ W.out.disk = disk ∧ W.out.added = 0 ∧ W.out.downloaded.all = false := by
  obtain ⟨h1, _, h3⟩ := world_carried hW
  obtain ⟨t1, t2⟩ := world_trace hW
  have hw : W.written = [] := by
    cases hm : W.written with
    | nil => rfl
    | cons m ms =>
      exfalso
      obtain ⟨i, f, g1, g2, g3, _⟩ := h1 m (.inr (.inr (by rw [hm]; simp)))
      obtain ⟨d, k1, _⟩ := piece_heard g2 g3
      obtain ⟨a, b, hab⟩ := List.append_of_mem g1
      obtain ⟨rq, r1, r2⟩ := ha i f _ _ d a b hab k1
      have r1' : (i, RunEv.sent rq) ∈ W.trace := by rw [hab]; simp [r1]
      have hil := t1 _ r1'
      simp only at hil
      have hp : W.peers[i]? = some W.peers[i] := List.getElem?_eq_getElem hil
      have hlog := t2 i W.peers[i].1 W.peers[i].2 hp
      have hrun := (world_proj hW _ (List.getElem_mem hil)).1
      have hno := (C52_violated sha1 t _ hrun).1
      have : rq ∈ requestsSent W.peers[i].2.log := by
        unfold requestsSent
        rw [List.mem_filterMap]
        refine ⟨.sent rq, ?_, by simp [r2]⟩
        rw [hlog, List.mem_filterMap]
        exact ⟨(i, .sent rq), r1', by simp⟩
      rw [hno] at this
      cases this
  rw [hw] at h3
  obtain ⟨l, hl, h3⟩ := h3
  rw [List.map_eq_nil_iff] at hl
  subst hl
  simp only [writePiecesF, Res.ok.injEq] at h3
  refine ⟨hw, by rw [← h3], by rw [← h3], ?_⟩
  cases hall : W.out.downloaded.all with
  | false => rfl
  | true =>
    rw [BitSet.all_iff, ← h3] at hall
    have := hall 0 hlen
    simp only [hbit] at this
    cases this

/-- The hypotheses of `C78_violated` are met: a peer unchokes the program. -/
example : ∃ W, World.Reachable tinySha tiny (newPeer tiny) (fun _ => []) W ∧ AnswersOnly W.trace ∧ 0 < tiny.downloaded.len ∧
    W.trace = [(0, .sent interestedMessage), (0, .received [1])] := by
  obtain ⟨r, a0, a1, a2, a3⟩ := At.start (sha1 := tinySha) (t := tiny) (p0 := newPeer tiny) (disk := fun _ => []) rfl
  have s1 := a0.silent (.ctxOk a1 rfl) rfl (by simp [Run.goto])
  have s2 := s1.silent (.notDone rfl rfl) rfl (by simp [Run.goto])
  have s3 := s2.silent (.notDue rfl) rfl (by simp [Run.goto])
  have s4 := s3.silent (.choked rfl a2) rfl (by simp [Run.goto])
  have s5 := s4.silent (.uCtxOk rfl rfl) rfl (by simp [Run.goto])
  have s6 := s5.quiet [.sent interestedMessage] (.uSent rfl) rfl (by simp [quietEv]) (by simp [Run.emit])
  have s7 := s6.quiet [.received [1]] (.uRead [1] rfl) rfl (by simp [quietEv]) (by
    intro h
    cases h)
  obtain ⟨W, hW, so⟩ := s7
  refine ⟨W, hW, ?_, by decide, so.trace⟩
  intro i f index b d x y hxy hh
  rw [so.trace] at hxy
  have hf : (i, RunEv.received f) ∈ [(0, RunEv.sent interestedMessage), (0, RunEv.received [1])] := by
    have : (i, RunEv.received f) ∈ x ++ (i, RunEv.received f) :: y := by simp
    rw [← hxy] at this
    simpa using this
  simp at hf
  rw [hf.2] at hh
  simp [hear] at hh

/-- A list of pieces pushed by one peer. -/
theorem push_all {sha1 : Bytes → Bytes} {t : Torrent} {p0 : Peer} {disk : Disk} : ∀ (fs : List (Bytes × PeerMessage)) (r : Run) (o o' : Written)
    (w : List PeerMessage) (tr : List (Nat × RunEv)), At sha1 t p0 disk r [] none o w tr → r.loc = .loopTop → r.peer.clientChoked = true →
    r.sentPieceMsg = false → (∀ x ∈ fs, newPeerMessage x.1 = .ok x.2 ∧ x.2.type = pieceType ∧ acceptPiece sha1 t x.2 = .ok (some x.2)) →
    writePieces t (fs.map (·.2)) o = .ok o' →
    (∀ a x b oa, fs = a ++ x :: b → writePieces t (a.map (·.2)) o = .ok oa → oa.downloaded.all = false) →
    ∃ r' es, At sha1 t p0 disk r' [] none o' (w ++ fs.map (·.2)) (tr ++ es) ∧ ∀ i f, (i, RunEv.received f) ∈ es → f ∈ fs.map (·.1) := by
  intro fs
  induction fs with
  | nil =>
    intro r o o' w tr a _ _ _ _ hw _
    simp only [List.map_nil, writePieces, Res.ok.injEq] at hw
    subst hw
    exact ⟨r, [], by simpa using a, by simp⟩
  | cons x fs ih =>
    intro r o o' w tr a h1 h2 h3 hf hw hn
    obtain ⟨f1, f2, f3⟩ := hf x (by simp)
    simp only [List.map_cons, writePieces] at hw
    cases ho : writeOne t o x.2 with
    | err e => rw [ho] at hw; cases hw
    | panic e => rw [ho] at hw; cases hw
    | ok o1 =>
      rw [ho] at hw
      obtain ⟨r1, a1, b1, b2, b3⟩ := a.push h1 h2 h3 (hn [] x fs o rfl rfl) f1 f2 f3 ho
      obtain ⟨r2, es, a2, c⟩ := ih r1 o1 o' _ _ a1 b1 b2 b3 (fun y hy => hf y (by simp [hy])) hw (by
        intro a y b oa hfs hoa
        refine hn (x :: a) y b oa (by rw [hfs]; rfl) ?_
        simp only [List.map_cons, writePieces, ho, Res.bind]
        exact hoa)
      refine ⟨r2, [(0, .sent interestedMessage), (0, .received x.1), (0, .accepted x.2), (0, .readFailed)] ++ es, ?_, ?_⟩
      · rw [← List.append_assoc]
        simpa using a2
      · intro i f hm
        rcases List.mem_append.1 hm with hm | hm
        · simp at hm
          rw [hm.2]; simp
        · have := c i f hm
          simp only [List.map_cons, List.mem_cons]
          exact .inr this

/-- The message of a piece frame. -/
def pieceMsg (index offset : Nat) (data : Bytes) : PeerMessage :=
  match newPeerMessage (pieceFrame index offset data) with
  | .ok m => m
  | _ => keepaliveMessage

theorem pieceMsg_ok (index offset : Nat) (data : Bytes) (hi : index < 2 ^ 32) (ho : offset < 2 ^ 32) :
    newPeerMessage (pieceFrame index offset data) = .ok (pieceMsg index offset data) ∧ (pieceMsg index offset data).type = pieceType ∧
    (pieceMsg index offset data).index = index ∧ (pieceMsg index offset data).offset = offset ∧ (pieceMsg index offset data).data = .ok data := by
  obtain ⟨m, h1, h2⟩ := pieceFrame_ok index offset data hi ho
  have : pieceMsg index offset data = m := by unfold pieceMsg; rw [h1]
  rw [this]
  exact ⟨h1, h2⟩

theorem pieceMsg_accepted {sha1 : Bytes → Bytes} {t : Torrent} {content : Bytes} {pl : Nat} (hc : ContentOf sha1 t content pl) {i o : Nat}
    (hi : i < t.pieces.length) (hi2 : i < 2 ^ 32) (ho : o < 2 ^ 32) :
    acceptPiece sha1 t (pieceMsg i o (pieceOf content pl i)) = .ok (some (pieceMsg i o (pieceOf content pl i))) := by
  obtain ⟨_, _, h3, _, h5⟩ := pieceMsg_ok i o (pieceOf content pl i) hi2 ho
  unfold acceptPiece
  rw [h5, h3]
  have hg : t.pieces[i]? = some t.pieces[i] := List.getElem?_eq_getElem hi
  simp only [Res.bind, checkPiece, hg, (hc.hashes _ _ hg).2]
  simp

/-- The number of pieces of a torrent from `New`. -/
theorem new_count {sha1 : Bytes → Bytes} {os : Os} {mi : Metainfo} {root : Bytes} {disk disk' : Disk} {t : Torrent}
    (hn : newTorrent sha1 os mi root disk = (.ok t, disk')) (hs : Sensible mi) {content : Bytes} {pl : Nat}
    (hc : ContentOf sha1 t content pl) (hne : content ≠ []) (hsz : content.length ≤ 2 ^ 51) (hpl : pl ≤ 2 ^ 53) :
    ∃ k, 0 < k ∧ t.downloaded = BitSet.new k ∧ (k - 1) * pl < content.length ∧ content.length ≤ k * pl ∧
      ∀ i, i * pl < content.length ↔ i < k := by
  obtain ⟨hr, hw, htot, _⟩ := C41_reachable _ _ _ _ _ _ _ hn hs
  obtain ⟨_, _, _, _, e1, e2, e3, _, _, _, _, e4, _⟩ := newTorrent_ok hn
  have hpos := List.length_pos_iff.2 hne
  have hp0 := hc.positive
  have hsize := hc.size
  obtain ⟨k, c1, c2, c3, c4⟩ := C40_ceiling content.length pl hpos (by omega) hp0 hpl
  have hpn : t.piecesNum = k := by
    rw [e3, ← e1, ← e2, hc.pieceLength, ← htot, ← hsize]; exact c1
  have hk : k ≤ content.length := by
    have : (k - 1) * 1 ≤ (k - 1) * pl := Nat.mul_le_mul_left _ hp0
    omega
  have hdown : t.downloaded = BitSet.new k := by
    rw [e4, hpn]
    unfold bitsetNew
    have : (((k : Int) % 2 ^ 64).toNat) = k := by omega
    simp only [this]
    rw [if_neg (by unfold BitSet.wordsNeeded; omega)]
  refine ⟨k, by omega, hdown, by omega, by omega, ?_⟩
  intro i
  constructor
  · intro h
    apply Classical.byContradiction
    intro hge
    have : k * pl ≤ i * pl := Nat.mul_le_mul_right _ (by omega)
    omega
  · intro h
    have : i * pl ≤ (k - 1) * pl := Nat.mul_le_mul_right _ (by omega)
    omega

/-- Piece `i` as one message. -/
def wholePiece (content : Bytes) (pl i : Nat) : Bytes × PeerMessage :=
  (pieceFrame i 0 (pieceOf content pl i), pieceMsg i 0 (pieceOf content pl i))

/-- What the writer has after the first pieces. -/
theorem first_pieces {sha1 : Bytes → Bytes} {t : Torrent} (hr : Ready t) {content : Bytes} {pl k : Nat} (hc : ContentOf sha1 t content pl)
    {disk : Disk} (hw : WithinLengths disk (extents t)) (hdown : t.downloaded = BitSet.new k)
    (hidx : ∀ i, i * pl < content.length ↔ i < k) (hk : k ≤ 2 ^ 32) (j : Nat) (hj : j ≤ k) :
    ∃ w', writePieces t (((List.range j).map (wholePiece content pl)).map (·.2)) ⟨disk, t.downloaded, 0⟩ = .ok w' ∧
      WithinLengths w'.disk (extents t) ∧ w'.downloaded.len = k ∧
      (∀ i, w'.downloaded.bit i = true ↔ i < j ∧ pl ≤ content.length - i * pl) ∧
      (∀ i, i < content.length → (layout w'.disk (extents t))[i]? =
        if i / pl < j then content[i]? else (layout disk (extents t))[i]?) := by
  have hm : ∀ m ∈ ((List.range j).map (wholePiece content pl)).map (·.2), ∃ i, i < j ∧ m = pieceMsg i 0 (pieceOf content pl i) := by
    intro m hm
    simp only [List.map_map, List.mem_map, List.mem_range, Function.comp, wholePiece] at hm
    obtain ⟨i, h1, h2⟩ := hm
    exact ⟨i, h1, h2.symm⟩
  have hm2 : ∀ i, i < j → pieceMsg i 0 (pieceOf content pl i) ∈ ((List.range j).map (wholePiece content pl)).map (·.2) := by
    intro i hi
    simp only [List.map_map, List.mem_map, List.mem_range, Function.comp, wholePiece]
    exact ⟨i, hi, rfl⟩
  have hex : ∀ i, (∃ m ∈ ((List.range j).map (wholePiece content pl)).map (·.2), m.index = i) ↔ i < j := by
    intro i
    constructor
    · rintro ⟨m, h1, h2⟩
      obtain ⟨i', h3, rfl⟩ := hm m h1
      rw [(pieceMsg_ok i' 0 _ (by omega) (by omega)).2.2.1] at h2
      omega
    · intro h
      exact ⟨_, hm2 i h, (pieceMsg_ok i 0 _ (by omega) (by omega)).2.2.1⟩
  obtain ⟨w', g1, g2, g3, g4, g5⟩ := writePieces_honest t hr content pl hc (((List.range j).map (wholePiece content pl)).map (·.2))
    ⟨disk, t.downloaded, 0⟩ hw (by
      intro m h
      obtain ⟨i, h1, rfl⟩ := hm m h
      obtain ⟨_, _, a, b, c⟩ := pieceMsg_ok i 0 (pieceOf content pl i) (by omega) (by omega)
      rw [a]
      refine ⟨c, b, ?_, (hidx i).2 (by omega)⟩
      show i < t.downloaded.len
      rw [hdown]
      show i < k
      omega)
  refine ⟨w', g1, g2, by rw [g3]; simp only [hdown]; rfl, ?_, ?_⟩
  · intro i
    rw [g4]
    simp only [hdown, BitSet.new]
    constructor
    · rintro (h | ⟨m, h1, h2, h3⟩)
      · cases h
      · refine ⟨(hex i).1 ⟨m, h1, h2⟩, ?_⟩
        rw [pieceOf_length] at h3; omega
    · rintro ⟨h1, h2⟩
      obtain ⟨m, h3, h4⟩ := (hex i).2 h1
      exact .inr ⟨m, h3, h4, by rw [pieceOf_length]; omega⟩
  · intro i hi
    rw [g5 i hi]
    simp only [hex]

/-- A part of a list of numbered things. -/
theorem range_prefix {α : Type} {F : Nat → α} {n : Nat} {rest a b : List α} {x : α} (h : (List.range n).map F ++ rest = a ++ x :: b)
    (ha : a.length ≤ n) : a = (List.range a.length).map F := by
  have h1 : ((List.range n).map F ++ rest).take a.length = a := by rw [h]; simp
  rw [List.take_append_of_le_length (by simpa using ha), ← List.map_take, List.take_range, Nat.min_eq_left ha] at h1
  exact h1.symm

/-- C78, what does work: if the content fills its last piece, a peer that sends every piece without being asked, whole and in order,
leads to a state where the torrent is done and the files hold the content. -/
theorem C78_pushed_partial (sha1 : Bytes → Bytes) (os : Os) (mi : Metainfo) (root : Bytes) (disk disk' : Disk) (t : Torrent)
    (hn : newTorrent sha1 os mi root disk = (.ok t, disk')) (hs : Sensible mi) (content : Bytes) (pl : Nat)
    (hc : ContentOf sha1 t content pl) (hne : content ≠ []) (hsz : content.length ≤ 2 ^ 51) (hpl : pl + 9 < 2 ^ 32)
    (hcount : content.length ≤ t.pieces.length * pl) (hnum : t.pieces.length ≤ 2 ^ 32) (hfull : pl ∣ content.length) :
    ∃ W, World.Reachable sha1 t (newPeer t) disk' W ∧ W.out.downloaded.all = true ∧ layout W.out.disk (extents t) = content ∧
      (∀ i f, (i, RunEv.received f) ∈ W.trace → f.length < 2 ^ 32) ∧ ∃ r, W.peers = [(0, r)] := by
  obtain ⟨hr, hw, htot, _⟩ := C41_reachable _ _ _ _ _ _ _ hn hs
  obtain ⟨k, k0, hdown, k1, k2, hidx⟩ := new_count hn hs hc hne hsz (by omega)
  have hp0 := hc.positive
  have hkl : k ≤ t.pieces.length := by
    apply Classical.byContradiction
    intro h
    have : t.pieces.length * pl ≤ (k - 1) * pl := Nat.mul_le_mul_right _ (by omega)
    omega
  have hk32 : k ≤ 2 ^ 32 := by omega
  have hex : content.length = k * pl := by
    obtain ⟨q, hq⟩ := hfull
    rw [Nat.mul_comm] at hq
    rw [hq] at k1 k2 ⊢
    have a1 := Nat.lt_of_mul_lt_mul_right k1
    have a2 := Nat.le_of_mul_le_mul_right k2 hp0
    rw [show q = k from by omega]
  obtain ⟨w', f1, _, f3, f4, f5⟩ := first_pieces hr hc hw hdown hidx hk32 k (Nat.le_refl _)
  obtain ⟨r, a0, a1, a2, a3⟩ := At.start (sha1 := sha1) (t := t) (p0 := newPeer t) (disk := disk') rfl
  obtain ⟨r', es, ⟨W, hW, so⟩, hes⟩ := push_all ((List.range k).map (wholePiece content pl)) r _ w' _ _ a0 a1 a2 a3 (by
      intro x hx
      obtain ⟨i, hi, rfl⟩ := List.mem_map.1 hx
      rw [List.mem_range] at hi
      obtain ⟨b1, b2, -⟩ := pieceMsg_ok i 0 (pieceOf content pl i) (by omega) (by omega)
      exact ⟨b1, b2, pieceMsg_accepted hc (by omega) (by omega) (by omega)⟩) f1 (by
      intro a x b oa he hoa
      have hal : a.length < k := by
        have := congrArg List.length he
        simp at this; omega
      have ha := range_prefix (rest := []) (by simpa using he) (Nat.le_of_lt hal)
      obtain ⟨wa, g1, _, g3, g4, _⟩ := first_pieces hr hc hw hdown hidx hk32 a.length (by omega)
      rw [← ha, hoa] at g1
      cases g1
      cases hall : oa.downloaded.all with
      | false => rfl
      | true =>
        rw [BitSet.all_iff] at hall
        have := (g4 _).1 (hall a.length (by rw [g3]; exact hal))
        omega)
  refine ⟨W, hW, ?_, ?_, ?_, _, so.peers⟩
  · rw [so.out, BitSet.all_iff]
    intro i hi
    rw [f3] at hi
    rw [f4]
    refine ⟨hi, ?_⟩
    have : (i + 1) * pl ≤ k * pl := Nat.mul_le_mul_right _ hi
    rw [Nat.add_mul] at this
    omega
  · rw [so.out]
    apply List.ext_getElem?
    intro i
    rcases Nat.lt_or_ge i content.length with h | h
    · rw [f5 i h, if_pos]
      rw [hex] at h
      exact Nat.div_lt_of_lt_mul (by rw [Nat.mul_comm]; exact h)
    · rw [List.getElem?_eq_none h, List.getElem?_eq_none]
      rw [layout_length, ← hc.size]; exact h
  · intro i f hm
    rw [so.trace] at hm
    have := hes i f (by simpa using hm)
    simp only [List.map_map, List.mem_map, Function.comp, wholePiece] at this
    obtain ⟨j, _, rfl⟩ := this
    have := pieceOf_length content pl j
    simp [pieceFrame]
    omega

/-! ## C79 -/

/-- C79 is false of the code: for every single-file torrent whose last piece is short and begins with a byte other than 0, there is a
download of correctly hashed blocks at whose end the torrent counts as done and a byte of the file is wrong. The last block has
been sent with an offset that moves its end to where a full piece would end. -/
theorem C79_violated (sha1 : Bytes → Bytes) (os : Os) (mi : Metainfo) (root : Bytes) (disk disk' : Disk) (t : Torrent)
    (hn : newTorrent sha1 os mi root disk = (.ok t, disk')) (hs : Sensible mi) (content : Bytes) (pl : Nat)
    (hc : ContentOf sha1 t content pl) (hne : content ≠ []) (hsz : content.length ≤ 2 ^ 51) (hpl : pl + 9 < 2 ^ 32)
    (hcount : content.length ≤ t.pieces.length * pl) (hnum : t.pieces.length ≤ 2 ^ 32) (hd : t.isDirectory = false)
    (hshort : ¬ pl ∣ content.length) (hbyte : content[content.length / pl * pl]? ≠ some 0) :
    ∃ W, World.Reachable sha1 t (newPeer t) disk' W ∧ W.out.downloaded.all = true ∧ layout W.out.disk (extents t) ≠ content := by
  obtain ⟨hr, hw, htot, hz⟩ := C41_reachable _ _ _ _ _ _ _ hn hs
  obtain ⟨k, k0, hdown, k1, k2, hidx⟩ := new_count hn hs hc hne hsz (by omega)
  have hp0 := hc.positive
  have hkl : k ≤ t.pieces.length := by
    apply Classical.byContradiction
    intro h
    have : t.pieces.length * pl ≤ (k - 1) * pl := Nat.mul_le_mul_right _ (by omega)
    omega
  have hk32 : k ≤ 2 ^ 32 := by omega
  obtain ⟨j, rfl⟩ : ∃ j, k = j + 1 := ⟨k - 1, by omega⟩
  rw [Nat.add_sub_cancel] at k1
  have hlt : content.length < (j + 1) * pl := by
    rcases Nat.lt_or_eq_of_le k2 with h | h
    · exact h
    · exact absurd ⟨j + 1, by rw [h, Nat.mul_comm]⟩ hshort
  have hdiv : content.length / pl = j := by
    apply Nat.div_eq_of_lt_le
    · omega
    · exact hlt
  rw [hdiv] at hbyte
  rw [Nat.add_mul, Nat.one_mul] at hlt
  obtain ⟨L, hL⟩ : ∃ L, L = content.length - j * pl := ⟨_, rfl⟩
  have hlen := pieceOf_length content pl j
  obtain ⟨w', f1, f2, f3, f4, f5⟩ := first_pieces hr hc hw hdown hidx hk32 j (by omega)
  obtain ⟨b1, b2, b3, b4, b5⟩ := pieceMsg_ok j (pl - L) (pieceOf content pl j) (by omega) (by omega)
  have hbound := hc.bound
  have hnn : pieceOf content pl j ≠ [] := by
    apply List.length_pos_iff.1
    omega
  have hw2 : ∃ w2, writeOne t w' (pieceMsg j (pl - L) (pieceOf content pl j)) = .ok w2 ∧ w2.downloaded = w'.downloaded.set j := by
    obtain ⟨p, e, hpos, hlt'⟩ := hr.single hd
    unfold writeOne
    rw [b5, b3, b4, hc.pieceLength]
    have hpos : wrap64 (wrap64 ((j : Int) * (pl : Int)) + ((pl - L : Nat) : Int)) = ((j * pl + (pl - L) : Nat) : Int) := by
      rw [show ((j : Int) * (pl : Int)) = ((j * pl : Nat) : Int) from by push_cast; rfl]
      rw [wrap64_of ((j * pl : Nat) : Int) (by omega) (by omega), wrap64_of _ (by omega) (by omega)]
      push_cast; rfl
    simp only [hpos]
    have hcond : ((pl - L : Nat) : Int) + ((pieceOf content pl j).length : Nat) = (pl : Int) := by omega
    simp only [writePieceData, hd, e, writeAt]
    rw [if_pos (by simp), if_neg (Int.not_lt.2 (Int.natCast_nonneg _)), if_neg hnn]
    simp only [hcond, if_true]
    exact ⟨_, rfl, rfl⟩
  obtain ⟨w2, hw2, hset⟩ := hw2
  obtain ⟨r, a0, a1, a2, a3⟩ := At.start (sha1 := sha1) (t := t) (p0 := newPeer t) (disk := disk') rfl
  obtain ⟨r', es, ⟨W, hW, so⟩, hes⟩ := push_all ((List.range j).map (wholePiece content pl) ++
      [(pieceFrame j (pl - L) (pieceOf content pl j), pieceMsg j (pl - L) (pieceOf content pl j))]) r _ w2 _ _ a0 a1 a2 a3 (by
      intro x hx
      rcases List.mem_append.1 hx with hx | hx
      · obtain ⟨i, hi, rfl⟩ := List.mem_map.1 hx
        rw [List.mem_range] at hi
        obtain ⟨c1, c2, -⟩ := pieceMsg_ok i 0 (pieceOf content pl i) (by omega) (by omega)
        exact ⟨c1, c2, pieceMsg_accepted hc (by omega) (by omega) (by omega)⟩
      · rw [List.mem_singleton] at hx
        subst hx
        exact ⟨b1, b2, pieceMsg_accepted hc (by omega) (by omega) (by omega)⟩) (by
      rw [List.map_append, writePieces_append, f1]
      simp only [Res.bind, List.map_cons, List.map_nil, writePieces, hw2]) (by
      intro a x b oa he hoa
      have hal : a.length ≤ j := by
        have := congrArg List.length he
        simp at this; omega
      have ha := range_prefix he hal
      obtain ⟨wa, g1, _, g3, g4, _⟩ := first_pieces hr hc hw hdown hidx hk32 a.length (by omega)
      rw [← ha, hoa] at g1
      cases g1
      cases hall : oa.downloaded.all with
      | false => rfl
      | true =>
        rw [BitSet.all_iff] at hall
        have := (g4 _).1 (hall a.length (by rw [g3]; omega))
        omega)
  refine ⟨W, hW, ?_, ?_⟩
  · rw [so.out, BitSet.all_iff, hset]
    intro i hi
    have hl' : (w'.downloaded.set j).len = j + 1 := by
      simp only [BitSet.set]; rw [if_neg (by omega)]; exact f3
    rw [hl'] at hi
    have hbs : ∀ x, (w'.downloaded.set j).bit x = (w'.downloaded.bit x || x == j) := by
      intro x
      simp only [BitSet.set]
      by_cases hx : x = j <;> simp [hx]
    rw [hbs]
    by_cases hij : i = j
    · simp [hij]
    · have : w'.downloaded.bit i = true := by
        rw [f4]
        have : (i + 1) * pl ≤ j * pl := Nat.mul_le_mul_right _ (by omega)
        rw [Nat.add_mul] at this
        exact ⟨by omega, by omega⟩
      simp [this]
  · rw [so.out]
    intro he
    obtain ⟨⟨_, ho⟩, -, -⟩ := writeOne_bytes Faults.none t hr _ _ pl w' w2 hc.pieceLength b5 (fun h => by rw [hd] at h; cases h) (by rw [b3, b4]; omega)
      (by rw [writeOneF_none]; exact hw2)
    have h1 := ho (j * pl) (by rw [he]; omega)
    rcases h1 with h1 | ⟨pos, d, ⟨q1, _⟩, q2, _⟩
    · rw [he, f5 _ (by omega), if_neg (by rw [Nat.mul_div_cancel _ hp0]; omega)] at h1
      rw [h1] at hbyte
      apply hbyte
      rw [layout_zero (fun x hx => hz _ (extents_paths t x hx)), ← hc.size, List.getElem?_replicate, if_pos k1]
    · rw [b3, b4] at q1
      omega

theorem writePieceData_nil (t : Torrent) (pos : Int) (disk : Disk) : (writePieceData t [] pos disk).2 = disk := by
  unfold writePieceData
  split
  · cases t.osFiles with
    | nil => rfl
    | cons p ps => exact writeAt_nil disk p pos
  · cases h : findFile (t.files.zip t.osFiles) pos with
    | mk fs pos' =>
      cases fs with
      | nil => rfl
      | cons x xs => simp [writeLoop]

/-- What one correct piece at offset 0 does on a disk that may fail: a part of it is written, and the bit is set only if that part is
all of it. -/
theorem writeOneF_honest {sha1 : Bytes → Bytes} (fl : Faults) (t : Torrent) (h : Ready t) (content : Bytes) (pl : Nat) (hc : ContentOf sha1 t content pl)
    (m : PeerMessage) (w w' : Written) (hd : m.data = .ok (pieceOf content pl m.index)) (ho : m.offset = 0)
    (hi : m.index * pl < content.length) (hw : WithinLengths w.disk (extents t)) (he : writeOneF fl t w m = .ok w') :
    ∃ n, n ≤ (pieceOf content pl m.index).length ∧
      layout w'.disk (extents t) = splice (layout w.disk (extents t)) (m.index * pl) ((pieceOf content pl m.index).take n) ∧
      WithinLengths w'.disk (extents t) ∧
      (w'.downloaded = w.downloaded ∨
        n = (pieceOf content pl m.index).length ∧ n = pl ∧ w'.downloaded = w.downloaded.set m.index) := by
  have hb := hc.bound
  have hs := hc.size
  have hlen := pieceOf_length content pl m.index
  obtain ⟨d, h1, _, h3⟩ := writeOneF_cases he
  rw [hd] at h1
  cases h1
  rcases h3 with h3 | ⟨h3, n, h4, h5⟩
  · obtain ⟨w1, g1, g2, g3, _, g5⟩ := writeOne_honest t h content pl hc m w hd ho (by omega) hw
    rw [h3] at g1
    cases g1
    refine ⟨_, Nat.le_refl _, by rw [List.take_length]; exact g2, g3, ?_⟩
    split at g5
    · exact .inr ⟨rfl, by assumption, g5⟩
    · exact .inl g5
  · refine ⟨n, h4, ?_, ?_, .inl h3⟩
    all_goals
      have hp := writePlace (m := m) hc.pieceLength (by omega)
      rw [hp, ho, Nat.add_zero] at h5
      rw [h5]
      by_cases hz : (pieceOf content pl m.index).take n = []
      · rw [hz, writePieceData_nil]
        first | rw [splice_nil] | exact hw
      · have hl : ((pieceOf content pl m.index).take n).length = n := by rw [List.length_take]; omega
        obtain ⟨d', k1, k2, k3, _⟩ := C41_layout t h _ (m.index * pl) w.disk hw hz (by rw [hl]; omega)
        rw [k1]
        first | exact k2 | exact k3

/-- What holds of a disk on which only correct pieces were written, in part or whole. -/
structure Keeps (t : Torrent) (content : Bytes) (pl : Nat) (old : Bytes) (len : Nat) (w : Written) : Prop where
  within : WithinLengths w.disk (extents t)
  count : w.downloaded.len = len
  bytes : OldOrRight content old (layout w.disk (extents t))
  whole : ∀ j, w.downloaded.bit j = true → ∀ i, i < content.length → i / pl = j → (layout w.disk (extents t))[i]? = content[i]?

theorem keeps_one {sha1 : Bytes → Bytes} (fl : Faults) (t : Torrent) (h : Ready t) (content : Bytes) (pl : Nat) (hc : ContentOf sha1 t content pl)
    (old : Bytes) (len : Nat) (m : PeerMessage) (w w' : Written) (hd : m.data = .ok (pieceOf content pl m.index)) (ho : m.offset = 0)
    (hi : m.index * pl < content.length) (hl : m.index < len) (hk : Keeps t content pl old len w) (he : writeOneF fl t w m = .ok w') :
    Keeps t content pl old len w' := by
  obtain ⟨n, h1, h2, h3, h4⟩ := writeOneF_honest fl t h content pl hc m w w' hd ho hi hk.within he
  have hs := hc.size
  have hlen := pieceOf_length content pl m.index
  have hnl : ((pieceOf content pl m.index).take n).length = n := by rw [List.length_take]; omega
  have hbyte : ∀ i : Nat, (layout w'.disk (extents t))[i]? =
      if m.index * pl ≤ i ∧ i < m.index * pl + n then content[i]? else (layout w.disk (extents t))[i]? := by
    intro i
    rw [h2, getElem?_splice _ _ _ (by rw [layout_length, hnl]; omega), hnl]
    by_cases c1 : i < m.index * pl
    · rw [if_pos c1, if_neg (by omega)]
    · rw [if_neg c1]
      by_cases c2 : i < m.index * pl + n
      · rw [if_pos c2, if_pos (by omega), List.getElem?_take, if_pos (by omega), pieceOf_get _ _ _ _ (by omega)]
        congr 1; omega
      · rw [if_neg c2, if_neg (by omega)]
  have hkeep : ∀ i : Nat, (layout w.disk (extents t))[i]? = content[i]? → (layout w'.disk (extents t))[i]? = content[i]? := by
    intro i hx
    rw [hbyte]; split
    · rfl
    · exact hx
  refine ⟨h3, ?_, ⟨by rw [layout_length, ← hs], ?_⟩, ?_⟩
  · rcases h4 with e | ⟨_, _, e⟩
    · rw [e]; exact hk.count
    · rw [e, ← hk.count]
      simp only [BitSet.set]
      rw [if_neg (by rw [hk.count]; omega)]
  · intro i hil
    rw [hbyte]
    split
    · exact .inr rfl
    · exact hk.bytes.2 i hil
  · intro j hj i hil hij
    rcases h4 with e | ⟨e1, e2, e⟩
    · exact hkeep i (hk.whole j (by rw [← e]; exact hj) i hil hij)
    · by_cases c : j = m.index
      · have g1 := Nat.div_mul_le_self i pl
        have g2 : i < i / pl * pl + pl := by
          have := Nat.div_add_mod i pl
          have := Nat.mod_lt i hc.positive
          rw [Nat.mul_comm]; omega
        rw [hij, c] at g1 g2
        rw [hbyte, if_pos (by omega)]
      · refine hkeep i (hk.whole j ?_ i hil hij)
        rw [e] at hj
        simp only [BitSet.set, if_neg c] at hj
        exact hj

theorem keeps_all {sha1 : Bytes → Bytes} (t : Torrent) (h : Ready t) (content : Bytes) (pl : Nat) (hc : ContentOf sha1 t content pl)
    (old : Bytes) (len : Nat) : ∀ (l : List (PeerMessage × Faults)) (w w' : Written),
    (∀ m ∈ l.map (·.1), m.data = .ok (pieceOf content pl m.index) ∧ m.offset = 0 ∧ m.index < len ∧ m.index * pl < content.length) →
    Keeps t content pl old len w → writePiecesF t l w = .ok w' → Keeps t content pl old len w'
  | [], w, w', _, hk, he => by cases he; exact hk
  | m :: l, w, w', hm, hk, he => by
    unfold writePiecesF at he
    cases h1 : writeOneF m.2 t w m.1 with
    | err e => rw [h1] at he; cases he
    | panic e => rw [h1] at he; cases he
    | ok w1 =>
      rw [h1] at he
      obtain ⟨a1, a2, a3, a4⟩ := hm m.1 (by simp)
      exact keeps_all t h content pl hc old len l w1 w' (fun x hx => hm x (by rw [List.map_cons]; exact List.mem_cons_of_mem _ hx))
        (keeps_one m.2 t h content pl hc old len m.1 w w1 a1 a2 a4 a3 hk h1) he

/-- A download in which no peer sends a block with an offset or finds a block with the hash of a piece and other bytes: every byte is
zero or right, and the pieces whose bits are set are on the disk, whatever writes have failed. -/
theorem world_keeps (sha1 : Bytes → Bytes) (os : Os) (mi : Metainfo) (root : Bytes) (disk disk' : Disk) (t : Torrent)
    (hn : newTorrent sha1 os mi root disk = (.ok t, disk')) (hs : Sensible mi) (content : Bytes) (pl : Nat)
    (hc : ContentOf sha1 t content pl) (hne : content ≠ []) (hsz : content.length ≤ 2 ^ 51) (hpl : pl ≤ 2 ^ 53)
    (hcount : t.pieces.length * pl < content.length + pl) (p0 : Peer) (W : World) (hW : World.Reachable sha1 t p0 disk' W)
    (hbegin : ∀ i f index b d, (i, RunEv.received f) ∈ W.trace → hear f = .piece index b d → b = 0)
    (hcoll : ∀ i f index b d, (i, RunEv.received f) ∈ W.trace → hear f = .piece index b d → sha1 d = sha1 (pieceOf content pl index) →
      d = pieceOf content pl index) :
    Keeps t content pl (List.replicate content.length 0) t.downloaded.len W.out ∧ ∀ i, i * pl < content.length → i < t.downloaded.len := by
  obtain ⟨hr, hw, htot, hz⟩ := C41_reachable _ _ _ _ _ _ _ hn hs
  obtain ⟨k, k0, hdown, k1, k2, hidx⟩ := new_count hn hs hc hne hsz hpl
  have hp0 := hc.positive
  obtain ⟨h1, _, l, hl, h3⟩ := world_carried hW
  have hgood : ∀ m ∈ W.written, m.data = .ok (pieceOf content pl m.index) ∧ m.offset = 0 ∧ m.index < t.downloaded.len ∧
      m.index * pl < content.length := by
    intro m hm
    obtain ⟨i, f, g1, g2, g3, g4⟩ := h1 m (.inr (.inr hm))
    obtain ⟨d, e1, e2, _⟩ := piece_heard g2 g3
    obtain ⟨_, d', p, q1, q2, q3⟩ := accept_inv g4
    rw [e2] at q1
    cases q1
    have hlt : m.index < t.pieces.length := (List.getElem?_eq_some_iff.1 q2).1
    have hin : m.index * pl < content.length := by
      have : (m.index + 1) * pl ≤ t.pieces.length * pl := Nat.mul_le_mul_right _ hlt
      rw [Nat.add_mul] at this
      omega
    refine ⟨?_, hbegin _ _ _ _ _ g1 e1, ?_, hin⟩
    · rw [e2, hcoll _ _ _ _ _ g1 e1]
      rw [← (hc.hashes _ _ q2).2]
      exact q3.symm
    · rw [hdown]; exact (hidx _).1 hin
  have hl0 : layout disk' (extents t) = List.replicate content.length 0 := by
    rw [layout_zero (fun x hx => hz _ (extents_paths t x hx)), ← hc.size]
  refine ⟨keeps_all t hr content pl hc _ _ l _ _ (fun m hm => hgood m (hl ▸ hm)) ⟨hw, rfl, ?_, ?_⟩ h3, ?_⟩
  · simp only [hl0]
    exact ⟨by simp, fun _ _ => .inl rfl⟩
  · intro j hj
    simp only [hdown, BitSet.new] at hj
    cases hj
  · intro i hi
    rw [hdown]; exact (hidx i).1 hi

/-- C79, what holds: if no peer sends a block with an offset, and no peer finds a block with the hash of a piece and other bytes, and
the metainfo lists no more hashes than the content has pieces, then at every time every byte is zero or right, and when the torrent
counts as done the files hold the content. -/
theorem C79_done_partial (sha1 : Bytes → Bytes) (os : Os) (mi : Metainfo) (root : Bytes) (disk disk' : Disk) (t : Torrent)
    (hn : newTorrent sha1 os mi root disk = (.ok t, disk')) (hs : Sensible mi) (content : Bytes) (pl : Nat)
    (hc : ContentOf sha1 t content pl) (hne : content ≠ []) (hsz : content.length ≤ 2 ^ 51) (hpl : pl ≤ 2 ^ 53)
    (hcount : t.pieces.length * pl < content.length + pl) (p0 : Peer) (W : World) (hW : World.Reachable sha1 t p0 disk' W)
    (hbegin : ∀ i f index b d, (i, RunEv.received f) ∈ W.trace → hear f = .piece index b d → b = 0)
    (hcoll : ∀ i f index b d, (i, RunEv.received f) ∈ W.trace → hear f = .piece index b d → sha1 d = sha1 (pieceOf content pl index) →
      d = pieceOf content pl index) :
    OldOrRight content (List.replicate content.length 0) (layout W.out.disk (extents t)) ∧
    (W.out.downloaded.all = true → layout W.out.disk (extents t) = content) := by
  obtain ⟨hk, hidx⟩ := world_keeps sha1 os mi root disk disk' t hn hs content pl hc hne hsz hpl hcount p0 W hW hbegin hcoll
  refine ⟨hk.bytes, ?_⟩
  intro hall
  rw [BitSet.all_iff] at hall
  have hlen := hk.bytes.1
  apply List.ext_getElem?
  intro i
  rcases Nat.lt_or_ge i content.length with h | h
  · refine hk.whole (i / pl) (hall _ ?_) i h rfl
    rw [hk.count]
    apply hidx
    have := Nat.div_mul_le_self i pl
    omega
  · rw [List.getElem?_eq_none h, List.getElem?_eq_none]
    omega

/-! ## Downloads that exist -/

/-- One file of `n` bytes in `k` pieces of 4, under a hash function that is constant. -/
def fewBytes (n : Int) (k : Nat) : Metainfo := { oneFile (ascii "n") with infoLength := n, pieces := List.replicate (20 * k) 1 }

theorem fewBytes_opens (n k : Nat) (hn : 0 < n) (hn2 : n ≤ 100) (hk : k ≤ 2) (content : Bytes) (hl : content.length = n) :
    ∃ t disk', newTorrent (fun _ => List.replicate 20 1) goodOs (fewBytes n k) (ascii "/r") (fun _ => []) = (.ok t, disk') ∧
      Sensible (fewBytes n k) ∧ ContentOf (fun _ => List.replicate 20 1) t content 4 ∧ t.pieces.length = k ∧ t.isDirectory = false := by
  have hne : ((n : Int) = 0) = False := by simp; omega
  obtain ⟨t, d', ht⟩ := newTorrent_succeeds (fun _ => List.replicate 20 1) goodOs (fewBytes n k) (ascii "/r") (fun _ => [])
    (by simp [fewBytes]) (by intro h; simp [fewBytes] at h; omega) (by simp [goodOs]) (by simp [goodOs])
  have hs : Sensible (fewBytes n k) := ⟨fun _ => by simp [fewBytes]; omega, fun h => by simp [fewBytes] at h; omega⟩
  obtain ⟨_, _, htot, _⟩ := C41_reachable _ _ _ _ _ _ _ ht hs
  obtain ⟨e0, _, hdir, _, e1, e2, -⟩ := newTorrent_ok ht
  have hlen : t.length = n := by
    rw [e1]
    simp [torrentLength, fewBytes]
    omega
  have hpieces : t.pieces = (List.range k).map (fun i => ⟨i, List.replicate 20 1⟩) := by
    have : newPieces (fewBytes n k).pieces = .ok ((List.range k).map (fun i => ⟨i, List.replicate 20 1⟩)) := by
      have : k = 0 ∨ k = 1 ∨ k = 2 := by omega
      rcases this with rfl | rfl | rfl <;> (simp only [fewBytes]; decide)
    rw [this] at e0; simpa using e0.symm
  refine ⟨t, d', ht, hs, ?_, by rw [hpieces]; simp, by rw [hdir]; simp [fewBytes]; omega⟩
  exact
    { pieceLength := by rw [e2]; rfl
      positive := by omega
      size := by omega
      bound := by omega
      hashes := by
        intro i p hp
        rw [hpieces] at hp
        simp only [List.getElem?_map, Option.map_eq_some_iff] at hp
        obtain ⟨j, hj, rfl⟩ := hp
        have := (List.getElem?_eq_some_iff.1 hj).1
        rw [List.length_range] at this
        exact ⟨by omega, rfl⟩ }

/-- C78: eight bytes in two pieces, pushed by one peer. -/
example : ∃ t disk' W, World.Reachable (fun _ => List.replicate 20 1) t (newPeer t) disk' W ∧ W.out.downloaded.all = true ∧
    layout W.out.disk (extents t) = [1, 2, 3, 4, 5, 6, 7, 8] := by
  obtain ⟨t, d', h1, h2, h3, h4, _⟩ := fewBytes_opens 8 2 (by omega) (by omega) (by omega) [1, 2, 3, 4, 5, 6, 7, 8] rfl
  obtain ⟨W, g1, g2, g3, _⟩ := C78_pushed_partial _ _ _ _ _ _ _ h1 h2 _ 4 h3 (by simp) (by simp) (by omega) (by rw [h4]; decide) (by omega)
    (by simp)
  exact ⟨t, d', W, g1, g2, g3⟩

/-- C76 and C79: the torrent of five bytes counts as done with a wrong byte; still each byte is zero or verified. -/
example : ∃ t disk' W, World.Reachable (fun _ => List.replicate 20 1) t (newPeer t) disk' W ∧ W.out.downloaded.all = true ∧
    layout W.out.disk (extents t) ≠ [1, 2, 3, 4, 5] ∧
    OldOrFrom (Checked (fun _ => List.replicate 20 1) t 4 W.trace) (List.replicate (total (extents t)) 0) (layout W.out.disk (extents t)) := by
  obtain ⟨t, d', h1, h2, h3, h4, h5⟩ := fewBytes_opens 5 2 (by omega) (by omega) (by omega) [1, 2, 3, 4, 5] rfl
  obtain ⟨W, g1, g2, g3⟩ := C79_violated _ _ _ _ _ _ _ h1 h2 _ 4 h3 (by simp) (by simp) (by omega) (by rw [h4]; decide) (by omega) h5
    (by simp) (by simp)
  exact ⟨t, d', W, g1, g2, g3, (C76_verified _ _ _ _ _ _ _ h1 h2 4 h3.pieceLength (by omega) _ W g1).1⟩

/-- A peer whose `Run` would ask for pieces; `NewPeer` does not make one. -/
def asker (t : Torrent) : Peer := { newPeer t with clientChoked := false, clientInterested := true, blockNum := 0, bitset := ((BitSet.new 2).set 0).set 1 }

/-- `Run` of peer `i` goes on without an effect on the others. -/
theorem world_silent {sha1 : Bytes → Bytes} {t : Torrent} {p0 : Peer} {disk : Disk} {W : World} {i q : Nat} {r r' : Run}
    (hW : World.Reachable sha1 t p0 disk W) (ha : W.alive) (hi : W.peers[i]? = some (q, r)) (st : Run.Step sha1 t (r.sync W) r')
    (hl : r'.log = r.log) (hp : r'.loc ≠ .panicked) :
    World.Reachable sha1 t p0 disk { W with peers := W.peers.set i (q, r') } ∧ World.alive { W with peers := W.peers.set i (q, r') } ∧
      (W.peers.set i (q, r'))[i]? = some (q, r') := by
  have h := hW.step (.peer ha hi st (es := []) (by simpa using hl) .nil)
  simp only [List.map_nil, List.append_nil] at h
  refine ⟨h, ⟨ha.1, ?_⟩, ?_⟩
  · intro x hx
    rcases List.mem_or_eq_of_mem_set hx with h | h
    · exact ha.2 x h
    · rw [h]; exact hp
  · rw [List.getElem?_set_self (List.getElem?_eq_some_iff.1 hi).1]

/-- `Run` of a new peer gets to its first request. -/
theorem world_ask {sha1 : Bytes → Bytes} {t : Torrent} {disk : Disk} {W : World} {i q j : Nat} {s' : BitSet}
    (hW : World.Reachable sha1 t (asker t) disk W) (ha : W.alive) (hi : W.peers[i]? = some (q, Run.start (asker t)))
    (hc : W.cancelled = false) (hd : W.out.downloaded.all = false)
    (hn : nextMethod.Runs (asker t).bitset (nextMethod.start (asker t).bitset) W.requested s' (some j)) :
    ∃ W' r', World.Reachable sha1 t (asker t) disk W' ∧ W'.alive ∧ W'.peers = W.peers.set i (q, r') ∧ W'.requested = s' ∧
      piecesGiven W'.trace = piecesGiven W.trace ++ [j] ∧ W'.cancelled = false ∧ W'.out = W.out := by
  obtain ⟨a1, b1, c1⟩ := world_silent hW ha hi (.ctxOk rfl hc) rfl (by simp [Run.goto])
  obtain ⟨a2, b2, c2⟩ := world_silent a1 b1 c1 (.notDone rfl hd) rfl (by simp [Run.goto])
  obtain ⟨a3, b3, c3⟩ := world_silent a2 b2 c2 (.notDue rfl) rfl (by simp [Run.goto])
  obtain ⟨a4, b4, c4⟩ := world_silent a3 b3 c3 (.unchoked rfl rfl) rfl (by simp [Run.goto])
  have h5 := a4.step (.peer b4 c4 (.next none (some j) rfl rfl rfl rfl (fun _ h => nomatch h)) rfl (.cons (.next hn) (.cons .created .nil)))
  simp only [List.set_set] at h5 b4
  refine ⟨_, _, h5, ⟨b4.1, ?_⟩, rfl, rfl, by rw [piecesGiven_append]; rfl, hc, rfl⟩
  intro x hx
  rcases List.mem_or_eq_of_mem_set hx with h | h
  · exact ha.2 x h
  · rw [h]
    intro e
    cases e

/-- C77: two peers are given the two pieces. -/
example : ∃ t disk' W, World.Reachable (fun _ => List.replicate 20 1) t (asker t) disk' W ∧ W.peers.length = 2 ∧
    piecesGiven W.trace = [0, 1] := by
  obtain ⟨t, d', h1, h2, h3, h4, h5⟩ := fewBytes_opens 5 2 (by omega) (by omega) (by omega) [1, 2, 3, 4, 5] rfl
  obtain ⟨_, _, _, _, _, _, hp, _, _, _, hreq, hdown, _⟩ := newTorrent_ok h1
  have hpn : t.requested = BitSet.new 2 := by
    obtain ⟨k, k0, hk, k1, k2, _⟩ := new_count h1 h2 h3 (by simp) (by simp) (by omega)
    have : k = 2 := by simp at k1 k2; omega
    rw [hreq, ← hdown, hk, this]
  have hall : t.downloaded.all = false := by rw [hdown, ← hreq, hpn]; rfl
  have r0 := World.Reachable.start (sha1 := fun _ => List.replicate 20 1) (t := t) (p0 := asker t) (disk := d')
  have r1 := r0.step (.spawn 0 ⟨rfl, (fun x hx => by cases hx)⟩)
  have al : ∀ W : World, W.dead = false → W.peers = [(0, Run.start (asker t))] → W.alive := by
    intro W h0 hW
    refine ⟨h0, ?_⟩
    intro x hx
    rw [hW, List.mem_singleton] at hx
    rw [hx]
    intro e
    cases e
  have r2 := r1.step (.spawn 0 (al _ rfl rfl))
  have al2 : World.alive { World.start t d' with peers := [(0, Run.start (asker t)), (0, Run.start (asker t))] } := by
    refine ⟨rfl, ?_⟩
    intro x hx
    have : x = (0, Run.start (asker t)) := by simpa using hx
    rw [this]
    intro e
    cases e
  obtain ⟨W3, r', a, b, c, d, e, f, g⟩ := world_ask (i := 0) (q := 0) (j := 0) (s' := t.requested.set 0) r2 al2 rfl rfl hall
    (by
      show nextMethod.Runs _ _ t.requested _ _
      rw [hpn]
      exact .work (l' := .test 0) (by rfl) (.work (l' := .mark 0) (by rfl) (.last rfl)))
  obtain ⟨W4, r'', a', b', c', d', e', -⟩ := world_ask (i := 1) (q := 0) (j := 1) (s' := (t.requested.set 0).set 1) a b (by rw [c]; rfl) f
    (by rw [g]; exact hall)
    (by
      rw [d, hpn]
      exact .work (l' := .test 1) (by rfl) (.work (l' := .mark 1) (by rfl) (.last rfl)))
  exact ⟨t, _, W4, a', by rw [c', c]; rfl, by rw [e', e]; rfl⟩

end Gotit.Props
