import Verif.Spec.Stats
import Verif.Lemmas.Round
import Verif.Props.Writer
import Verif.Props.Requests
/-
  C58-C60: statistics and the progress bar.
-/
namespace Gotit.Props
open Gotit Gotit.Spec

/-! ## C58 -/

/-- What a list of additions adds to a counter. -/
def delta (r : StatReg) (as : List (StatReg × Nat)) : Nat := (as.map (fun a => if a.1 = r then a.2 else 0)).sum

def deltas (r : StatReg) (ps : List (List (StatReg × Nat))) : Nat := (ps.map (delta r)).sum

theorem deltas_append (r : StatReg) (a b) : deltas r (a ++ b) = deltas r a + deltas r b := by simp [deltas]

theorem get_add (s : Stats) (r r' : StatReg) (d : Nat) : (s.add r d).get r' = if r = r' then (s.get r' + d) % 2 ^ 64 else s.get r' := by
  cases r <;> cases r' <;> rfl

/-- Every counter, plus what the calls in progress will still add, is the initial value plus what all calls add. -/
theorem stat_inv {size : Nat} {σ : StatSys} (h : StatSys.Reachable size σ) (r : StatReg) :
    (σ.stats.get r + deltas r σ.pending) % 2 ^ 64 = ((newStats size).get r + deltas r (σ.calls.map StatOp.atoms)) % 2 ^ 64 := by
  induction h with
  | init => rfl
  | step _ st ih =>
    cases st with
    | call op =>
      simp only [List.map_append, deltas_append, List.map_cons, List.map_nil]
      omega
    | @atom a r' d rest b e =>
      simp only
      rw [e, deltas_append] at ih
      rw [deltas_append, get_add]
      have e1 : deltas r (((r', d) :: rest) :: b) = (if r' = r then d else 0) + deltas r (rest :: b) := by
        simp only [deltas, delta, List.map_cons, List.sum_cons]; omega
      rw [e1] at ih
      split
      · rename_i c; rw [if_pos c] at ih; omega
      · rename_i c; rw [if_neg c] at ih; omega

theorem stat_bound {size : Nat} {σ : StatSys} (hs : size < 2 ^ 64) (h : StatSys.Reachable size σ) (r : StatReg) :
    σ.stats.get r < 2 ^ 64 ∧ σ.stats.torrentSize = size := by
  induction h with
  | init => cases r <;> simp [newStats, Stats.get, hs]
  | step _ st ih =>
    cases st with
    | call op => exact ih
    | @atom a r' d rest b e =>
      refine ⟨?_, ?_⟩
      · simp only [get_add]; split
        · exact Nat.mod_lt _ (by omega)
        · exact ih.1
      · cases r' <;> exact ih.2

theorem deltas_quiet {σ : StatSys} (h : σ.quiet) (r : StatReg) : deltas r σ.pending = 0 := by
  unfold StatSys.quiet at h
  generalize σ.pending = ps at h
  induction ps with
  | nil => rfl
  | cons p ps ih =>
    have : p = [] := h p (by simp)
    subst this
    have := ih (fun q hq => h q (by simp [hq]))
    simpa [deltas, delta] using this

theorem deltas_calls (calls : List StatOp) :
    deltas .download (calls.map StatOp.atoms) % 2 ^ 64 = downloadedBy calls % 2 ^ 64 ∧
    deltas .upload (calls.map StatOp.atoms) % 2 ^ 64 = uploadedBy calls % 2 ^ 64 ∧
    (deltas .left (calls.map StatOp.atoms) + downloadedBy calls) % 2 ^ 64 = 0 ∧
    ((deltas .peerNum (calls.map StatOp.atoms) : Int) - peersBy calls) % 2 ^ 64 = 0 ∧
    ((deltas .trackerNum (calls.map StatOp.atoms) : Int) - trackersBy calls) % 2 ^ 64 = 0 := by
  induction calls with
  | nil => refine ⟨rfl, rfl, rfl, rfl, rfl⟩
  | cons op calls ih =>
    obtain ⟨h1, h2, h3, h4, h5⟩ := ih
    have c : ∀ r, deltas r ((op :: calls).map StatOp.atoms) = delta r op.atoms + deltas r (calls.map StatOp.atoms) := by
      intro r; simp [deltas]
    rw [c, c, c, c, c]
    simp only [downloadedBy, uploadedBy, peersBy, trackersBy, List.map_cons, List.sum_cons] at h1 h2 h3 h4 h5 ⊢
    cases op <;> simp only [StatOp.atoms, delta, List.map_cons, List.map_nil, List.sum_cons, List.sum_nil, reduceCtorEq, if_false, if_true] <;>
      refine ⟨?_, ?_, ?_, ?_, ?_⟩ <;> omega

/-- C58: for every interleaving, once all calls have returned the counters are what the calls say. -/
theorem C58_counters (size : Nat) (hs : size < 2 ^ 64) (σ : StatSys) (h : StatSys.Reachable size σ) (hq : σ.quiet) :
    σ.stats.download = downloadedBy σ.calls % 2 ^ 64 ∧ σ.stats.upload = uploadedBy σ.calls % 2 ^ 64 ∧
    (σ.stats.left : Int) = ((size : Int) - downloadedBy σ.calls) % 2 ^ 64 ∧
    (σ.stats.peerNum : Int) = peersBy σ.calls % 2 ^ 64 ∧ (σ.stats.trackerNum : Int) = trackersBy σ.calls % 2 ^ 64 := by
  obtain ⟨c1, c2, c3, c4, c5⟩ := deltas_calls σ.calls
  have inv := fun r => stat_inv h r
  have bd := fun r => (stat_bound hs h r).1
  have q := fun r => deltas_quiet hq r
  have i1 := inv .download
  have i2 := inv .upload
  have i3 := inv .left
  have i4 := inv .peerNum
  have i5 := inv .trackerNum
  have b1 := bd .download
  have b2 := bd .upload
  have b3 := bd .left
  have b4 := bd .peerNum
  have b5 := bd .trackerNum
  rw [q] at i1 i2 i3 i4 i5
  simp only [Stats.get, newStats] at i1 i2 i3 i4 i5 b1 b2 b3 b4 b5
  refine ⟨?_, ?_, ?_, ?_, ?_⟩ <;> omega

/-- C58: the sum of `Download()` and `Left()` is the torrent size once all calls have returned, modulo 2^64. -/
theorem C58_sum (size : Nat) (hs : size < 2 ^ 64) (σ : StatSys) (h : StatSys.Reachable size σ) (hq : σ.quiet) :
    (σ.stats.download + σ.stats.left) % 2 ^ 64 = size := by
  obtain ⟨h1, _, h3, _, _⟩ := C58_counters size hs σ h hq
  omega

/-- Two overlapping downloads and a peer, interleaved. -/
example : ∃ σ, StatSys.Reachable 100 σ ∧ σ.quiet ∧ σ.stats.download = 30 ∧ σ.stats.left = 70 ∧ σ.stats.peerNum = 1 ∧ σ.calls.length = 3 := by
  have h0 := StatSys.Reachable.init (size := 100)
  have h1 := h0.step (.call (.addDownload 10))
  have h2 := h1.step (.call (.addDownload 20))
  have h3 := h2.step (.atom (a := [_]) (b := []) rfl)
  have h4 := h3.step (.call .addPeer)
  have h5 := h4.step (.atom (a := []) (b := [_, _]) rfl)
  have h6 := h5.step (.atom (a := []) (b := [_, _]) rfl)
  have h7 := h6.step (.atom (a := [_, _]) (b := []) rfl)
  have h8 := h7.step (.atom (a := [_]) (b := [_]) rfl)
  refine ⟨_, h8, ?_, rfl, rfl, rfl, rfl⟩
  intro p hp
  simp at hp
  exact hp

/-! ## C59 -/

/-- What an addition of `d` takes away, modulo 2^64. -/
def back (d : Nat) : Nat := (2 ^ 64 - d % 2 ^ 64) % 2 ^ 64

def backs (ps : List (List (StatReg × Nat))) : Nat := (ps.map (fun as => (as.map (fun a => if a.1 = .left then back a.2 else 0)).sum)).sum

theorem backs_append (a b) : backs (a ++ b) = backs a + backs b := by simp [backs]

theorem backs_atoms (op : StatOp) : backs [op.atoms] ≤ downloadedBy [op] := by
  cases op <;> simp [backs, StatOp.atoms, downloadedBy, back]
  omega

theorem downloadedBy_append (a b) : downloadedBy (a ++ b) = downloadedBy a + downloadedBy b := by simp [downloadedBy]

/-- C59, proved while no more bytes are reported than the torrent has: at every moment, also in the middle of calls, `Left()` is
at most the torrent size. -/
theorem C59_left_partial (size : Nat) (hs : size < 2 ^ 64) (σ : StatSys) (h : StatSys.Reachable size σ) (hd : downloadedBy σ.calls ≤ size) :
    σ.stats.left ≤ size := by
  suffices hh : ∃ D, σ.stats.left + D = size ∧ D + backs σ.pending ≤ downloadedBy σ.calls by
    obtain ⟨D, h1, _⟩ := hh; omega
  induction h with
  | init => exact ⟨0, rfl, Nat.le_refl _⟩
  | step _ st ih =>
    cases st with
    | call op =>
      simp only [downloadedBy_append] at hd
      obtain ⟨D, h1, h2⟩ := ih (by omega)
      refine ⟨D, h1, ?_⟩
      simp only [downloadedBy_append, backs_append]
      have := backs_atoms op
      omega
    | @atom a r' d rest b e =>
      obtain ⟨D, h1, h2⟩ := ih hd
      rw [e, backs_append] at h2
      have e1 : backs (((r', d) :: rest) :: b) = (if r' = .left then back d else 0) + backs (rest :: b) := by
        simp only [backs, List.map_cons, List.sum_cons]; omega
      rw [e1] at h2
      cases r' with
      | left =>
        simp only [if_true, back] at h2
        refine ⟨D + back d, ?_, ?_⟩
        · simp only [Stats.add, back]
          simp only at hd
          omega
        · simp only [backs_append, back]; omega
      | _ =>
        refine ⟨D, h1, ?_⟩
        simp only [reduceCtorEq, if_false] at h2
        simp only [backs_append]; omega

/-- C59 is false of the code: as soon as more bytes have been reported than the torrent has (but fewer than 2^64 in all) and all
calls have returned, `Left()` exceeds the size. -/
theorem C59_overrun_violated (size : Nat) (σ : StatSys) (h : StatSys.Reachable size σ) (hq : σ.quiet)
    (hd : size < downloadedBy σ.calls) (hd2 : downloadedBy σ.calls < 2 ^ 64) : size < σ.stats.left := by
  obtain ⟨_, _, h3, _, _⟩ := C58_counters size (by omega) σ h hq
  omega

/-- The number of data bytes of a message. -/
def dataLength (m : PeerMessage) : Nat := match m.data with | .ok d => d.length | _ => 0

/-- The `AddDownload` calls the writer makes for a list of messages. -/
def reported (ms : List PeerMessage) : List StatOp := ms.map (fun m => .addDownload (dataLength m))

/-- The writer reports every message, whether or not it can be written. -/
theorem writer_reports (t : Torrent) (ms : List PeerMessage) (w w' : Written) (hw : w.added < 2 ^ 64) (h : writePieces t ms w = .ok w') :
    w'.added = (w.added + downloadedBy (reported ms)) % 2 ^ 64 := by
  induction ms generalizing w with
  | nil => simp only [writePieces, Res.ok.injEq] at h; subst h; simp [reported, downloadedBy]; omega
  | cons m ms ih =>
    unfold writePieces at h
    cases h1 : writeOne t w m with
    | ok w1 =>
      rw [h1] at h
      have : w1.added = (w.added + dataLength m) % 2 ^ 64 := by
        unfold writeOne at h1
        cases hd : m.data with
        | ok d =>
          rw [hd] at h1
          simp only at h1
          have e : dataLength m = d.length := by simp [dataLength, hd]
          rw [e]
          split at h1
          · split at h1 <;> (simp only [Res.ok.injEq] at h1; subst h1; rfl)
          · simp only [Res.ok.injEq] at h1; subst h1; rfl
          · simp at h1
        | err e => rw [hd] at h1; simp at h1
        | panic e => rw [hd] at h1; simp at h1
      have h2 := ih w1 (by rw [this]; exact Nat.mod_lt _ (by omega)) h
      rw [h2, this]
      simp only [reported, downloadedBy, List.map_cons, List.sum_cons, List.map_map]
      omega
    | err e => rw [h1] at h; simp [Res.bind] at h
    | panic e => rw [h1] at h; simp [Res.bind] at h

/-- Any list of calls can be made one after the other. -/
theorem calls_reachable (size : Nat) (calls : List StatOp) : ∃ σ, StatSys.Reachable size σ ∧ σ.quiet ∧ σ.calls = calls := by
  induction calls using snoc_induction with
  | h0 => exact ⟨_, .init, (fun p hp => nomatch hp), rfl⟩
  | h1 calls op ih =>
    obtain ⟨σ, r, q, e⟩ := ih
    have drain : ∀ (as : List (StatReg × Nat)) (σ' : StatSys), StatSys.Reachable size σ' → σ'.pending = σ.pending ++ [as] →
        ∃ σ'', StatSys.Reachable size σ'' ∧ σ''.quiet ∧ σ''.calls = σ'.calls := by
      intro as
      induction as with
      | nil =>
        intro σ' r' e'
        refine ⟨σ', r', ?_, rfl⟩
        intro p hp
        rw [e'] at hp
        rcases List.mem_append.1 hp with hp | hp
        · exact q p hp
        · simpa using hp
      | cons a as ih =>
        intro σ' r' e'
        obtain ⟨σ'', h1, h2, h3⟩ := ih _ (r'.step (.atom (a := σ.pending) (b := []) e')) rfl
        exact ⟨σ'', h1, h2, h3⟩
    obtain ⟨σ', h1, h2, h3⟩ := drain op.atoms _ (r.step (.call op)) rfl
    exact ⟨σ', h1, h2, by rw [h3]; simp [e]⟩

/-- C59 is false of the code, concretely: the correct pieces of a torrent of five bytes, one of them received twice, are all
accepted and written, and afterwards `Left()` is 2^64 - 2. -/
theorem C59_violated : ∃ (ms : List PeerMessage) (w' : Written), (∀ m ∈ ms, acceptPiece tinySha tiny m = .ok (some m) ∧
      m.data = .ok (pieceOf tinyContent 2 m.index) ∧ m.offset = 0) ∧
    writePieces tiny ms ⟨fun _ => [], tiny.downloaded, 0⟩ = .ok w' ∧
    ∀ σ, StatSys.Reachable 5 σ → σ.quiet → σ.calls = reported ms → σ.stats.left = 2 ^ 64 - 2 := by
  let mk : Nat → PeerMessage := fun i => { len := 11, type := pieceType, payload := putBE 4 i ++ putBE 4 0 ++ pieceOf tinyContent 2 i, index := i }
  have hm : ∀ m ∈ [mk 0, mk 1, mk 2, mk 0], acceptPiece tinySha tiny m = .ok (some m) ∧
      m.data = .ok (pieceOf tinyContent 2 m.index) ∧ m.offset = 0 := by
    intro m hm
    simp only [List.mem_cons, List.not_mem_nil, or_false] at hm
    rcases hm with rfl | rfl | rfl | rfl <;> exact ⟨by decide, by decide, rfl⟩
  obtain ⟨w', h1, _⟩ := C43_verified_partial tinySha tiny tiny_ready tinyContent 2 tiny_content [mk 0, mk 1, mk 2, mk 0]
    ⟨fun _ => [], tiny.downloaded, 0⟩ (by intro x hx; simp) (fun m h => (hm m h).1) (fun m h => (hm m h).2.2) (by
      intro m h d hd _
      have := (hm m h).2.1
      rw [hd] at this
      simpa using this)
  refine ⟨_, w', hm, h1, ?_⟩
  intro σ hr hq hc
  obtain ⟨_, _, h3, _, _⟩ := C58_counters 5 (by omega) σ hr hq
  rw [hc] at h3
  have : downloadedBy (reported [mk 0, mk 1, mk 2, mk 0]) = 7 := by decide
  rw [this] at h3
  omega

theorem pieces_sum (content : Bytes) (pl : Nat) (n : Nat) :
    ((List.range n).map (fun i => (pieceOf content pl i).length)).sum ≤ content.length ∧
    ((List.range n).map (fun i => (pieceOf content pl i).length)).sum ≤ n * pl := by
  induction n with
  | zero => simp
  | succ n ih =>
    rw [List.range_succ, List.map_append, List.sum_append]
    simp only [List.map_cons, List.map_nil, List.sum_cons, List.sum_nil, pieceOf, List.length_take, List.length_drop] at ih ⊢
    have : (n + 1) * pl = n * pl + pl := by rw [Nat.add_mul, Nat.one_mul]
    omega

theorem sum_nodup (f : Nat → Nat) (n : Nat) : ∀ l : List Nat, l.Nodup → (∀ i ∈ l, i < n) → (l.map f).sum ≤ ((List.range n).map f).sum := by
  induction n with
  | zero =>
    intro l _ h
    cases l with
    | nil => simp
    | cons a l => have := h a (by simp); omega
  | succ n ih =>
    intro l hn h
    rw [List.range_succ, List.map_append, List.sum_append]
    by_cases hm : n ∈ l
    · obtain ⟨a, b, rfl⟩ := List.append_of_mem hm
      have h1 := ih (a ++ b) (by
          rw [List.nodup_append] at hn ⊢
          refine ⟨hn.1, (List.nodup_cons.1 hn.2.1).2, fun x hx y hy => hn.2.2 x hx y (by simp [hy])⟩) (by
          intro i hi
          have h2 := h i (by
            rcases List.mem_append.1 hi with hi | hi
            · simp [hi]
            · simp [hi])
          have : i ≠ n := by
            rintro rfl
            rw [List.nodup_append] at hn
            rcases List.mem_append.1 hi with hi | hi
            · exact hn.2.2 i hi i (by simp) rfl
            · exact (List.nodup_cons.1 hn.2.1).1 hi
          omega)
      simp only [List.map_append, List.sum_append, List.map_cons, List.sum_cons, List.map_nil, List.sum_nil] at h1 ⊢
      omega
    · have := ih l hn (fun i hi => by
        have h2 := h i hi
        have : i ≠ n := fun e => hm (e ▸ hi)
        omega)
      omega

/-- C59, proved for downloads in which every piece is received at most once: at every moment of every interleaving of the calls
the writer makes, `Left()` is at most the size. -/
theorem C59_once_partial (content : Bytes) (pl size : Nat) (hs : size < 2 ^ 64) (hsz : content.length ≤ size) (ms : List PeerMessage)
    (hd : ∀ m ∈ ms, m.data = .ok (pieceOf content pl m.index)) (honce : (ms.map (·.index)).Nodup)
    (σ : StatSys) (h : StatSys.Reachable size σ) (hc : σ.calls = reported ms) : σ.stats.left ≤ size := by
  apply C59_left_partial size hs σ h
  rw [hc]
  have e : downloadedBy (reported ms) = ((ms.map (·.index)).map (fun i => (pieceOf content pl i).length)).sum := by
    clear honce hc
    induction ms with
    | nil => rfl
    | cons m ms ih =>
      have h1 := ih (fun x hx => hd x (by simp [hx]))
      have h2 := hd m (by simp)
      simp only [downloadedBy, reported, List.map_cons, List.sum_cons] at h1 ⊢
      rw [h1]
      simp [dataLength, h2]
  rw [e]
  obtain ⟨n, hn⟩ : ∃ n, ∀ i ∈ ms.map (·.index), i < n := by
    generalize ms.map (·.index) = l
    clear e
    induction l with
    | nil => exact ⟨0, by simp⟩
    | cons a l ih =>
      obtain ⟨n, hn⟩ := ih
      refine ⟨max n (a + 1), ?_⟩
      intro i hi
      rcases List.mem_cons.1 hi with rfl | hi
      · omega
      · have := hn i hi; omega
  exact Nat.le_trans (sum_nodup _ n _ honce hn) (Nat.le_trans (pieces_sum content pl n).1 hsz)

example : ∃ ms : List PeerMessage, ms.length = 3 ∧ (∀ m ∈ ms, m.data = .ok (pieceOf tinyContent 2 m.index)) ∧ (ms.map (·.index)).Nodup := by
  refine ⟨(List.range 3).map fun i => { len := 11, type := pieceType, payload := putBE 4 i ++ putBE 4 0 ++ pieceOf tinyContent 2 i, index := i },
    rfl, ?_, by decide⟩
  intro m hm
  simp only [List.mem_map, List.mem_range] at hm
  obtain ⟨i, hi, rfl⟩ := hm
  have : i = 0 ∨ i = 1 ∨ i = 2 := by omega
  rcases this with rfl | rfl | rfl <;> decide

/-! ## C60 -/

theorem percent_nonneg_mono (size d d' : Nat) (hs : 0 < size) (h : d ≤ d') :
    (fmul 53 (fdiv 53 (toFloat 53 d) (toFloat 53 size)) ⟨100, 1⟩).round ≤ (fmul 53 (fdiv 53 (toFloat 53 d') (toFloat 53 size)) ⟨100, 1⟩).round := by
  have n1 := toFloat_num_pos 52 size hs
  apply round_mono (roundBits_den _ _ _) (roundBits_den _ _ _)
  apply fmul_mono 52 (roundBits_den _ _ _) (roundBits_den _ _ _) (by simp) (by simp) _ (Nat.le_refl _)
  exact fdiv_mono 52 (roundBits_den _ _ _) (roundBits_den _ _ _) n1 n1 (toFloat_mono 52 d d' h) (Nat.le_refl _)

/-- `x / x` is 1 and `1 * 100` is 100. -/
theorem percent_full (size : Nat) (hs : 0 < size) : (fmul 53 (fdiv 53 (toFloat 53 size) (toFloat 53 size)) ⟨100, 1⟩).round = 100 := by
  have n1 := toFloat_num_pos 52 size hs
  have d1 : 0 < (toFloat 53 size).den := roundBits_den _ _ _
  have e1 : (fdiv 53 (toFloat 53 size) (toFloat 53 size)).num = 1 * (fdiv 53 (toFloat 53 size) (toFloat 53 size)).den :=
    roundBits_exact 52 _ _ 1 (Nat.mul_pos d1 n1) (by omega) (by rw [Nat.one_mul, Nat.mul_comm])
  have d2 : 0 < (fdiv 53 (toFloat 53 size) (toFloat 53 size)).den := roundBits_den _ _ _
  generalize fdiv 53 (toFloat 53 size) (toFloat 53 size) = q at *
  have e2 : (fmul 53 q ⟨100, 1⟩).num = 100 * (fmul 53 q ⟨100, 1⟩).den :=
    roundBits_exact 52 _ _ 100 (Nat.mul_pos d2 (by simp)) (by omega) (by simp only [e1]; omega)
  have d3 : 0 < (fmul 53 q ⟨100, 1⟩).den := roundBits_den _ _ _
  unfold Frac.round
  rw [e2]
  generalize (fmul 53 q ⟨100, 1⟩).den = z at *
  rw [show 2 * (100 * z) + z = z + 100 * (2 * z) by omega, Nat.add_mul_div_right _ _ (by omega), Nat.div_eq_of_lt (by omega)]

theorem percent_over (size d : Nat) (hs : 0 < size) (hs2 : size ≤ 2 ^ 52) (h : 105 * size ≤ 100 * d) :
    105 ≤ (fmul 53 (fdiv 53 (toFloat 53 d) (toFloat 53 size)) ⟨100, 1⟩).round := by
  obtain ⟨d0, h1, h2, h3⟩ : ∃ d0, d0 ≤ d ∧ 105 * size ≤ 100 * d0 ∧ d0 ≤ 2 ^ 53 := ⟨(105 * size + 99) / 100, by omega, by omega, by omega⟩
  refine Nat.le_trans ?_ (percent_nonneg_mono size d0 d hs h1)
  have n1 := toFloat_num_pos 52 size hs
  obtain ⟨x1, x2⟩ := toFloat_exact 52 d0 h3
  obtain ⟨y1, y2⟩ := toFloat_exact 52 size (by omega)
  have q : (roundBits 53 105 100).le (fdiv 53 (toFloat 53 d0) (toFloat 53 size)) := by
    apply roundBits_mono 52 _ _ _ _ (by omega) (Nat.mul_pos x2 n1)
    rw [x1, y1]
    generalize (toFloat (52 + 1) d0).den = u
    generalize (toFloat (52 + 1) size).den = v
    calc 105 * (u * (size * v)) = (105 * size) * (u * v) := by ac_rfl
      _ ≤ (100 * d0) * (u * v) := Nat.mul_le_mul_right _ h2
      _ = d0 * u * v * 100 := by ac_rfl
  have m := fmul_mono 52 (y := ⟨100, 1⟩) (y' := ⟨100, 1⟩) (roundBits_den 53 105 100) (roundBits_den _ _ _) (by simp) (by simp) q (Nat.le_refl _)
  have r := round_mono (roundBits_den _ _ _) (roundBits_den _ _ _) m
  refine Nat.le_trans ?_ r
  decide

theorem repeatChars_mono (n n' : Nat) (h : n ≤ n') : repeatChars n 20 ≤ repeatChars n' 20 ∧ 0 ≤ repeatChars n 20 := by
  unfold repeatChars
  simp only
  rw [if_neg (by omega), if_neg (by omega)]
  refine ⟨?_, by omega⟩
  apply Int.ofNat_le.2
  apply floor_mono (roundBits_den _ _ _) (roundBits_den _ _ _)
  apply fmul_mono 23 (roundBits_den _ _ _) (roundBits_den _ _ _) (roundBits_den _ _ _) (roundBits_den _ _ _) (Nat.le_refl _)
  exact fdiv_mono 23 (roundBits_den _ _ _) (roundBits_den _ _ _) (by simp) (by simp) (toFloat_mono 23 n n' h) (Nat.le_refl _)

theorem stringsRepeat_ok (s : Bytes) (n : Nat) (h : s.length * n < 2 ^ 63) : stringsRepeat s n = .ok (List.replicate n s).flatten := by
  unfold stringsRepeat
  have : ¬ ((s.length : Int) * (n : Int) ≥ 2 ^ 63) := by
    have : ((s.length * n : Nat) : Int) = (s.length : Int) * n := by simp
    omega
  rw [if_neg (by omega), if_neg this]
  simp

theorem replicate_flatten (n : Nat) (c : UInt8) : (List.replicate n [c]).flatten = List.replicate n c := by
  induction n with
  | zero => rfl
  | succ n ih => rw [List.replicate_succ, List.flatten_cons, ih, List.replicate_succ]; rfl

/-- C60, exact: the bar is drawn for percentages from 0 to 104, with exactly 20 cells. -/
theorem C60_bar_partial (percent : Nat) (h : percent ≤ 104) : ∃ k, k ≤ 20 ∧ progressBar percent 20 = .ok (bar k 20 percent) := by
  obtain ⟨h1, h2⟩ := repeatChars_mono percent 104 h
  have h3 : repeatChars (104 : Nat) 20 = 20 := by decide
  rw [h3] at h1
  obtain ⟨k, hk⟩ : ∃ k : Nat, repeatChars percent 20 = k := ⟨(repeatChars percent 20).toNat, by omega⟩
  rw [hk] at h1
  refine ⟨k, by omega, ?_⟩
  unfold progressBar
  simp only [hk]
  rw [stringsRepeat_ok progressChar k (by simp [progressChar]; omega)]
  have : ((20 : Nat) : Int) - (k : Int) = ((20 - k : Nat) : Int) := by omega
  rw [this, stringsRepeat_ok [32] (20 - k) (by simp; omega), replicate_flatten]
  rfl

/-- C60 is false of the code: drawing the bar panics for every percentage from 105 on. -/
theorem C60_panic_violated (percent : Nat) (h : 105 ≤ percent) : (progressBar percent 20).isPanic = true := by
  obtain ⟨h1, _⟩ := repeatChars_mono 105 percent h
  have h3 : repeatChars (105 : Nat) 20 = 21 := by decide
  rw [h3] at h1
  unfold progressBar
  simp only
  generalize repeatChars percent 20 = n at *
  have : stringsRepeat [32] (((20 : Nat) : Int) - n) = .panic "strings: negative Repeat count" := by
    unfold stringsRepeat; rw [if_pos (by omega)]
  rw [this]
  unfold stringsRepeat
  split
  · rfl
  · split <;> rfl

theorem repeatChars_neg (n : Nat) : repeatChars (-(n : Int)) 20 = -repeatChars n 20 := by
  unfold repeatChars
  simp only [Int.natAbs_neg, Int.natAbs_natCast]
  by_cases h : n = 0
  · subst h; decide
  · rw [if_pos (by omega), if_neg (by omega)]

/-- C60, for every number: the bar is drawn for percentages from -4 to 104 and for no other. -/
theorem C60_iff_partial (percent : Int) :
    ((progressBar percent 20).isPanic = true ↔ percent ≤ -5 ∨ 105 ≤ percent) ∧
    (-5 < percent → percent < 0 → progressBar percent 20 = .ok (bar 0 20 percent)) := by
  by_cases h0 : 0 ≤ percent
  · obtain ⟨n, rfl⟩ : ∃ n : Nat, percent = n := ⟨percent.toNat, by omega⟩
    refine ⟨?_, by omega⟩
    by_cases h : n ≤ 104
    · obtain ⟨k, _, hk⟩ := C60_bar_partial n h
      rw [hk]
      simp only [Res.isPanic, Bool.false_eq_true, false_iff]
      omega
    · simp only [C60_panic_violated n (by omega), true_iff]; omega
  · obtain ⟨n, rfl⟩ : ∃ n : Nat, percent = -(n : Int) := ⟨percent.natAbs, by omega⟩
    have hn := repeatChars_neg n
    by_cases h : n ≤ 4
    · have h4 : repeatChars n 20 = 0 := by
        obtain ⟨a, b⟩ := repeatChars_mono n 4 h
        have : repeatChars (4 : Nat) 20 = 0 := by decide
        omega
      rw [h4] at hn
      have e : progressBar (-(n : Int)) 20 = .ok (bar 0 20 (-(n : Int))) := by
        unfold progressBar
        simp only [hn]
        rfl
      rw [e]
      refine ⟨?_, fun _ _ => rfl⟩
      simp only [Res.isPanic, Bool.false_eq_true, false_iff]
      omega
    · have h5 : 1 ≤ repeatChars n 20 := by
        obtain ⟨a, _⟩ := repeatChars_mono 5 n (by omega)
        have : repeatChars (5 : Nat) 20 = 1 := by decide
        omega
      refine ⟨?_, by omega⟩
      have e : (progressBar (-(n : Int)) 20).isPanic = true := by
        unfold progressBar
        simp only [hn]
        unfold stringsRepeat
        rw [if_pos (by omega)]
        rfl
      simp only [e, true_iff]
      omega

/-- The percentage is an `int`, and negative only when it does not fit into one. -/
theorem C60_percent_int (size d : Nat) : -2 ^ 63 ≤ percentCompleted size d ∧ percentCompleted size d < 2 ^ 63 ∧
    (percentCompleted size d < 0 → percentCompleted size d = -2 ^ 63) := by
  unfold percentCompleted
  split
  · omega
  · simp only
    split <;> omega

example : percentCompleted 1 (2 ^ 63) = -2 ^ 63 := by decide +kernel

/-- C60, proved while no more bytes were received than the torrent has: the percentage is at most 100 and the bar is drawn. -/
theorem C60_drawn_partial (s : Stats) (h : s.download ≤ s.torrentSize) :
    ∃ k, k ≤ 20 ∧ ∃ percent : Nat, percent ≤ 100 ∧ printBar s = .ok (bar k 20 percent) := by
  obtain ⟨q, hq, hq2⟩ : ∃ q : Nat, percentCompleted s.torrentSize s.download = q ∧ q ≤ 100 := by
    unfold percentCompleted
    split
    · exact ⟨0, rfl, by omega⟩
    · rename_i c
      have h1 := percent_nonneg_mono s.torrentSize s.download s.torrentSize (by omega) h
      rw [percent_full _ (by omega)] at h1
      generalize (fmul 53 (fdiv 53 (toFloat 53 s.download) (toFloat 53 s.torrentSize)) ⟨100, 1⟩).round = r at *
      exact ⟨r, by simp only; rw [if_pos (by omega)], h1⟩
  obtain ⟨k, h1, h2⟩ := C60_bar_partial q (by omega)
  exact ⟨k, h1, q, hq2, by unfold printBar; rw [hq]; exact h2⟩

/-- C60 is false of the code: when 5% more bytes than the torrent has were received, printing panics. -/
theorem C60_violated (s : Stats) (h0 : 0 < s.torrentSize) (h1 : s.torrentSize ≤ 2 ^ 52) (h : 105 * s.torrentSize ≤ 100 * s.download) :
    (printBar s).isPanic = true := by
  have h2 := percent_over s.torrentSize s.download h0 h1 h
  unfold printBar percentCompleted
  rw [if_neg (by omega)]
  simp only
  generalize (fmul 53 (fdiv 53 (toFloat 53 s.download) (toFloat 53 s.torrentSize)) ⟨100, 1⟩).round = r at *
  split
  · exact C60_panic_violated r h2
  · decide

/-- The state of C59: seven bytes received of five. -/
example : (printBar { newStats 5 with download := 7, left := 2 ^ 64 - 2 }).isPanic = true :=
  C60_violated _ (by decide) (by decide) (by decide)

/-! ## C68 -/

/-- C68: the percentage shown never goes down as more is downloaded, is 0 at the start, and is 100 when exactly everything has
been downloaded. -/
theorem C68_percent (size d d' : Nat) (h : d ≤ d') (hd : d' ≤ size) :
    percentCompleted size d ≤ percentCompleted size d' ∧ percentCompleted size 0 = 0 ∧ (0 < size → percentCompleted size size = 100) := by
  refine ⟨?_, by simp [percentCompleted], ?_⟩
  · have key : ∀ x, 0 < size → x ≤ size → x ≠ 0 → percentCompleted size x = (fmul 53 (fdiv 53 (toFloat 53 x) (toFloat 53 size)) ⟨100, 1⟩).round := by
      intro x h0 hx hx0
      have h1 := percent_nonneg_mono size x size h0 hx
      rw [percent_full _ h0] at h1
      unfold percentCompleted
      rw [if_neg (by omega)]
      simp only
      rw [if_pos (by omega)]
    by_cases h0 : size = 0
    · simp [percentCompleted, h0]
    · by_cases h1 : d = 0
      · subst h1
        have : percentCompleted size 0 = 0 := by simp [percentCompleted]
        rw [this]
        by_cases h2 : d' = 0
        · subst h2; omega
        · rw [key d' (by omega) hd h2]; omega
      · rw [key d (by omega) (by omega) h1, key d' (by omega) hd (by omega)]
        exact Int.ofNat_le.2 (percent_nonneg_mono size d d' (by omega) h)
  · intro h0
    unfold percentCompleted
    rw [if_neg (by omega), percent_full size h0]
    rfl

example : percentCompleted 1000 996 = 100 ∧ percentCompleted 1000 500 = 50 ∧ percentCompleted 3 1 = 33 := by decide

end Gotit.Props
