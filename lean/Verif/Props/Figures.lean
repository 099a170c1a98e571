import Verif.Spec.Figures
/-
  C87: the figures announced to a tracker.
-/
namespace Gotit.Props
open Gotit Spec

theorem counts_more {blocks : List Nat} {i d : Nat} (h : Counts blocks i d) (n : Nat) : Counts (blocks ++ [n]) i d := by
  refine ⟨by have := h.1; simp; omega, h.2.1, ?_⟩
  rw [List.take_append_of_le_length h.1]; exact h.2.2

theorem lacks_more {size : Nat} {blocks : List Nat} {j l : Nat} (h : Missing size blocks j l) (n : Nat) :
    Missing size (blocks ++ [n]) j l := by
  refine ⟨by have := h.1; simp; omega, h.2.1, ?_⟩
  rw [List.take_append_of_le_length h.1]; exact h.2.2

/-- What the counters are: `download` counts `i` blocks, `left` lacks `j`, and what the writer has still to do. -/
def FigInv (size : Nat) (σ : FigSys) (i j : Nat) : Prop :=
  Counts σ.blocks i σ.stats.download ∧ Missing size σ.blocks j σ.stats.left ∧ σ.stats.upload = 0 ∧
  ((σ.writer = [] ∧ i = σ.blocks.length ∧ j = i) ∨
   (∃ n bs, σ.writer = (StatOp.addDownload n).atoms ∧ σ.blocks = bs ++ [n] ∧ i = bs.length ∧ j = i) ∨
   (∃ n bs, σ.writer = [(.left, (2 ^ 64 - n % 2 ^ 64) % 2 ^ 64)] ∧ σ.blocks = bs ++ [n] ∧ i = bs.length + 1 ∧ j = bs.length))

/-- What the reader has read, when `j` blocks are out of `left`. -/
def ReadInv (size : Nat) (port : Int) (σ : FigSys) (j : Nat) : Prop :=
  match σ.reader with
  | .idle => True
  | .gotDownload d => ∃ i', i' ≤ j + 1 ∧ Counts σ.blocks i' d
  | .gotUpload d u => u = 0 ∧ ∃ i', i' ≤ j + 1 ∧ Counts σ.blocks i' d
  | .built data => data.uploaded = 0 ∧ data.port = port ∧
      ∃ i' j', i' ≤ j' + 1 ∧ Counts σ.blocks i' data.downloaded ∧ Missing size σ.blocks j' data.left

theorem readInv_mono {size : Nat} {port : Int} {σ σ' : FigSys} {j j' : Nat} (h : ReadInv size port σ j) (hr : σ'.reader = σ.reader)
    (hb : σ'.blocks = σ.blocks) (hj : j ≤ j') : ReadInv size port σ' j' := by
  unfold ReadInv at *
  rw [hr, hb]
  cases hx : σ.reader with
  | idle => trivial
  | gotDownload d =>
    simp only [hx] at h
    obtain ⟨i', h1, h2⟩ := h
    exact ⟨i', by omega, h2⟩
  | gotUpload d u =>
    simp only [hx] at h
    obtain ⟨h0, i', h1, h2⟩ := h
    exact ⟨h0, i', by omega, h2⟩
  | built data => simp only [hx] at h; exact h

theorem fig_peer {size : Nat} {σ : FigSys} {i j : Nat} (d : Nat) (h : FigInv size σ i j) :
    FigInv size { σ with stats := σ.stats.add .peerNum d } i j := h

theorem fig_inv {size : Nat} {port : Int} (hsz : size < 2 ^ 64) {σ : FigSys} (h : FigSys.Reachable size port σ) :
    ∃ i j, FigInv size σ i j ∧ ReadInv size port σ j := by
  induction h with
  | init =>
    exact ⟨0, 0, ⟨⟨by simp, by simp [newStats], by simp [newStats]⟩, ⟨by simp, by simpa [newStats] using hsz, by simp [newStats]⟩, rfl,
      .inl ⟨rfl, rfl, rfl⟩⟩, trivial⟩
  | @step σ σ' _ st ih =>
    obtain ⟨i, j, ⟨hc, hl, hu, hw⟩, hr⟩ := ih
    have hij : j ≤ i ∧ i ≤ j + 1 := by
      rcases hw with ⟨_, _, h⟩ | ⟨n, bs, _, _, _, h⟩ | ⟨n, bs, _, _, h1, h2⟩ <;> omega
    cases st with
    | call n hw0 =>
      refine ⟨i, j, ⟨counts_more hc n, lacks_more hl n, hu, .inr (.inl ⟨n, σ.blocks, rfl, rfl, ?_, ?_⟩)⟩, ?_⟩
      · rcases hw with ⟨_, h, _⟩ | ⟨m, bs, h, _⟩ | ⟨m, bs, h, _⟩
        · exact h
        · rw [hw0] at h; cases h
        · rw [hw0] at h; cases h
      · rcases hw with ⟨_, _, h⟩ | ⟨m, bs, h, _⟩ | ⟨m, bs, h, _⟩
        · exact h
        · rw [hw0] at h; cases h
        · rw [hw0] at h; cases h
      · unfold ReadInv at *
        cases hx : σ.reader with
        | idle => trivial
        | gotDownload d =>
          simp only [hx] at hr
          obtain ⟨i', h1, h2⟩ := hr
          exact ⟨i', h1, counts_more h2 n⟩
        | gotUpload d u =>
          simp only [hx] at hr
          obtain ⟨h0, i', h1, h2⟩ := hr
          exact ⟨h0, i', h1, counts_more h2 n⟩
        | built data =>
          simp only [hx] at hr
          obtain ⟨h0, hp, i', j', h1, h2, h3⟩ := hr
          exact ⟨h0, hp, i', j', h1, counts_more h2 n, lacks_more h3 n⟩
    | @atom r d rest hw0 =>
      rcases hw with ⟨h, _⟩ | ⟨n, bs, h1, h2, h3, h4⟩ | ⟨n, bs, h1, h2, h3, h4⟩
      · rw [hw0] at h; cases h
      · rw [hw0] at h1
        simp only [StatOp.atoms, List.cons.injEq, Prod.mk.injEq] at h1
        obtain ⟨⟨rfl, rfl⟩, rfl⟩ := h1
        refine ⟨i + 1, j, ⟨⟨by rw [h2]; simp; omega, ?_, ?_⟩, hl, hu, .inr (.inr ⟨n, bs, rfl, h2, by omega, by omega⟩)⟩,
          readInv_mono hr rfl rfl (Nat.le_refl _)⟩
        · exact Nat.mod_lt _ (by decide)
        · have hd := hc.2.2
          rw [h2, h3, List.take_append_of_le_length (Nat.le_refl _), List.take_length] at hd
          simp only [Stats.add]
          rw [h2, h3, List.take_of_length_le (by simp), List.sum_append]
          simp only [List.sum_cons, List.sum_nil, Nat.add_zero]
          omega
      · rw [hw0] at h1
        simp only [List.cons.injEq, Prod.mk.injEq] at h1
        obtain ⟨⟨rfl, rfl⟩, rfl⟩ := h1
        refine ⟨i, j + 1, ⟨hc, ⟨by rw [h2]; simp; omega, ?_, ?_⟩, hu, .inl ⟨rfl, by rw [h2]; simp; omega, by omega⟩⟩,
          readInv_mono hr rfl rfl (by omega)⟩
        · exact Nat.mod_lt _ (by decide)
        · have hd := hl.2.2
          rw [h2, h4, List.take_append_of_le_length (Nat.le_refl _), List.take_length] at hd
          simp only [Stats.add]
          rw [h2, h4, List.take_of_length_le (by simp), List.sum_append]
          simp only [List.sum_cons, List.sum_nil, Nat.add_zero]
          omega
    | addPeer => exact ⟨i, j, fig_peer 1 ⟨hc, hl, hu, hw⟩, readInv_mono hr rfl rfl (Nat.le_refl _)⟩
    | removePeer => exact ⟨i, j, fig_peer (2 ^ 64 - 1) ⟨hc, hl, hu, hw⟩, readInv_mono hr rfl rfl (Nat.le_refl _)⟩
    | readDownload _ => exact ⟨i, j, ⟨hc, hl, hu, hw⟩, i, hij.2, hc⟩
    | readUpload h1 =>
      unfold ReadInv at hr
      simp only [h1] at hr
      exact ⟨i, j, ⟨hc, hl, hu, hw⟩, hu, hr⟩
    | readLeft h1 =>
      unfold ReadInv at hr
      simp only [h1] at hr
      obtain ⟨h0, i', h2, h3⟩ := hr
      exact ⟨i, j, ⟨hc, hl, hu, hw⟩, h0, rfl, i', j, h2, h3, hl⟩
    | again h1 => exact ⟨i, j, ⟨hc, hl, hu, hw⟩, trivial⟩

/-- C87, exact, one direction: in every schedule, what is announced are a count of the first `i` blocks and what is missing after
the first `j` blocks for some `i ≤ j + 1`; `uploaded` is 0. -/
theorem C87_figures_partial (size : Nat) (port : Int) (hsz : size < 2 ^ 64) (σ : FigSys) (h : FigSys.Reachable size port σ)
    (data : AnnounceData) (hb : σ.reader = .built data) :
    data.uploaded = 0 ∧ data.port = port ∧
      ∃ i j, i ≤ j + 1 ∧ Counts σ.blocks i data.downloaded ∧ Missing size σ.blocks j data.left := by
  obtain ⟨_, j, _, hr⟩ := fig_inv hsz h
  unfold ReadInv at hr
  simpa only [hb] using hr

/-! ### Every such pair occurs -/

theorem fig_write {size : Nat} {port : Int} (bs : List Nat) : ∀ {σ : FigSys}, FigSys.Reachable size port σ → σ.writer = [] →
    ∃ σ', FigSys.Reachable size port σ' ∧ σ'.writer = [] ∧ σ'.reader = σ.reader ∧ σ'.blocks = σ.blocks ++ bs := by
  induction bs with
  | nil => intro σ h hw; exact ⟨σ, h, hw, rfl, by simp⟩
  | cons b bs ih =>
    intro σ h hw
    have h1 := h.step (.call b hw)
    have h2 := h1.step (.atom rfl)
    have h3 := h2.step (.atom rfl)
    obtain ⟨σ', g1, g2, g3, g4⟩ := ih h3 rfl
    exact ⟨σ', g1, g2, g3, by rw [g4]; simp⟩

theorem fig_idle {size : Nat} {port : Int} (hsz : size < 2 ^ 64) {σ : FigSys} (h : FigSys.Reachable size port σ) (hw : σ.writer = []) :
    Counts σ.blocks σ.blocks.length σ.stats.download ∧ Missing size σ.blocks σ.blocks.length σ.stats.left := by
  obtain ⟨i, j, ⟨hc, hl, _, hs⟩, _⟩ := fig_inv hsz h
  rcases hs with ⟨_, h1, h2⟩ | ⟨n, bs, h1, _⟩ | ⟨n, bs, h1, _⟩
  · rw [h2, h1] at hl; rw [h1] at hc; exact ⟨hc, hl⟩
  · rw [hw] at h1; cases h1
  · rw [hw] at h1; cases h1

theorem counts_unique {blocks : List Nat} {i d d' : Nat} (h : Counts blocks i d) (h' : Counts blocks i d') : d = d' := by
  have a := h.2.2; have b := h'.2.2; have c := h.2.1; have e := h'.2.1
  omega

theorem lacks_unique {size : Nat} {blocks : List Nat} {i d d' : Nat} (h : Missing size blocks i d) (h' : Missing size blocks i d') : d = d' := by
  have a := h.2.2; have b := h'.2.2; have c := h.2.1; have e := h'.2.1
  omega

theorem counts_take {blocks : List Nat} {i k d : Nat} (h : Counts (blocks.take k) i d) : Counts blocks i d := by
  have h1 : i ≤ (blocks.take k).length := h.1
  rw [List.length_take] at h1
  refine ⟨by omega, h.2.1, ?_⟩
  rw [h.2.2, List.take_take, Nat.min_eq_left (by omega)]

theorem lacks_take {size : Nat} {blocks : List Nat} {i k d : Nat} (h : Missing size (blocks.take k) i d) : Missing size blocks i d := by
  have h1 : i ≤ (blocks.take k).length := h.1
  rw [List.length_take] at h1
  have h2 := h.2.2
  rw [List.take_take, Nat.min_eq_left (by omega)] at h2
  exact ⟨by omega, h.2.1, h2⟩

/-- C87, exact, the other direction: every such pair of figures is announced in some schedule. -/
theorem C87_every_partial (size : Nat) (port : Int) (hsz : size < 2 ^ 64) (blocks : List Nat) (i j d l : Nat) (hij : i ≤ j + 1)
    (hd : Counts blocks i d) (hl : Missing size blocks j l) :
    ∃ σ, FigSys.Reachable size port σ ∧ σ.blocks = blocks ∧ σ.writer = [] ∧
      σ.reader = .built { downloaded := d, uploaded := 0, left := l, port := port } := by
  have hi := hd.1
  have hj := hl.1
  by_cases hle : i ≤ j
  · obtain ⟨σ1, a1, a2, a3, a4⟩ := fig_write (blocks.take i) (FigSys.Reachable.init (size := size) (port := port)) rfl
    simp only [List.nil_append] at a4
    have hu := (fig_inv hsz a1)
    obtain ⟨_, _, ⟨_, _, hu, _⟩, _⟩ := hu
    have b1 := (a1.step (.readDownload a3)).step (.readUpload rfl)
    have e1 : σ1.stats.download = d := by
      have := (fig_idle hsz a1 a2).1
      rw [a4] at this
      have h2 := counts_take this
      rw [List.length_take, Nat.min_eq_left hi] at h2
      exact counts_unique h2 hd
    obtain ⟨σ2, c1, c2, c3, c4⟩ := fig_write ((blocks.take j).drop i) b1 a2
    simp only at c3 c4
    rw [a4] at c4
    have hcat : blocks.take i ++ (blocks.take j).drop i = blocks.take j := by
      have := List.take_append_drop i (blocks.take j)
      rwa [List.take_take, Nat.min_eq_left hle] at this
    rw [hcat] at c4
    have e2 : σ2.stats.left = l := by
      have := (fig_idle hsz c1 c2).2
      rw [c4] at this
      have h2 := lacks_take this
      rw [List.length_take, Nat.min_eq_left hj] at h2
      exact lacks_unique h2 hl
    obtain ⟨σ3, d1, d2, d3, d4⟩ := fig_write (blocks.drop j) (c1.step (.readLeft c3)) c2
    refine ⟨σ3, d1, by rw [d4]; simp only [c4]; exact List.take_append_drop j blocks, d2, ?_⟩
    rw [d3]
    simp only [Stats.get, e1, e2, hu]
  · have hij' : i = j + 1 := by omega
    subst hij'
    obtain ⟨σ1, a1, a2, a3, a4⟩ := fig_write (blocks.take j) (FigSys.Reachable.init (size := size) (port := port)) rfl
    simp only [List.nil_append] at a4
    obtain ⟨_, _, ⟨_, _, hu, _⟩, _⟩ := fig_inv hsz a1
    have e2 : σ1.stats.left = l := by
      have := (fig_idle hsz a1 a2).2
      rw [a4] at this
      have h2 := lacks_take this
      rw [List.length_take, Nat.min_eq_left hj] at h2
      exact lacks_unique h2 hl
    have hjlt : j < blocks.length := by omega
    have b1 := (a1.step (.call blocks[j] a2)).step (.atom rfl)
    have b2 := ((b1.step (.readDownload a3)).step (.readUpload rfl)).step (.readLeft rfl)
    have b3 := b2.step (.atom rfl)
    have htk : blocks.take j ++ [blocks[j]] = blocks.take (j + 1) := by
      rw [List.take_add_one, List.getElem?_eq_getElem hjlt]; rfl
    have e1 : (σ1.stats.add .download (blocks[j] % 2 ^ 64)).download = d := by
      have := (fig_idle hsz b3 rfl).1
      simp only [a4, htk] at this
      have h2 := counts_take this
      rw [List.length_take, Nat.min_eq_left hi] at h2
      exact counts_unique h2 hd
    obtain ⟨σ3, d1, d2, d3, d4⟩ := fig_write (blocks.drop (j + 1)) b3 rfl
    refine ⟨σ3, d1, by rw [d4]; simp only [a4, htk]; exact List.take_append_drop _ blocks, d2, ?_⟩
    rw [d3]
    simp only [Stats.get, e1]
    simp only [Stats.add, e2, hu]

theorem sum_take_le (l : List Nat) (i : Nat) : (l.take i).sum ≤ l.sum := by
  have := congrArg List.sum (List.take_append_drop i l)
  rw [List.sum_append] at this
  omega

theorem sum_take_mono (l : List Nat) {i j : Nat} (h : i ≤ j) : (l.take i).sum ≤ (l.take j).sum := by
  have := sum_take_le (l.take j) i
  rwa [List.take_take, Nat.min_eq_left h] at this

/-- C87: as long as no more bytes were counted than the torrent has, `downloaded` and `left` never add up to more than the size
and one block. -/
theorem C87_bound_partial (size : Nat) (port : Int) (hsz : size < 2 ^ 64) (σ : FigSys) (h : FigSys.Reachable size port σ)
    (data : AnnounceData) (hb : σ.reader = .built data) (hsum : σ.blocks.sum ≤ size) :
    data.downloaded ≤ size ∧ data.left ≤ size ∧ ∃ b, (b = 0 ∨ b ∈ σ.blocks) ∧ data.downloaded + data.left ≤ size + b := by
  obtain ⟨_, _, i, j, hij, hd, hl⟩ := C87_figures_partial size port hsz σ h data hb
  have h1 := sum_take_le σ.blocks i
  have h2 := sum_take_le σ.blocks j
  have e1 : data.downloaded = (σ.blocks.take i).sum := by
    have a := hd.2.1; have b := hd.2.2
    omega
  have e2 : data.left + (σ.blocks.take j).sum = size := by
    have a := hl.2.1; have b := hl.2.2
    omega
  refine ⟨by omega, by omega, ?_⟩
  by_cases hle : i ≤ j
  · exact ⟨0, .inl rfl, by have := sum_take_mono σ.blocks hle; omega⟩
  · have hi : i = j + 1 := by omega
    have hlt : j < σ.blocks.length := by have := hd.1; omega
    refine ⟨σ.blocks[j], .inr (List.getElem_mem hlt), ?_⟩
    rw [hi, List.take_add_one, List.getElem?_eq_getElem hlt] at e1
    simp only [Option.toList, List.sum_append, List.sum_cons, List.sum_nil] at e1
    omega

/-- C87 holds when the writer stands still between two calls while the counters are read. -/
theorem C87_quiet_partial (size : Nat) (port : Int) (hsz : size < 2 ^ 64) (σ σ1 σ2 σ3 : FigSys) (h : FigSys.Reachable size port σ)
    (hw : σ.writer = []) (hsum : σ.blocks.sum ≤ size) (hr : σ.reader = .idle)
    (h1 : FigSys.Step port σ σ1) (h2 : FigSys.Step port σ1 σ2) (h3 : FigSys.Step port σ2 σ3) (data : AnnounceData)
    (hb : σ3.reader = .built data) : Fit size data := by
  have key : data = { downloaded := σ.stats.download, uploaded := σ.stats.upload, left := σ.stats.left, port := port } := by
    obtain ⟨d, u, g3, rfl⟩ : ∃ d u, σ2.reader = .gotUpload d u ∧
        data = { downloaded := d, uploaded := u, left := σ2.stats.left, port := port } := by
      have n3 : ∀ x, σ2.reader ≠ .built x := by
        have n1 : ∀ x y, σ1.reader ≠ .gotUpload x y := by cases h1 <;> simp_all
        have n2 : ∀ x, σ1.reader ≠ .built x := by cases h1 <;> simp_all
        cases h2 <;> simp_all
      cases h3 with
      | readLeft g => simp only [FigLoc.built.injEq] at hb; exact ⟨_, _, g, hb.symm⟩
      | again g => cases hb
      | _ => exact absurd hb (by first | exact n3 _ | exact fun h => by cases h)
    obtain ⟨d', g2, hd, hu, hl2⟩ : ∃ d', σ1.reader = .gotDownload d' ∧ d = d' ∧ u = σ1.stats.upload ∧ σ2.stats = σ1.stats := by
      have n1 : ∀ x y, σ1.reader ≠ .gotUpload x y := by cases h1 <;> simp_all
      cases h2 with
      | readUpload g => simp only [FigLoc.gotUpload.injEq] at g3; exact ⟨_, g, g3.1.symm, g3.2.symm, rfl⟩
      | _ => exact absurd g3 (by first | exact n1 _ _ | exact fun h => by cases h)
    obtain ⟨hd', hs'⟩ : d' = σ.stats.download ∧ σ1.stats = σ.stats := by
      cases h1 with
      | readDownload g => simp only [FigLoc.gotDownload.injEq] at g2; exact ⟨g2.symm, rfl⟩
      | _ => exact absurd g2 (by first | (rw [hr]; exact fun h => by cases h) | exact fun h => by cases h)
    rw [hl2, hs', hu, hd, hd', hs']
  obtain ⟨hc, hl⟩ := fig_idle hsz h hw
  rw [key]
  unfold Fit
  have a := hc.2.1; have b := hc.2.2; have c := hl.2.1; have d := hl.2.2
  rw [List.take_length] at b d
  simp only
  omega

/-- What C87 asks for. -/
def FiguresFit : Prop :=
  ∀ (size : Nat) (port : Int) (σ : FigSys) (data : AnnounceData), size < 2 ^ 64 → FigSys.Reachable size port σ →
    σ.blocks.sum ≤ size → σ.reader = .built data → Fit size data

/-- C87 is false of the code, in both directions: for every size and every block not larger, the tracker may be told a sum that is
one block too large and, when the block arrives between the readings, one that is too small. -/
theorem C87_violated : ¬ FiguresFit ∧ ∀ (size b : Nat) (port : Int), size < 2 ^ 64 → 0 < b → b ≤ size →
    (∃ σ data, FigSys.Reachable size port σ ∧ σ.blocks = [b] ∧ σ.reader = .built data ∧ data.downloaded + data.left = size + b) ∧
    (∃ σ data, FigSys.Reachable size port σ ∧ σ.blocks = [b] ∧ σ.reader = .built data ∧ data.downloaded + data.left + b = size) := by
  have key : ∀ (size b : Nat) (port : Int), size < 2 ^ 64 → 0 < b → b ≤ size →
      (∃ σ data, FigSys.Reachable size port σ ∧ σ.blocks = [b] ∧ σ.reader = .built data ∧ data.downloaded + data.left = size + b) ∧
      (∃ σ data, FigSys.Reachable size port σ ∧ σ.blocks = [b] ∧ σ.reader = .built data ∧ data.downloaded + data.left + b = size) := by
    intro size b port hsz h0 hb
    constructor
    · obtain ⟨σ, h1, h2, _, h4⟩ := C87_every_partial size port hsz [b] 1 0 b size (by omega)
        ⟨by simp, by omega, by simp⟩ ⟨by simp, hsz, by simp⟩
      exact ⟨σ, _, h1, h2, h4, by simp only; omega⟩
    · obtain ⟨σ, h1, h2, _, h4⟩ := C87_every_partial size port hsz [b] 0 1 0 (size - b) (by omega)
        ⟨by simp, by omega, by simp⟩ ⟨by simp, by omega, by simp; omega⟩
      exact ⟨σ, _, h1, h2, h4, by simp only; omega⟩
  refine ⟨fun hf => ?_, key⟩
  obtain ⟨⟨σ, data, h1, h2, h3, h4⟩, _⟩ := key 100 60 0 (by decide) (by decide) (by decide)
  have := hf 100 0 σ data (by decide) h1 (by rw [h2]; simp) h3
  unfold Fit at this
  omega

/-- A torrent of 100 bytes after a block of 60: announced in the quiet, and with the block arriving in between. -/
example : ∃ σ, FigSys.Reachable 100 6881 σ ∧ σ.blocks = [60] ∧ σ.writer = [] ∧
    σ.reader = .built { downloaded := 60, uploaded := 0, left := 40, port := 6881 } :=
  C87_every_partial 100 6881 (by decide) [60] 1 1 60 40 (by decide) ⟨by decide, by decide, by decide⟩ ⟨by decide, by decide, by decide⟩

example : ∃ σ, FigSys.Reachable 100 6881 σ ∧ σ.blocks = [60, 40] ∧ σ.writer = [] ∧
    σ.reader = .built { downloaded := 60, uploaded := 0, left := 100, port := 6881 } :=
  C87_every_partial 100 6881 (by decide) [60, 40] 1 0 60 100 (by decide) ⟨by decide, by decide, by decide⟩ ⟨by decide, by decide, by decide⟩

end Gotit.Props
