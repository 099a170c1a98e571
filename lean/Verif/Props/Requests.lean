import Verif.Spec.Requests
import Verif.Props.Writer
/-
  C50, C51, C57: the requests of a peer and its state.
-/
namespace Gotit.Props
open Gotit Spec

/-- The `k`-th request for piece `i`. -/
def blockRequest (i k : Nat) : PeerMessage := requestMessage (i % 2 ^ 32) (k * blockLength % 2 ^ 32) blockLength

/-- The requests created since the last piece from `Next`. -/
def sinceNext (evs : List ReqEv) : List PeerMessage :=
  evs.foldl (fun ms e => match e with | .next (some _) => [] | .created m => ms ++ [m] | _ => ms) []

theorem sinceNext_snoc (evs : List ReqEv) (e : ReqEv) :
    sinceNext (evs ++ [e]) = match e with | .next (some _) => [] | .created m => sinceNext evs ++ [m] | _ => sinceNext evs := by
  unfold sinceNext; rw [List.foldl_append]; rfl

theorem lastNext_snoc (evs : List ReqEv) (e : ReqEv) :
    lastNext (evs ++ [e]) = match e with | .next (some i) => some i | _ => lastNext evs := by
  unfold lastNext
  rw [List.filterMap_append]
  cases e with
  | popped m => simp
  | created m => simp
  | next r => cases r <;> simp

/-- What is known about a prefix of the history. -/
structure Prefix (bn : Nat) (evs : List ReqEv) : Prop where
  blocks : sinceNext evs = (List.range (sinceNext evs).length).map (blockRequest ((lastNext evs).getD 0))
  few : (sinceNext evs).length ≤ max 1 bn
  start : lastNext evs = none → (sinceNext evs).length ≤ bn

/-- The invariant of a peer's history. -/
structure ReqInv (bn : Nat) (evs : List ReqEv) (p : Peer) : Prop where
  num : p.blockNum = bn
  idx : p.blockIdx = (sinceNext evs).length
  piece : p.pieceIdx = (lastNext evs).getD 0
  pre : ∀ a b, evs = a ++ b → Prefix bn a
  next : ∀ a r b, evs = a ++ .next r :: b → bn ≤ (sinceNext a).length
  nextc : ∀ a i b, evs = a ++ .next (some i) :: b → ∃ m c, b = .created m :: c
  made : ∀ a m b, evs = a ++ .created m :: b → m = blockRequest ((lastNext a).getD 0) (sinceNext a).length

theorem snoc_split {α : Type} {evs a b : List α} {x : α} (h : evs ++ [x] = a ++ b) :
    (∃ c, evs = a ++ c ∧ b = c ++ [x]) ∨ (a = evs ++ [x] ∧ b = []) := by
  rcases List.append_eq_append_iff.1 h with ⟨c, h1, h2⟩ | ⟨c, h1, h2⟩
  · cases c with
    | nil => left; exact ⟨[], by simpa using h1.symm, by simpa using h2.symm⟩
    | cons y ys =>
      simp only [List.cons_append, List.cons.injEq] at h2
      obtain ⟨rfl, h3⟩ := h2
      obtain ⟨rfl, rfl⟩ := List.append_eq_nil_iff.1 h3.symm
      exact .inr ⟨h1, rfl⟩
  · exact .inl ⟨c, h1, h2⟩

theorem snoc_split_cons {α : Type} {evs a b : List α} {x y : α} (h : evs ++ [x] = a ++ y :: b) :
    (∃ c, evs = a ++ y :: c ∧ b = c ++ [x]) ∨ (a = evs ∧ y = x ∧ b = []) := by
  rcases snoc_split h with ⟨c, h1, h2⟩ | ⟨_, h2⟩
  · cases c with
    | nil =>
      simp only [List.nil_append, List.cons.injEq] at h2
      exact .inr ⟨by simpa using h1.symm, h2⟩
    | cons z zs =>
      simp only [List.cons_append, List.cons.injEq] at h2
      obtain ⟨rfl, rfl⟩ := h2
      exact .inl ⟨zs, h1, rfl⟩
  · simp at h2

theorem prefix_snoc {bn : Nat} {evs : List ReqEv} {e : ReqEv} (h : ∀ a b, evs = a ++ b → Prefix bn a) (hp : Prefix bn (evs ++ [e])) :
    ∀ a b, evs ++ [e] = a ++ b → Prefix bn a := by
  intro a b he
  rcases snoc_split he with ⟨c, h1, _⟩ | ⟨rfl, _⟩
  · exact h a c h1
  · exact hp

theorem blockRequest_create (p : Peer) (h : p.blockIdx < 2 ^ 47) :
    p.createPieceMessage = (blockRequest p.pieceIdx p.blockIdx, { p with blockIdx := p.blockIdx + 1 }) := by
  unfold Peer.createPieceMessage blockRequest
  have hb : blockLength = 131072 := rfl
  rw [Nat.mod_eq_of_lt (show p.blockIdx + 1 < 2 ^ 64 from by omega),
    Nat.mod_eq_of_lt (show p.blockIdx * blockLength < 2 ^ 64 from by rw [hb]; omega)]

theorem created_step {bn : Nat} {evs : List ReqEv} {p : Peer} (hbn : bn < 2 ^ 47) (h : ReqInv bn evs p)
    (hlt : p.blockIdx < bn ∨ (p.blockIdx = 0 ∧ lastNext evs ≠ none)) :
    ReqInv bn (evs ++ [.created p.createPieceMessage.1]) p.createPieceMessage.2 := by
  have hb47 : p.blockIdx < 2 ^ 47 := by omega
  rw [blockRequest_create p hb47]
  have hl : sinceNext (evs ++ [.created (blockRequest p.pieceIdx p.blockIdx)]) = sinceNext evs ++ [blockRequest p.pieceIdx p.blockIdx] :=
    sinceNext_snoc _ _
  have hn : lastNext (evs ++ [.created (blockRequest p.pieceIdx p.blockIdx)]) = lastNext evs := lastNext_snoc _ _
  have hpre := h.pre evs [] (by simp)
  refine ⟨h.num, ?_, ?_, ?_, ?_, ?_, ?_⟩
  · rw [hl, List.length_append, ← h.idx]; rfl
  · rw [hn]; exact h.piece
  · apply prefix_snoc h.pre
    refine ⟨?_, ?_, ?_⟩
    · rw [hl, hn, List.length_append, List.length_singleton, List.range_succ, List.map_append, ← hpre.blocks]
      simp only [List.map_cons, List.map_nil]
      rw [h.idx, h.piece]
    · rw [hl, List.length_append, List.length_singleton, ← h.idx]; omega
    · intro e
      rw [hn] at e
      rw [hl, List.length_append, List.length_singleton, ← h.idx]
      rcases hlt with hlt | ⟨_, hlt⟩
      · omega
      · exact absurd e hlt
  · intro a r b he
    rcases snoc_split_cons he with ⟨c, h1, _⟩ | ⟨_, h2, _⟩
    · exact h.next a r c h1
    · cases h2
  · intro a i b he
    rcases snoc_split_cons he with ⟨c, h1, h2⟩ | ⟨_, h2, _⟩
    · obtain ⟨m, c', rfl⟩ := h.nextc a i c h1
      exact ⟨m, _, h2⟩
    · cases h2
  · intro a m b he
    rcases snoc_split_cons he with ⟨c, h1, _⟩ | ⟨rfl, h2, _⟩
    · exact h.made a m c h1
    · cases h2
      rw [h.piece, h.idx]

theorem requests_inv {p0 : Peer} {bn : Nat} (hbn : bn < 2 ^ 47) (h0 : p0.blockNum = bn) (hi : p0.blockIdx = 0) (hp : p0.pieceIdx = 0)
    {evs : List ReqEv} {p : Peer} (h : Requests p0 evs p) : ReqInv bn evs p := by
  induction h with
  | start =>
    refine ⟨h0, hi, hp, ?_, ?_, ?_, ?_⟩
    · intro a b he
      obtain ⟨rfl, rfl⟩ := List.append_eq_nil_iff.1 he.symm
      exact ⟨rfl, by simp [sinceNext], by simp [sinceNext]⟩
    · intro a r b he; simp at he
    · intro a i b he; simp at he
    · intro a m b he; simp at he
  | other _ e1 e2 e3 ih =>
    exact ⟨e3 ▸ ih.num, e1 ▸ ih.idx, e2 ▸ ih.piece, ih.pre, ih.next, ih.nextc, ih.made⟩
  | @call evs p failed next _ ih =>
    unfold Peer.nextRequestMessage
    by_cases hge : p.blockIdx ≥ p.blockNum
    · rw [if_pos hge]
      have hlen : bn ≤ (sinceNext evs).length := by rw [← ih.idx, ← ih.num]; exact hge
      cases failed with
      | some req =>
        simp only
        have hl : sinceNext (evs ++ [.popped req]) = sinceNext evs := sinceNext_snoc _ _
        have hn : lastNext (evs ++ [.popped req]) = lastNext evs := lastNext_snoc _ _
        refine ⟨ih.num, by rw [hl]; exact ih.idx, by rw [hn]; exact ih.piece, ?_, ?_, ?_, ?_⟩
        · apply prefix_snoc ih.pre
          have := ih.pre evs [] (by simp)
          exact ⟨by rw [hl, hn]; exact this.blocks, by rw [hl]; exact this.few, by rw [hl, hn]; exact this.start⟩
        · intro a r b he
          rcases snoc_split_cons he with ⟨c, h1, _⟩ | ⟨_, h2, _⟩
          · exact ih.next a r c h1
          · cases h2
        · intro a i b he
          rcases snoc_split_cons he with ⟨c, h1, h2⟩ | ⟨_, h2, _⟩
          · obtain ⟨m, c', rfl⟩ := ih.nextc a i c h1
            exact ⟨m, _, h2⟩
          · cases h2
        · intro a m b he
          rcases snoc_split_cons he with ⟨c, h1, _⟩ | ⟨_, h2, _⟩
          · exact ih.made a m c h1
          · cases h2
      | none =>
        cases next with
        | none =>
          simp only
          have hl : sinceNext (evs ++ [.next none]) = sinceNext evs := sinceNext_snoc _ _
          have hn : lastNext (evs ++ [.next none]) = lastNext evs := lastNext_snoc _ _
          refine ⟨ih.num, by rw [hl]; exact ih.idx, by rw [hn]; exact ih.piece, ?_, ?_, ?_, ?_⟩
          · apply prefix_snoc ih.pre
            have := ih.pre evs [] (by simp)
            exact ⟨by rw [hl, hn]; exact this.blocks, by rw [hl]; exact this.few, by rw [hl, hn]; exact this.start⟩
          · intro a r b he
            rcases snoc_split_cons he with ⟨c, h1, _⟩ | ⟨rfl, h2, _⟩
            · exact ih.next a r c h1
            · exact hlen
          · intro a i b he
            rcases snoc_split_cons he with ⟨c, h1, h2⟩ | ⟨_, h2, _⟩
            · obtain ⟨m, c', rfl⟩ := ih.nextc a i c h1
              exact ⟨m, _, h2⟩
            · cases h2
          · intro a m b he
            rcases snoc_split_cons he with ⟨c, h1, _⟩ | ⟨_, h2, _⟩
            · exact ih.made a m c h1
            · cases h2
        | some i =>
          simp only
          have hl : sinceNext (evs ++ [.next (some i)]) = [] := sinceNext_snoc _ _
          have hn : lastNext (evs ++ [.next (some i)]) = some i := lastNext_snoc _ _
          have hc := blockRequest_create { p with blockIdx := 0, pieceIdx := i } (by show 0 < 2 ^ 47; omega)
          rw [hc]
          simp only
          have hl2 : sinceNext ((evs ++ [.next (some i)]) ++ [.created (blockRequest i 0)]) = [blockRequest i 0] := by
            rw [sinceNext_snoc, hl]; rfl
          have hn2 : lastNext ((evs ++ [.next (some i)]) ++ [.created (blockRequest i 0)]) = some i := by rw [lastNext_snoc, hn]
          rw [show evs ++ [ReqEv.next (some i), .created (blockRequest i 0)] = (evs ++ [.next (some i)]) ++ [.created (blockRequest i 0)]
            from by simp]
          refine ⟨ih.num, by rw [hl2]; rfl, by rw [hn2]; rfl, ?_, ?_, ?_, ?_⟩
          · apply prefix_snoc
            · apply prefix_snoc ih.pre
              exact ⟨by rw [hl]; rfl, by rw [hl]; simp, by rw [hl]; simp⟩
            · exact ⟨by rw [hl2, hn2]; rfl, by rw [hl2]; simp only [List.length_singleton]; omega, by rw [hn2]; simp⟩
          · intro a r b he
            rcases snoc_split_cons he with ⟨c, h1, _⟩ | ⟨_, h2, _⟩
            · rcases snoc_split_cons h1 with ⟨c', h3, _⟩ | ⟨rfl, _, _⟩
              · exact ih.next a r c' h3
              · exact hlen
            · cases h2
          · intro a j b he
            rcases snoc_split_cons he with ⟨c, h1, h2⟩ | ⟨_, h2, _⟩
            · rcases snoc_split_cons h1 with ⟨c', h3, h4⟩ | ⟨_, _, h4⟩
              · obtain ⟨m, c'', rfl⟩ := ih.nextc a j c' h3
                refine ⟨m, c'' ++ [.next (some i)] ++ [.created (blockRequest i 0)], ?_⟩
                rw [h2, h4]; simp
              · rw [h2, h4]; exact ⟨_, _, rfl⟩
            · cases h2
          · intro a m b he
            rcases snoc_split_cons he with ⟨c, h1, _⟩ | ⟨rfl, h2, _⟩
            · rcases snoc_split_cons h1 with ⟨c', h3, _⟩ | ⟨_, h4, _⟩
              · exact ih.made a m c' h3
              · cases h4
            · cases h2
              rw [hl, hn]; rfl
    · rw [if_neg hge]
      simp only
      apply created_step hbn ih
      left
      have := ih.num
      omega

theorem newPeer_num (t : Torrent) : (newPeer t).blockNum < 2 ^ 47 := by
  simp only [newPeer]
  have hb : blockLength = 131072 := rfl
  have : (t.pieceLength % 2 ^ 64).toNat < 2 ^ 64 := by omega
  rw [hb]; omega

/-! ## C50 -/

/-- Number of requests a peer makes for a piece. -/
def requestsPerPiece (t : Torrent) : Nat := max 1 ((t.pieceLength % 2 ^ 64).toNat / blockLength)

theorem createdIn_sinceNext : ∀ (mid : List ReqEv) (e : List ReqEv), NoNext mid → sinceNext (e ++ mid) = sinceNext e ++ createdIn mid := by
  intro mid
  induction mid with
  | nil => intro e _; simp [createdIn]
  | cons x xs ih =>
    intro e hn
    rw [show e ++ x :: xs = (e ++ [x]) ++ xs from by simp, ih _ (fun r hr => hn r (by simp [hr])), sinceNext_snoc]
    cases x with
    | popped m => simp [createdIn]
    | created m => simp [createdIn]
    | next r => exact absurd (by simp) (hn r)

/-- C50, exact: between a `Next` call that returned piece `i` and the following `Next` call, a peer creates exactly the
requests for block 0, 1, …, one per 128 KiB of piece length (at least one), in this order. -/
theorem C50_blocks_partial (t : Torrent) (evs : List ReqEv) (p : Peer) (h : Requests (newPeer t) evs p) (a mid b : List ReqEv)
    (i : Nat) (r : Option Nat) (he : evs = a ++ .next (some i) :: (mid ++ .next r :: b)) (hm : NoNext mid) :
    createdIn mid = (List.range (requestsPerPiece t)).map (fun k => requestMessage (i % 2 ^ 32) (k * blockLength % 2 ^ 32) blockLength) := by
  have inv := requests_inv (newPeer_num t) rfl rfl rfl h
  have h1 : sinceNext ((a ++ [.next (some i)]) ++ mid) = createdIn mid := by
    rw [createdIn_sinceNext _ _ hm, sinceNext_snoc]; simp
  have hl : lastNext ((a ++ [.next (some i)]) ++ mid) = some i := by
    have : ∀ (m : List ReqEv) (e : List ReqEv), NoNext m → lastNext (e ++ m) = lastNext e := by
      intro m
      induction m with
      | nil => intro e _; simp
      | cons x xs ih =>
        intro e hn
        rw [show e ++ x :: xs = (e ++ [x]) ++ xs from by simp, ih _ (fun r hr => hn r (by simp [hr])), lastNext_snoc]
        cases x with
        | popped m => rfl
        | created m => rfl
        | next r => exact absurd (by simp) (hn r)
    rw [this _ _ hm, lastNext_snoc]
  have hpre := inv.pre ((a ++ [.next (some i)]) ++ mid) (.next r :: b) (by rw [he]; simp)
  have hge := inv.next ((a ++ [.next (some i)]) ++ mid) r b (by rw [he]; simp)
  obtain ⟨m, c, hc⟩ := inv.nextc a i (mid ++ .next r :: b) he
  have hone : 1 ≤ (createdIn mid).length := by
    cases mid with
    | nil => simp at hc
    | cons x xs =>
      simp only [List.cons_append, List.cons.injEq] at hc
      rw [hc.1]; simp [createdIn]
  have hblocks := hpre.blocks
  have hfew := hpre.few
  rw [h1] at hblocks hfew hge
  rw [hl] at hblocks
  have hn : (createdIn mid).length = requestsPerPiece t := by
    unfold requestsPerPiece
    simp only [newPeer] at hge hfew
    omega
  rw [hblocks, hn]
  rfl

theorem map_take_range (f : Nat → PeerMessage) (n k : Nat) (hk : k ≤ n) :
    ((List.range n).map f).take k = (List.range k).map f := by
  rw [← List.map_take, List.take_range, Nat.min_eq_left hk]

theorem sum_blocks (i : Nat) (n : Nat) :
    (((List.range n).map (fun k => requestMessage (i % 2 ^ 32) (k * blockLength % 2 ^ 32) blockLength)).map (·.blockLength)).sum = n * blockLength := by
  induction n with
  | zero => simp
  | succ n ih =>
    rw [List.range_succ, List.map_append, List.map_append, List.sum_append, ih, Nat.add_mul]
    simp [requestMessage]

/-- C50, proved for piece lengths that are multiples of 128 KiB and at most 4 GiB: the requests cover the piece exactly. -/
theorem C50_tiles_partial (t : Torrent) (evs : List ReqEv) (p : Peer) (h : Requests (newPeer t) evs p) (a mid b : List ReqEv)
    (i : Nat) (r : Option Nat) (he : evs = a ++ .next (some i) :: (mid ++ .next r :: b)) (hm : NoNext mid)
    (hi : i < 2 ^ 32) (h0 : 0 < t.pieceLength) (hmax : t.pieceLength ≤ 2 ^ 32) (hdvd : (blockLength : Int) ∣ t.pieceLength) :
    Tiles i (createdIn mid) t.pieceLength.toNat := by
  have hb : blockLength = 131072 := rfl
  have hn : requestsPerPiece t * blockLength = t.pieceLength.toNat := by
    unfold requestsPerPiece
    obtain ⟨q, hq⟩ := hdvd
    rw [hb] at hq ⊢
    omega
  rw [C50_blocks_partial t evs p h a mid b i r he hm]
  refine ⟨?_, ?_, by rw [sum_blocks, hn]⟩
  · intro m hm
    obtain ⟨k, _, rfl⟩ := List.mem_map.1 hm
    exact ⟨rfl, by show i % 2 ^ 32 = i; omega⟩
  · intro k m hk
    have hlt : k < requestsPerPiece t := by
      have := (List.getElem?_eq_some_iff.1 hk).1
      simpa using this
    rw [map_take_range _ _ _ (by omega), sum_blocks]
    rw [List.getElem?_map, List.getElem?_range hlt] at hk
    simp only [Option.map_some, Option.some.injEq] at hk
    subst hk
    show k * blockLength % 2 ^ 32 = k * blockLength
    apply Nat.mod_eq_of_lt
    rw [hb] at hn ⊢
    omega

/-- C50 is false of the code for every other piece length: the requested ranges never cover exactly the piece. -/
theorem C50_violated (t : Torrent) (evs : List ReqEv) (p : Peer) (h : Requests (newPeer t) evs p) (a mid b : List ReqEv)
    (i : Nat) (r : Option Nat) (he : evs = a ++ .next (some i) :: (mid ++ .next r :: b)) (hm : NoNext mid)
    (h0 : 0 < t.pieceLength) (hmax : t.pieceLength < 2 ^ 63) (hdvd : ¬ (blockLength : Int) ∣ t.pieceLength) :
    ¬ Tiles i (createdIn mid) t.pieceLength.toNat := by
  rw [C50_blocks_partial t evs p h a mid b i r he hm]
  rintro ⟨_, _, hs⟩
  rw [sum_blocks] at hs
  apply hdvd
  refine ⟨requestsPerPiece t, ?_⟩
  have : (t.pieceLength.toNat : Int) = t.pieceLength := by omega
  rw [← this, ← hs, Nat.mul_comm]
  push_cast
  rfl

/-- C50, exactly, for a piece of any size (so also the last one): the requests for it cover it exactly just if its size is as many
whole blocks as fit in the piece length of the torrent (at least one), at most 4 GiB, and its number has 32 bits. -/
theorem C50_iff_partial (t : Torrent) (evs : List ReqEv) (p : Peer) (h : Requests (newPeer t) evs p) (a mid b : List ReqEv)
    (i : Nat) (r : Option Nat) (he : evs = a ++ .next (some i) :: (mid ++ .next r :: b)) (hm : NoNext mid)
    (h0 : 0 < t.pieceLength) (hmax : t.pieceLength < 2 ^ 63) (size : Nat) :
    Tiles i (createdIn mid) size ↔
      (size : Int) = max 1 (t.pieceLength / 131072) * 131072 ∧ size ≤ 2 ^ 32 ∧ i < 2 ^ 32 := by
  have hb : blockLength = 131072 := rfl
  have hn : ((requestsPerPiece t * blockLength : Nat) : Int) = max 1 (t.pieceLength / 131072) * 131072 := by
    unfold requestsPerPiece
    rw [hb]
    omega
  have hpos : 1 ≤ requestsPerPiece t := by unfold requestsPerPiece; omega
  rw [C50_blocks_partial t evs p h a mid b i r he hm]
  constructor
  · rintro ⟨h1, h2, h3⟩
    rw [sum_blocks] at h3
    have hi : i < 2 ^ 32 := by
      have := (h1 (requestMessage (i % 2 ^ 32) (0 * blockLength % 2 ^ 32) blockLength)
        (List.mem_map.2 ⟨0, List.mem_range.2 hpos, rfl⟩)).2
      have : i % 2 ^ 32 = i := this
      omega
    refine ⟨by rw [← h3, hn], ?_, hi⟩
    -- the last request starts at a place of 32 bits
    have hk : ((List.range (requestsPerPiece t)).map
        (fun k => requestMessage (i % 2 ^ 32) (k * blockLength % 2 ^ 32) blockLength))[requestsPerPiece t - 1]? =
        some (requestMessage (i % 2 ^ 32) ((requestsPerPiece t - 1) * blockLength % 2 ^ 32) blockLength) := by
      rw [List.getElem?_map, List.getElem?_range (by omega)]; rfl
    have := h2 _ _ hk
    rw [map_take_range _ _ _ (by omega), sum_blocks] at this
    have : (requestsPerPiece t - 1) * blockLength % 2 ^ 32 = (requestsPerPiece t - 1) * blockLength := this
    rw [hb] at this h3
    omega
  · rintro ⟨h1, h2, h3⟩
    have hs : requestsPerPiece t * blockLength = size := by omega
    refine ⟨?_, ?_, by rw [sum_blocks, hs]⟩
    · intro m hm
      obtain ⟨k, _, rfl⟩ := List.mem_map.1 hm
      exact ⟨rfl, by show i % 2 ^ 32 = i; omega⟩
    · intro k m hk
      have hlt : k < requestsPerPiece t := by
        have := (List.getElem?_eq_some_iff.1 hk).1
        simpa using this
      rw [map_take_range _ _ _ (by omega), sum_blocks]
      rw [List.getElem?_map, List.getElem?_range hlt] at hk
      simp only [Option.map_some, Option.some.injEq] at hk
      subst hk
      show k * blockLength % 2 ^ 32 = k * blockLength
      apply Nat.mod_eq_of_lt
      rw [hb] at hs ⊢
      omega

/-- A torrent with pieces of two and a half blocks: two requests per piece, the rest of the piece is never asked for. -/
example : ∃ (evs : List ReqEv) (p : Peer), Requests (newPeer { tiny with pieceLength := 327680 }) evs p ∧
    evs = [.created (blockRequest 0 0), .created (blockRequest 0 1), .next (some 5), .created (blockRequest 5 0),
      .created (blockRequest 5 1), .next none] := by
  have r0 : Requests (newPeer { tiny with pieceLength := 327680 }) _ _ := .start
  have r1 := Requests.call none none r0
  have r2 := Requests.call none none r1
  have r3 := Requests.call none (some 5) r2
  have r4 := Requests.call none none r3
  have r5 := Requests.call none none r4
  exact ⟨_, _, r5, rfl⟩

/-! ## C51 -/

/-- C51 is false of the code: with pieces of at least one block, the first request of every new peer is for piece 0,
although `Next` was not called. -/
theorem C51_violated (t : Torrent) (h0 : (blockLength : Int) ≤ t.pieceLength) (hmax : t.pieceLength < 2 ^ 63)
    (failed : Option PeerMessage) (next : Option Nat) :
    ∃ p, (newPeer t).nextRequestMessage failed next = (some (requestMessage 0 0 blockLength), p, [.created (requestMessage 0 0 blockLength)]) := by
  have hb : blockLength = 131072 := rfl
  unfold Peer.nextRequestMessage
  rw [if_neg (by simp only [newPeer, hb]; rw [hb] at h0; omega)]
  rw [blockRequest_create _ (by simp [newPeer])]
  have : blockRequest (newPeer t).pieceIdx (newPeer t).blockIdx = requestMessage 0 0 blockLength := by simp [blockRequest, newPeer]
  simp only [this]
  exact ⟨_, rfl⟩

/-- C51, exact: every request a peer creates concerns the piece it most recently got from `Next` (modulo 2^32), or piece 0
if it has not got any. -/
theorem C51_index_partial (t : Torrent) (evs : List ReqEv) (p : Peer) (h : Requests (newPeer t) evs p) (a b : List ReqEv)
    (m : PeerMessage) (he : evs = a ++ .created m :: b) : m.type = requestType ∧ m.index = (lastNext a).getD 0 % 2 ^ 32 := by
  have inv := requests_inv (newPeer_num t) rfl rfl rfl h
  rw [inv.made a m b he]
  exact ⟨rfl, rfl⟩

/-- C51, exact: every request returned for sending was either created then or popped from the retry queue. -/
theorem C51_returned_partial (p : Peer) (failed : Option PeerMessage) (next : Option Nat) (m : PeerMessage)
    (h : (p.nextRequestMessage failed next).1 = some m) :
    (failed = some m ∧ (p.nextRequestMessage failed next).2.2 = [.popped m]) ∨
      (p.nextRequestMessage failed next).2.2.getLast? = some (.created m) := by
  unfold Peer.nextRequestMessage at h ⊢
  split at h <;> rename_i hge
  · rw [if_pos hge]
    cases failed with
    | some req => simp only [Option.some.injEq] at h; subst h; exact .inl ⟨rfl, rfl⟩
    | none =>
      cases next with
      | none => simp at h
      | some i => simp only [Option.some.injEq] at h; subst h; exact .inr rfl
  · rw [if_neg hge]
    simp only [Option.some.injEq] at h
    subst h
    exact .inr rfl

/-! ## C57 -/

theorem bitsetNew_bit (n : Int) (j : Nat) : (bitsetNew n).bit j = false := by
  unfold bitsetNew; simp only; split <;> rfl

theorem test_set (b : BitSet) (hb : ∀ j, b.bit j = true → j < b.len) (i j : Nat) :
    (b.set i).test j = true ↔ b.test j = true ∨ j = i := by
  simp only [BitSet.test, BitSet.set]
  by_cases hj : j = i
  · subst hj
    simp
    split <;> omega
  · simp only [hj, if_false, or_false]
    by_cases hbit : b.bit j = true
    · have := hb j hbit
      rw [hbit, if_neg (by split <;> omega), if_neg (by omega)]
    · have : b.bit j = false := by cases h : b.bit j <;> simp_all
      simp [this]

theorem set_wf (b : BitSet) (hb : ∀ j, b.bit j = true → j < b.len) (i : Nat) : ∀ j, (b.set i).bit j = true → j < (b.set i).len := by
  intro j
  simp only [BitSet.set]
  by_cases hj : j = i
  · subst hj; intro _; split <;> omega
  · simp only [hj, if_false]; intro h; have := hb j h; split <;> omega

theorem createBitset_wf (payload : Bytes) : ∀ j, (createBitset payload).bit j = true → j < (createBitset payload).len := by
  intro j h
  apply Classical.byContradiction
  intro hge
  simp only [createBitset, BitSet.fromWords] at h hge
  rw [List.getD_eq_getElem?_getD, List.getElem?_eq_none (by omega)] at h
  simp at h

theorem lastOfTypes_snoc (a b : UInt8) (ms : List PeerMessage) (m : PeerMessage) :
    lastOfTypes a b (ms ++ [m]) = if m.type = a ∨ m.type = b then some m else lastOfTypes a b ms := by
  unfold lastOfTypes
  rw [List.filter_append]
  by_cases h : m.type = a ∨ m.type = b <;> simp [h]

theorem afterBitfield_snoc (ms : List PeerMessage) (m : PeerMessage) :
    afterBitfield (ms ++ [m]) = if m.type = bitfieldType then [] else afterBitfield ms ++ [m] := by
  unfold afterBitfield
  rw [List.reverse_append]
  have e : bitfieldType = 5 := rfl
  rw [e]
  by_cases h : m.type = 5 <;> simp [h, List.takeWhile_cons]

theorem handleAll_snoc (sha1 : Bytes → Bytes) (t : Torrent) : ∀ (ms : List PeerMessage) (p : Peer) (m : PeerMessage) (out : List PeerMessage) (p' : Peer),
    handleAll sha1 t p (ms ++ [m]) = .ok (out, p') →
    ∃ out1 p1 o, handleAll sha1 t p ms = .ok (out1, p1) ∧ p1.handlePeerMessage sha1 t m = .ok (o, p') ∧ out = out1 ++ o.toList := by
  intro ms
  induction ms with
  | nil =>
    intro p m out p' h
    rw [List.nil_append, handleAll] at h
    cases hm : p.handlePeerMessage sha1 t m with
    | ok x =>
      obtain ⟨o, q⟩ := x
      rw [hm] at h
      simp only [Res.bind, handleAll, Res.ok.injEq, Prod.mk.injEq, List.append_nil] at h
      obtain ⟨rfl, rfl⟩ := h
      exact ⟨[], p, o, rfl, hm, by simp⟩
    | err e => rw [hm] at h; simp [Res.bind] at h
    | panic e => rw [hm] at h; simp [Res.bind] at h
  | cons x xs ih =>
    intro p m out p' h
    rw [List.cons_append, handleAll] at h
    cases hx : p.handlePeerMessage sha1 t x with
    | ok y =>
      obtain ⟨o, q⟩ := y
      rw [hx] at h
      simp only [Res.bind] at h
      cases hr : handleAll sha1 t q (xs ++ [m]) with
      | ok z =>
        obtain ⟨os, q'⟩ := z
        rw [hr] at h
        simp only [Res.ok.injEq, Prod.mk.injEq] at h
        obtain ⟨rfl, rfl⟩ := h
        obtain ⟨out1, p1, o2, h1, h2, h3⟩ := ih q m os q' hr
        refine ⟨o.toList ++ out1, p1, o2, ?_, h2, ?_⟩
        · rw [handleAll, hx]; simp only [Res.bind]; rw [h1]
        · rw [h3, List.append_assoc]
      | err e => rw [hr] at h; simp at h
      | panic e => rw [hr] at h; simp at h
    | err e => rw [hx] at h; simp [Res.bind] at h
    | panic e => rw [hx] at h; simp [Res.bind] at h

/-- The answer of `handlePeerMessage`, by type. -/
theorem handle_cases {sha1 : Bytes → Bytes} {t : Torrent} {p p' : Peer} {m : PeerMessage} {o : Option PeerMessage}
    (h : p.handlePeerMessage sha1 t m = .ok (o, p')) :
    (m.type = bitfieldType ∧ o = none ∧ p' = { p with bitset := createBitset m.payload }) ∨
    (m.type = haveType ∧ o = none ∧ p' = { p with bitset := p.bitset.set m.index }) ∨
    (m.type = interestedType ∧ o = none ∧ p' = { p with peerInterested := true }) ∨
    (m.type = notInterestedType ∧ o = none ∧ p' = { p with peerInterested := false }) ∨
    (m.type = chokeType ∧ o = none ∧ p' = { p with clientChoked := true }) ∨
    (m.type = unchokeType ∧ o = none ∧ p' = { p with clientChoked := false }) ∨
    (m.type = pieceType ∧ Verified sha1 t m ∧ o = some m ∧ p' = { p with bitset := p.bitset.set m.index }) ∨
    (m.type = pieceType ∧ ¬ Verified sha1 t m ∧ o = none ∧ p' = p) ∨
    (m.type ≠ bitfieldType ∧ m.type ≠ haveType ∧ m.type ≠ interestedType ∧ m.type ≠ notInterestedType ∧ m.type ≠ chokeType ∧
      m.type ≠ unchokeType ∧ m.type ≠ pieceType ∧ o = none ∧ p' = p) := by
  unfold Peer.handlePeerMessage at h
  split at h
  · rename_i e
    simp only [Res.ok.injEq, Prod.mk.injEq] at h
    obtain ⟨rfl, rfl⟩ := h
    rw [e]
    exact .inr (.inr (.inr (.inr (.inr (.inr (.inr (.inr ⟨by decide, by decide, by decide, by decide, by decide, by decide, by decide, rfl, rfl⟩)))))))
  split at h
  · rename_i e
    simp only [Res.ok.injEq, Prod.mk.injEq] at h
    obtain ⟨rfl, rfl⟩ := h
    exact .inl ⟨e, rfl, rfl⟩
  split at h
  · rename_i e
    simp only [Res.ok.injEq, Prod.mk.injEq] at h
    obtain ⟨rfl, rfl⟩ := h
    exact .inr (.inl ⟨e, rfl, rfl⟩)
  split at h
  · rename_i e
    simp only [Res.ok.injEq, Prod.mk.injEq] at h
    obtain ⟨rfl, rfl⟩ := h
    exact .inr (.inr (.inl ⟨e, rfl, rfl⟩))
  split at h
  · rename_i e
    simp only [Res.ok.injEq, Prod.mk.injEq] at h
    obtain ⟨rfl, rfl⟩ := h
    exact .inr (.inr (.inr (.inl ⟨e, rfl, rfl⟩)))
  split at h
  · rename_i e
    simp only [Res.ok.injEq, Prod.mk.injEq] at h
    obtain ⟨rfl, rfl⟩ := h
    exact .inr (.inr (.inr (.inr (.inl ⟨e, rfl, rfl⟩))))
  split at h
  · rename_i e
    simp only [Res.ok.injEq, Prod.mk.injEq] at h
    obtain ⟨rfl, rfl⟩ := h
    exact .inr (.inr (.inr (.inr (.inr (.inl ⟨e, rfl, rfl⟩)))))
  split at h
  · rename_i e
    cases ha : acceptPiece sha1 t m with
    | ok x =>
      rw [ha] at h
      cases x with
      | some m' =>
        simp only [Res.bind, Res.ok.injEq, Prod.mk.injEq] at h
        obtain ⟨rfl, rfl⟩ := h
        obtain ⟨rfl, d, q, h1, h2, h3⟩ := accept_inv ha
        exact .inr (.inr (.inr (.inr (.inr (.inr (.inl ⟨e, ⟨e, q, d, h2, h1, h3⟩, rfl, rfl⟩))))))
      | none =>
        simp only [Res.bind, Res.ok.injEq, Prod.mk.injEq] at h
        obtain ⟨rfl, rfl⟩ := h
        refine .inr (.inr (.inr (.inr (.inr (.inr (.inr (.inl ⟨e, ?_, rfl, rfl⟩)))))))
        rintro ⟨_, q, d, h2, h1, h3⟩
        unfold acceptPiece at ha
        rw [h1] at ha
        simp [Res.bind, checkPiece, h2, h3] at ha
    | err e => rw [ha] at h; simp [Res.bind] at h
    | panic e => rw [ha] at h; simp [Res.bind] at h
  · rename_i a b c d e f g hh
    simp only [Res.ok.injEq, Prod.mk.injEq] at h
    obtain ⟨rfl, rfl⟩ := h
    exact .inr (.inr (.inr (.inr (.inr (.inr (.inr (.inr ⟨b, c, d, e, f, g, hh, rfl, rfl⟩)))))))

theorem handle_flags {sha1 : Bytes → Bytes} {t : Torrent} {p p' : Peer} {m : PeerMessage} {o : Option PeerMessage}
    (h : p.handlePeerMessage sha1 t m = .ok (o, p')) :
    p'.clientChoked = (if m.type = chokeType then true else if m.type = unchokeType then false else p.clientChoked) ∧
    p'.peerInterested = (if m.type = interestedType then true else if m.type = notInterestedType then false else p.peerInterested) ∧
    p'.clientInterested = p.clientInterested ∧ p'.peerChoked = p.peerChoked := by
  rcases handle_cases h with ⟨e, _, rfl⟩ | ⟨e, _, rfl⟩ | ⟨e, _, rfl⟩ | ⟨e, _, rfl⟩ | ⟨e, _, rfl⟩ | ⟨e, _, rfl⟩ | ⟨e, _, _, rfl⟩ |
    ⟨e, _, _, rfl⟩ | ⟨_, _, e1, e2, e3, e4, _, _, rfl⟩
  iterate 8 (refine ⟨?_, ?_, rfl, rfl⟩ <;> simp only [e] <;> first | rfl | decide)
  refine ⟨?_, ?_, rfl, rfl⟩
  · rw [if_neg e3, if_neg e4]
  · rw [if_neg e1, if_neg e2]

theorem handle_bits {sha1 : Bytes → Bytes} {t : Torrent} {p p' : Peer} {m : PeerMessage} {o : Option PeerMessage}
    (h : p.handlePeerMessage sha1 t m = .ok (o, p')) :
    (m.type = bitfieldType ∧ p'.bitset = createBitset m.payload) ∨
    (m.type ≠ bitfieldType ∧ (m.type = haveType ∨ Verified sha1 t m) ∧ p'.bitset = p.bitset.set m.index) ∨
    (m.type ≠ bitfieldType ∧ ¬ (m.type = haveType ∨ Verified sha1 t m) ∧ p'.bitset = p.bitset) := by
  have nv : m.type ≠ pieceType → ¬ Verified sha1 t m := fun e v => e v.1
  rcases handle_cases h with ⟨e, _, rfl⟩ | ⟨e, _, rfl⟩ | ⟨e, _, rfl⟩ | ⟨e, _, rfl⟩ | ⟨e, _, rfl⟩ | ⟨e, _, rfl⟩ | ⟨e, v, _, rfl⟩ |
    ⟨e, v, _, rfl⟩ | ⟨e1, e2, _, _, _, _, e3, _, rfl⟩
  · exact .inl ⟨e, rfl⟩
  · exact .inr (.inl ⟨by rw [e]; decide, .inl e, rfl⟩)
  iterate 4
    · refine .inr (.inr ⟨by rw [e]; decide, ?_, rfl⟩)
      rintro (a | a)
      · rw [e] at a; revert a; decide
      · exact nv (by rw [e]; decide) a
  · exact .inr (.inl ⟨by rw [e]; decide, .inr v, rfl⟩)
  · refine .inr (.inr ⟨by rw [e]; decide, ?_, rfl⟩)
    rintro (a | a)
    · rw [e] at a; revert a; decide
    · exact v a
  · refine .inr (.inr ⟨e1, ?_, rfl⟩)
    rintro (a | a)
    · exact e2 a
    · exact nv e3 a

theorem handle_out {sha1 : Bytes → Bytes} {t : Torrent} {p p' : Peer} {m : PeerMessage} {o : Option PeerMessage}
    (h : p.handlePeerMessage sha1 t m = .ok (o, p')) : (Verified sha1 t m ∧ o = some m) ∨ (¬ Verified sha1 t m ∧ o = none) := by
  have nv : m.type ≠ pieceType → ¬ Verified sha1 t m := fun e v => e v.1
  rcases handle_cases h with ⟨e, r, _⟩ | ⟨e, r, _⟩ | ⟨e, r, _⟩ | ⟨e, r, _⟩ | ⟨e, r, _⟩ | ⟨e, r, _⟩ | ⟨e, v, r, _⟩ |
    ⟨e, v, r, _⟩ | ⟨e1, e2, _, _, _, _, e3, r, _⟩
  iterate 6 exact .inr ⟨nv (by rw [e]; decide), r⟩
  · exact .inl ⟨v, r⟩
  · exact .inr ⟨v, r⟩
  · exact .inr ⟨nv e3, r⟩

theorem snoc_induction {α : Type} {P : List α → Prop} (h0 : P []) (h1 : ∀ l a, P l → P (l ++ [a])) (l : List α) : P l := by
  have : ∀ l : List α, P l.reverse := by
    intro l
    induction l with
    | nil => exact h0
    | cons a l ih => rw [List.reverse_cons]; exact h1 _ _ ih
  have := this l.reverse
  rwa [List.reverse_reverse] at this

open Classical in
/-- C57: after any messages that were handled, starting with a new peer, the choke flag, the interest flag and the piece
set are those the messages determine, and the pieces given to the writer are the verified ones, in order. -/
theorem C57_state (sha1 : Bytes → Bytes) (t : Torrent) (ms : List PeerMessage) (out : List PeerMessage) (p : Peer)
    (h : handleAll sha1 t (newPeer t) ms = .ok (out, p)) :
    (p.clientChoked = true ↔ ∀ m, lastOfTypes chokeType unchokeType ms = some m → m.type = chokeType) ∧
    (p.peerInterested = true ↔ ∃ m, lastOfTypes interestedType notInterestedType ms = some m ∧ m.type = interestedType) ∧
    (∀ j, p.bitset.test j = true ↔
      (∃ m, lastOfTypes bitfieldType bitfieldType ms = some m ∧ (createBitset m.payload).test j = true) ∨
      (∃ m ∈ afterBitfield ms, m.index = j ∧ (m.type = haveType ∨ Verified sha1 t m))) ∧
    out = ms.filter (fun m => decide (Verified sha1 t m)) ∧
    p.clientInterested = false ∧ p.peerChoked = true := by
  suffices hh : ((p.clientChoked = true ↔ ∀ m, lastOfTypes chokeType unchokeType ms = some m → m.type = chokeType) ∧
    (p.peerInterested = true ↔ ∃ m, lastOfTypes interestedType notInterestedType ms = some m ∧ m.type = interestedType) ∧
    (∀ j, p.bitset.test j = true ↔
      (∃ m, lastOfTypes bitfieldType bitfieldType ms = some m ∧ (createBitset m.payload).test j = true) ∨
      (∃ m ∈ afterBitfield ms, m.index = j ∧ (m.type = haveType ∨ Verified sha1 t m))) ∧
    out = ms.filter (fun m => decide (Verified sha1 t m)) ∧
    p.clientInterested = false ∧ p.peerChoked = true) ∧ ∀ j, p.bitset.bit j = true → j < p.bitset.len from hh.1
  induction ms using snoc_induction generalizing out p with
  | h0 =>
    simp only [handleAll, Res.ok.injEq, Prod.mk.injEq] at h
    obtain ⟨rfl, rfl⟩ := h
    refine ⟨⟨by simp [newPeer, lastOfTypes], by simp [newPeer, lastOfTypes], ?_, rfl, rfl, rfl⟩, ?_⟩
    · intro j
      simp [lastOfTypes, afterBitfield, newPeer, BitSet.test, bitsetNew_bit]
    · intro j hj
      simp [newPeer, bitsetNew_bit] at hj
  | h1 ms m ih =>
    obtain ⟨out1, p1, o, k1, k2, rfl⟩ := handleAll_snoc sha1 t ms _ m out p h
    obtain ⟨⟨i1, i2, i3, i4, i5, i6⟩, i7⟩ := ih out1 p1 k1
    obtain ⟨f1, f2, f3, f4⟩ := handle_flags k2
    refine ⟨⟨?_, ?_, ?_, ?_, by rw [f3]; exact i5, by rw [f4]; exact i6⟩, ?_⟩
    · rw [f1, lastOfTypes_snoc]
      by_cases e : m.type = chokeType
      · simp [e]
      · by_cases e2 : m.type = unchokeType
        · have : m.type ≠ chokeType := e
          simp [e, e2]
        · simp [e, e2, i1]
    · rw [f2, lastOfTypes_snoc]
      by_cases e : m.type = interestedType
      · simp [e]
      · by_cases e2 : m.type = notInterestedType
        · simp [e2]
        · simp [e, e2, i2]
    · intro j
      rw [lastOfTypes_snoc, afterBitfield_snoc]
      rcases handle_bits k2 with ⟨e, b⟩ | ⟨e, v, b⟩ | ⟨e, v, b⟩
      · rw [b]; simp [e]
      · rw [b, test_set _ i7, i3]
        simp only [e, or_self, if_false, List.mem_append, List.mem_singleton]
        constructor
        · rintro ((a | ⟨x, hx, a⟩) | a)
          · exact .inl a
          · exact .inr ⟨x, .inl hx, a⟩
          · exact .inr ⟨m, .inr rfl, a.symm, v⟩
        · rintro (a | ⟨x, hx | rfl, a, a2⟩)
          · exact .inl (.inl a)
          · exact .inl (.inr ⟨x, hx, a, a2⟩)
          · exact .inr a.symm
      · rw [b, i3]
        simp only [e, or_self, if_false, List.mem_append, List.mem_singleton]
        constructor
        · rintro (a | ⟨x, hx, a⟩)
          · exact .inl a
          · exact .inr ⟨x, .inl hx, a⟩
        · rintro (a | ⟨x, hx | rfl, a, a2⟩)
          · exact .inl a
          · exact .inr ⟨x, hx, a, a2⟩
          · exact absurd a2 v
    · rw [List.filter_append, ← i4]
      rcases handle_out k2 with ⟨v, rfl⟩ | ⟨v, rfl⟩
      · simp [v]
      · simp [v]
    · rcases handle_bits k2 with ⟨_, b⟩ | ⟨_, _, b⟩ | ⟨_, _, b⟩
      · rw [b]; exact createBitset_wf _
      · rw [b]; exact set_wf _ i7 _
      · rw [b]; exact i7

/-- Have 1, unchoke, piece 2, choke, interested. -/
example : ∃ out p m1 m2 m3 m4 m5, newPeerMessage [4, 0, 0, 0, 1] = .ok m1 ∧ newPeerMessage [1] = .ok m2 ∧
    newPeerMessage (pieceFrame 2 0 [50]) = .ok m3 ∧ newPeerMessage [0] = .ok m4 ∧ newPeerMessage [2] = .ok m5 ∧
    handleAll tinySha tiny (newPeer tiny) [m1, m2, m3, m4, m5] = .ok (out, p) ∧ out = [m3] ∧ p.clientChoked = true ∧
    p.peerInterested = true := by
  refine ⟨_, _, _, _, _, _, _, rfl, rfl, rfl, rfl, rfl, rfl, rfl, rfl, rfl⟩

end Gotit.Props
