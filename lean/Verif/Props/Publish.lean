import Verif.Spec.Publish
import Verif.Props.FullLength
import Verif.Props.ProgramFile
import Verif.Props.DeadEnd
/-
  C144: whatever is published can be downloaded.
-/
namespace Gotit.Props
open Gotit Gotit.Spec

/-! ### The torrent file of a share -/

/-- The metainfo of the torrent file. -/
def metaOf (sha1 : Bytes → Bytes) (pl : Nat) (url : Bytes) (s : Share) : Metainfo :=
  { announce := url, announceList := [], urlList := []
    files := match s with
      | .file _ _ => []
      | .dir _ fs => fs.map (fun f => ⟨f.1, f.2.length⟩)
    infoLength := match s with
      | .file _ c => c.length
      | .dir _ _ => 0
    name := s.name, pieceLength := pl, pieces := hashesOf sha1 s.content pl, infoDictRaw := (s.info sha1 pl).encode }

theorem each_entries : ∀ fs : List (List Bytes × Bytes), Each IsFile (fs.map fileEntry) (fs.map (fun f => ⟨f.1, f.2.length⟩))
  | [] => .nil
  | f :: fs => .cons ⟨true, _, [], rfl, ⟨.list true (f.1.map .str) [], by simp, true, [], rfl⟩, by simp⟩ (each_entries fs)

theorem torrent_is (sha1 : Bytes → Bytes) (pl : Nat) (url : Bytes) (s : Share) : IsMetainfo (s.torrent sha1 pl url) (metaOf sha1 pl url s) := by
  refine ⟨true, _, [], rfl, by simp [metaOf], .inr ⟨lacks_keys (by simp only [List.map_cons, List.map_nil]; decide), rfl⟩,
    .inr ⟨lacks_keys (by simp only [List.map_cons, List.map_nil]; decide), rfl⟩, ⟨s.info sha1 pl, by simp, ?_, rfl⟩,
    .inl (lacks_keys (by simp only [List.map_cons, List.map_nil]; decide))⟩
  cases s with
  | file n c =>
    exact ⟨true, _, [], rfl, by simp [metaOf, Share.name], by simp [metaOf], by simp [metaOf, Share.content],
      .inl ⟨by simp [metaOf], lacks_keys (by simp only [List.map_cons, List.map_nil]; decide), rfl⟩⟩
  | dir n fs =>
    exact ⟨true, _, [], rfl, by simp [metaOf, Share.name], by simp [metaOf], by simp [metaOf, Share.content],
      .inr ⟨lacks_keys (by simp only [List.map_cons, List.map_nil]; decide), rfl, true, fs.map fileEntry, [], by simp, each_entries fs⟩⟩

/-! ### The hashes -/

theorem pieceCount_spec {n pl : Nat} (hp : 0 < pl) (i : Nat) : i < pieceCount n pl ↔ i * pl < n := by
  unfold pieceCount
  rw [Nat.lt_iff_add_one_le, Nat.le_div_iff_mul_le hp, Nat.add_mul]
  omega

theorem pieceCount_covers {n pl : Nat} (hp : 0 < pl) : n ≤ pieceCount n pl * pl := by
  have := (pieceCount_spec (n := n) hp (pieceCount n pl)).2
  rcases Nat.lt_or_ge (pieceCount n pl * pl) n with h | h
  · exact absurd (this h) (Nat.lt_irrefl _)
  · exact h

theorem blocks_length {f : Nat → Bytes} (hf : ∀ i, (f i).length = 20) : ∀ l : List Nat, (l.flatMap f).length = 20 * l.length
  | [] => rfl
  | i :: l => by
    rw [List.flatMap_cons, List.length_append, hf, blocks_length hf l, List.length_cons]; omega

theorem blocks_get {f : Nat → Bytes} (hf : ∀ i, (f i).length = 20) : ∀ (l : List Nat) (i x : Nat), l[i]? = some x →
    ((l.flatMap f).drop (20 * i)).take 20 = f x
  | [], i, x, h => by simp at h
  | y :: l, 0, x, h => by
    simp only [List.getElem?_cons_zero, Option.some.injEq] at h
    subst h
    rw [List.flatMap_cons, Nat.mul_zero, List.drop_zero, List.take_append_of_le_length (by rw [hf]; omega),
      List.take_of_length_le (by rw [hf]; omega)]
  | y :: l, i + 1, x, h => by
    rw [List.getElem?_cons_succ] at h
    rw [List.flatMap_cons, show 20 * (i + 1) = 20 + 20 * i by omega, ← List.drop_drop,
      List.drop_append_of_le_length (by rw [hf]; omega), List.drop_of_length_le (l := f y) (by rw [hf]; omega), List.nil_append]
    exact blocks_get hf l i x h

variable {sha1 : Bytes → Bytes} {pl : Nat} {url : Bytes} {s : Share}

theorem hashes_length (hf : ∀ x, (sha1 x).length = 20) (content : Bytes) (pl : Nat) :
    (hashesOf sha1 content pl).length = 20 * pieceCount content.length pl := by
  unfold hashesOf
  rw [blocks_length (fun i => hf _), List.length_range]

theorem torrent_encodable (hf : ∀ x, (sha1 x).length = 20) (h : s.Sized pl url) : Encodable (s.torrent sha1 pl url) := by
  obtain ⟨hsome, hsize, hpl, hcount, hurl, hname, hnames⟩ := h
  have hi : ∀ n : Nat, n ≤ 2 ^ 51 → Encodable (.int n) := fun n h => encodable_int (by simp only [maxNumber]; omega)
  have hs : ∀ b : Bytes, b.length ≤ 20 * 2 ^ 32 → Encodable (.str b) := fun b h => encodable_str (by simp only [maxNumber]; omega)
  have hk : ∀ kvs : List (Bytes × Bencode), (∀ e ∈ kvs, e.1.length ≤ 100) → ∀ e ∈ kvs, e.1.length ≤ maxNumber :=
    fun kvs h e he => by have := h e he; simp only [maxNumber]; omega
  refine encodable_dict ?_ (by simp only [List.map_cons, List.map_nil]; decide) (hk _ (by simp; decide))
  simp only [List.mem_cons, List.not_mem_nil, or_false, forall_eq_or_imp, forall_eq]
  refine ⟨hs _ (by omega), ?_⟩
  have hhash : Encodable (.str (hashesOf sha1 s.content pl)) := hs _ (by rw [hashes_length hf]; omega)
  cases s with
  | file n c =>
    refine encodable_dict ?_ (by simp only [List.map_cons, List.map_nil]; decide) (hk _ (by simp; decide))
    simp only [List.mem_cons, List.not_mem_nil, or_false, forall_eq_or_imp, forall_eq]
    exact ⟨hi _ hsize, hs _ (by simp only [Share.name] at hname; omega), hi _ (by omega), hhash⟩
  | dir n fs =>
    refine encodable_dict ?_ (by simp only [List.map_cons, List.map_nil]; decide) (hk _ (by simp; decide))
    simp only [List.mem_cons, List.not_mem_nil, or_false, forall_eq_or_imp, forall_eq]
    refine ⟨encodable_list ?_, hs _ (by simp only [Share.name] at hname; omega), hi _ (by omega), hhash⟩
    intro v hv
    obtain ⟨f, hm, rfl⟩ := List.mem_map.1 hv
    refine encodable_dict ?_ (by simp only [List.map_cons, List.map_nil]; decide) (hk _ (by simp; decide))
    simp only [List.mem_cons, List.not_mem_nil, or_false, forall_eq_or_imp, forall_eq]
    refine ⟨hi _ ?_, encodable_list ?_⟩
    · simp only [Share.content, List.length_flatMap] at hsize
      have := le_sum (List.mem_map_of_mem (f := fun f : List Bytes × Bytes => f.2.length) hm)
      omega
    · intro v hv
      obtain ⟨c, hc, rfl⟩ := List.mem_map.1 hv
      have := hnames n fs rfl f hm c hc
      exact hs _ (by omega)

/-! ### The torrent -/

/-- The first names of the paths differ. -/
def FirstNames (s : Share) : Prop := ∀ n fs, s = .dir n fs → (fs.map (fun f => f.1.headD [])).Nodup

theorem flat_firstNames (hn : s.Named) (hf : s.Flat) : FirstNames s := by
  intro n fs e
  subst e
  obtain ⟨_, _, h3⟩ := hn
  have : fs.map (·.1) = (fs.map (fun f => f.1.headD [])).map (fun c => [c]) := by
    rw [List.map_map]
    apply List.map_congr_left
    intro f hm
    have := hf f hm
    obtain ⟨p, c⟩ := f
    match p, this with
    | [x], _ => rfl
  rw [this] at h3
  exact List.Pairwise.of_map (fun c : Bytes => [c]) (fun a b h e => h (by rw [e])) h3

theorem meta_sensible (hn : s.Named) (hf : FirstNames s) (h : s.Sized pl url) : Sensible (metaOf sha1 pl url s) := by
  obtain ⟨hsome, hsize, -⟩ := h
  cases s with
  | file n c =>
    have := List.length_pos_iff.2 hsome
    simp only [Share.content] at this hsize
    exact ⟨fun _ => by simp only [metaOf]; omega, fun h => by simp only [metaOf] at h; omega⟩
  | dir n fs =>
    refine ⟨fun h => absurd rfl h, fun _ => ⟨?_, ?_, ?_⟩⟩
    · intro f hm
      simp only [metaOf] at hm
      obtain ⟨g, hg, rfl⟩ := List.mem_map.1 hm
      refine ⟨by simp, ?_⟩
      obtain ⟨h1, h2⟩ := hn.2.1 g hg
      obtain ⟨p, c⟩ := g
      cases p with
      | nil => exact absurd rfl h1
      | cons x p => exact h2 x (by simp)
    · simp only [metaOf, List.map_map, Share.content, List.length_flatMap] at hsize ⊢
      have : ((fun f : TorrentFile => f.length.toNat) ∘ fun f : List Bytes × Bytes => (⟨f.1, f.2.length⟩ : TorrentFile)) = fun f => f.2.length := by
        funext f; simp
      rw [this]
      omega
    · simp only [metaOf, List.map_map]
      exact hf n fs rfl

/-- What `New` makes of the metainfo. -/
theorem meta_new (hh : ∀ x, (sha1 x).length = 20) (hn : s.Named) (hf : FirstNames s) (h : s.Sized pl url) {os : Os} {root : Bytes} {disk disk' : Disk}
    {t : Torrent} (ho : newTorrent sha1 os (metaOf sha1 pl url s) root disk = (.ok t, disk')) :
    ContentOf sha1 t s.content pl ∧ t.pieces.length = pieceCount s.content.length pl ∧ t.trackers = [url] ∧ t.hash.length = 20 := by
  obtain ⟨_, _, htot, _⟩ := C41_reachable _ _ _ _ _ _ _ ho (meta_sensible hn hf h)
  obtain ⟨e0, _, hdir, _, e1, e2, _, htr, hhash, _⟩ := newTorrent_ok ho
  obtain ⟨hsome, hsize, hpl, hcount, -⟩ := h
  obtain ⟨t1, t2, _⟩ := C35_table _ _ e0
  have hpl' : (metaOf sha1 pl url s).pieces = hashesOf sha1 s.content pl := rfl
  rw [hpl', hashes_length hh] at t1
  have hlen : t.length = s.content.length := by
    rw [e1]
    cases s with
    | file n c =>
      have := List.length_pos_iff.2 hsome
      simp only [Share.content] at this
      show torrentLength (metaOf sha1 pl url (.file n c)) = (c.length : Int)
      unfold torrentLength
      exact if_pos (show (c.length : Int) ≠ 0 by omega)
    | dir n fs =>
      have hlen : torrentLength (metaOf sha1 pl url (.dir n fs)) =
          (fs.map (fun f => (⟨f.1, f.2.length⟩ : TorrentFile))).foldl (fun (a : Int) f => wrap64 (a + f.length)) 0 :=
        if_neg (show ¬ ((0 : Int) ≠ 0) by simp)
      rw [hlen]
      simp only [Share.content]
      have hsum : ((fs.map (fun f => (⟨f.1, f.2.length⟩ : TorrentFile))).map (fun f => f.length.toNat)).sum = (fs.flatMap (·.2)).length := by
        rw [List.map_map, List.length_flatMap]
        congr 1
      have := foldl_length (fs.map (fun f => (⟨f.1, f.2.length⟩ : TorrentFile))) 0 (by
        intro f hm
        obtain ⟨g, _, rfl⟩ := List.mem_map.1 hm
        simp) (by rw [hsum]; simp only [Share.content] at hsize; omega)
      rw [hsum] at this
      simpa using this
  refine ⟨⟨e2, hpl.1, by omega, by omega, ?_⟩, by omega, by rw [htr]; rfl, by rw [hhash]; exact hh _⟩
  intro i p hp
  have hi : i < t.pieces.length := (List.getElem?_eq_some_iff.1 hp).1
  have hic : i < pieceCount s.content.length pl := by omega
  have := (pieceCount_spec hpl.1 i).1 hic
  refine ⟨by omega, ?_⟩
  obtain ⟨p', q1, _, q3, _⟩ := t2 i hi
  rw [hp] at q1
  cases q1
  rw [q3, hpl']
  exact blocks_get (f := fun i => sha1 (pieceOf s.content pl i)) (fun i => hh _) _ i i (by rw [List.getElem?_range hic])

/-! ### On the disk -/

theorem stored_full {n : Nat} {c : Bytes} (h : c.length = n) : stored n c = c := by
  unfold stored
  rw [List.take_of_length_le (by omega), h, Nat.sub_self, List.replicate_zero, List.append_nil]

theorem flatMap_parts {α : Type} {g h : α → Bytes} : ∀ l : List α, (∀ x ∈ l, (g x).length = (h x).length) → l.flatMap g = l.flatMap h →
    ∀ x ∈ l, g x = h x
  | [], _, _, x, hx => by cases hx
  | y :: l, hl, he, x, hx => by
    rw [List.flatMap_cons, List.flatMap_cons] at he
    obtain ⟨h1, h2⟩ := List.append_inj he (hl y (by simp))
    rcases List.mem_cons.1 hx with rfl | hx
    · exact h1
    · exact flatMap_parts l (fun z hz => hl z (by simp [hz])) h2 x hx

theorem layout_full {d : Disk} {fs : List (Nat × Bytes)} (h : ∀ x ∈ fs, (d x.2).length = x.1) : layout d fs = fs.flatMap (fun x => d x.2) := by
  unfold layout
  induction fs with
  | nil => rfl
  | cons x fs ih =>
    rw [List.flatMap_cons, List.flatMap_cons, stored_full (h x (by simp)), ih (fun y hy => h y (by simp [hy]))]

/-- The files, with lengths and paths. -/
def extentsOf (root : Bytes) : Share → List (Nat × Bytes)
  | .file n c => [(c.length, join root n)]
  | .dir n fs => fs.map (fun f => (f.2.length, join (join root n) (f.1.headD [])))

theorem meta_extents (hn : s.Named) (h : s.content ≠ []) {os : Os} {root : Bytes} {disk disk' : Disk} {t : Torrent}
    (ho : newTorrent sha1 os (metaOf sha1 pl url s) root disk = (.ok t, disk')) :
    extents t = extentsOf root s := by
  obtain ⟨_, hi, hdir, hfs, e1, _⟩ := newTorrent_ok ho
  obtain ⟨g1, g2, _⟩ := initDownloadDir_ok hi
  cases s with
  | file n c =>
    have hpos := List.length_pos_iff.2 h
    simp only [Share.content] at hpos
    have hne : ¬ ((c.length : Int) = 0) := by omega
    simp only [metaOf] at g2 hdir e1
    have hos := g2 (decide_eq_false hne)
    have hd : t.isDirectory = false := by rw [hdir]; exact decide_eq_false hne
    have hl : t.length = c.length := by
      rw [e1]; exact if_pos hne
    simp only [extents, hd, hos, hl]
    simp [Share.name, extentsOf]
  | dir n fs =>
    simp only [metaOf] at g1 hdir hfs
    have hd : t.isDirectory = true := by rw [hdir]; simp
    have hp := g1 (by simp)
    rw [if_pos trivial, filePaths_ok _ _ (by
      intro f hm
      obtain ⟨g, hg, rfl⟩ := List.mem_map.1 hm
      exact (hn.2.1 g hg).1)] at hp
    simp only [Res.ok.injEq, List.map_map] at hp
    rw [if_pos trivial] at hfs
    simp only [extents, hd, if_true, hfs, ← hp, List.zip_map', List.map_map]
    apply List.map_congr_left
    intro f _
    simp [Share.name]

theorem pathTo_join {root n : Bytes} (h : PlainName n) : PathTo root [n] (join root n) := by
  obtain ⟨h1, h2⟩ := place_join_plain root n h
  exact ⟨h2, h1⟩

theorem pathTo_join2 {root n c : Bytes} (h : PlainName n) (h' : PlainName c) : PathTo root [n, c] (join (join root n) c) := by
  obtain ⟨h1, h2⟩ := place_join_plain root n h
  obtain ⟨h3, h4⟩ := place_join_plain (join root n) c h'
  exact ⟨h4.trans h2, by rw [h3, h1]; simp⟩

/-! ### The download -/

/-- C78 for every content: a peer that sends every piece without being asked, whole and in order, leads to a state where the files are
the content. (The torrent counts as done only if the content fills its last piece.) -/
theorem pushed_any (sha1 : Bytes → Bytes) (os : Os) (mi : Metainfo) (root : Bytes) (disk disk' : Disk) (t : Torrent)
    (hn : newTorrent sha1 os mi root disk = (.ok t, disk')) (hs : Sensible mi) (content : Bytes) (pl : Nat)
    (hc : ContentOf sha1 t content pl) (hne : content ≠ []) (hsz : content.length ≤ 2 ^ 51) (hpl : pl + 9 < 2 ^ 32)
    (hcount : content.length ≤ t.pieces.length * pl) (hnum : t.pieces.length ≤ 2 ^ 32) :
    ∃ W, World.Reachable sha1 t (newPeer t) disk' W ∧ layout W.out.disk (extents t) = content ∧
      (∀ x ∈ extents t, (W.out.disk x.2).length = x.1) ∧
      (∀ i f, (i, RunEv.received f) ∈ W.trace → f.length < 2 ^ 32) ∧ (∃ r, W.peers = [(0, r)]) ∧ W.alive ∧ W.closed = false := by
  obtain ⟨hr, hw, htot, _⟩ := C41_reachable _ _ _ _ _ _ _ hn hs
  obtain ⟨k, k0, hdown, k1, k2, hidx⟩ := new_count hn hs hc hne hsz (by omega)
  have hp0 := hc.positive
  have hkl : k ≤ t.pieces.length := by
    apply Classical.byContradiction
    intro h
    have : t.pieces.length * pl ≤ (k - 1) * pl := Nat.mul_le_mul_right _ (by omega)
    omega
  have hk32 : k ≤ 2 ^ 32 := by omega
  obtain ⟨w', f1, f2, f3⟩ := all_pieces hr hc hw hdown hidx hk32
  obtain ⟨r, a0, a1, a2, a3⟩ := At.start (sha1 := sha1) (t := t) (p0 := newPeer t) (disk := disk') rfl
  obtain ⟨r', es, ⟨W, hW, so⟩, hes⟩ := push_all ((List.range k).map (wholePiece content pl)) r _ w' _ _ a0 a1 a2 a3 (by
      intro x hx
      obtain ⟨i, hi, rfl⟩ := List.mem_map.1 hx
      rw [List.mem_range] at hi
      obtain ⟨b1, b2, -⟩ := pieceMsg_ok i 0 (pieceOf content pl i) (by omega) (by omega)
      exact ⟨b1, b2, pieceMsg_accepted hc (by omega) (by omega) (by omega)⟩) f1 (by
      intro a x b oa he hoa
      have hal : a.length < k := by
        have := congrArg List.length he
        simp at this; omega
      have ha := range_prefix (rest := []) (by simpa using he) (Nat.le_of_lt hal)
      obtain ⟨wa, g1, _, g3, g4, _⟩ := first_pieces hr hc hw hdown hidx hk32 a.length (by omega)
      rw [← ha, hoa] at g1
      cases g1
      cases hall : oa.downloaded.all with
      | false => rfl
      | true =>
        rw [BitSet.all_iff] at hall
        have := (g4 _).1 (hall a.length (by rw [g3]; exact hal))
        omega)
  refine ⟨W, hW, by rw [so.out]; exact f2, by rw [so.out]; exact f3, ?_, ⟨_, so.peers⟩, so.isAlive, so.closed⟩
  intro i f hm
  rw [so.trace] at hm
  have := hes i f (by simpa using hm)
  simp only [List.map_map, List.mem_map, Function.comp, wholePiece] at this
  obtain ⟨j, _, rfl⟩ := this
  have := pieceOf_length content pl j
  simp [pieceFrame]
  omega

/-- C144, for everything without directories inside: the torrent file is opened, and with a tracker that names one peer there is a run of
the whole program after which the files are in the download directory, byte for byte, and which a signal has ended normally. -/
theorem C144_flat_partial (sha1 : Bytes → Bytes) (hh : ∀ x, (sha1 x).length = 20) (os : Os) (hm : ∀ p, os.mkdirNotExist p = false)
    (hcr : ∀ p, os.createError p = none) (s : Share) (pl : Nat) (url : Bytes) (hn : s.Named) (hf : s.Flat) (hz : s.Sized pl url)
    (outDir : Bytes) (disk0 : Disk) (clientId : Bytes) (parseAddr : Bytes → Option Addr) (name : AddrPort → Bytes)
    (rest : Bytes → Bytes → Bytes → Option Bytes) (dial : Bytes → Bool) (hu : trackerNew rest dial url = .http url)
    (ip : AddrPort) (ht ht' : HttpTracker) (reply : HttpReply) (hr : httpAnnounce parseAddr ht reply = (ht', .ok [ip]))
    (hip : name ip ≠ name .zero) :
    ∃ t disk P, openTorrent sha1 os outDir (.ok true) (.ok (s.torrent sha1 pl url).encode) disk0 = (.ok t, disk) ∧ t.trackers = [url] ∧
      Prog.Reachable ⟨sha1, t, clientId, parseAddr, name, rest, dial, t.trackers⟩ disk P ∧ s.OnDisk P.world.out.disk outDir ∧
      P.mgr.main = .stopped ∧ P.alive := by
  have hfn := flat_firstNames hn hf
  have hsen := meta_sensible (sha1 := sha1) hn hfn hz
  obtain ⟨t, d', ho⟩ := newTorrent_succeeds sha1 os (metaOf sha1 pl url s) outDir disk0 (by
      show (hashesOf sha1 s.content pl).length % 20 = 0
      rw [hashes_length hh]; omega) (by
      intro h0 f hmf
      have := ((hsen.multi h0).1 f hmf).2.1
      intro e
      rw [e] at this
      exact this rfl) hm hcr
  obtain ⟨hc, hcount, htr, hhash⟩ := meta_new hh hn hfn hz ho
  obtain ⟨W, g1, g2, g3, g4, ⟨r, g5⟩, g6, g7⟩ := pushed_any sha1 os _ outDir disk0 d' t ho hsen s.content pl hc hz.some hz.size hz.piece.2
    (by rw [hcount]; exact pieceCount_covers hz.piece.1) (by rw [hcount]; exact hz.count)
  have hs : Supply ⟨sha1, t, clientId, parseAddr, name, rest, dial, t.trackers⟩ (fun _ => ip) (fun _ => reply) 1 :=
    ⟨⟨url, [], htr, hu⟩, fun _ _ => ⟨ht, ht', hr⟩, fun i j _ _ _ => by omega, fun _ _ => hip⟩
  obtain ⟨P, hP⟩ := lifted_any hs hhash g1 (fun i q x hi => by
      rw [g5] at hi
      cases i with
      | zero => simp at hi; exact hi.1.symm
      | succ i => simp at hi) g4 (by rw [g5]; simp) (fun _ => [])
  obtain ⟨P', p1, p2, p3, p4⟩ := lifted_end hP g6 g7
  refine ⟨t, d', P', ?_, htr, p1, ?_, p3, p4⟩
  · rw [C73_open _ _ _ _ _ _ (torrent_encodable hh hz) (torrent_is sha1 pl url s)]
    exact ho
  · rw [p2]
    have hx := meta_extents hn hz.some ho
    rw [layout_full g3] at g2
    cases s with
    | file n c =>
      simp only [extentsOf] at hx
      rw [hx] at g2
      exact ⟨_, pathTo_join hn, by simpa [Share.content] using g2⟩
    | dir n fs =>
      simp only [extentsOf] at hx
      rw [hx] at g2 g3
      rw [List.flatMap_map] at g2
      have := flatMap_parts fs (g := fun f => W.out.disk (join (join outDir n) (f.1.headD []))) (h := (·.2)) (fun f hmf =>
        g3 _ (List.mem_map_of_mem hmf)) g2
      intro f hmf
      have h1 := hf f hmf
      have h2 := (hn.2.1 f hmf).2
      have h3 := this f hmf
      obtain ⟨p, c⟩ := f
      match p, h1 with
      | [x], _ => exact ⟨_, pathTo_join2 hn.1 (h2 x (by simp)), h3⟩

/-- C144 is false of the code when there is a directory inside: a file that is not directly in the published directory, not empty and not
there before is never where it belongs, whatever trackers and peers do. (The names with which the paths begin are assumed to differ; if
they do not, two files of the torrent are the same file on the disk, C47.) -/
theorem C144_nested_violated (hh : ∀ x, (sha1 x).length = 20) (n : Bytes) (fs : List (List Bytes × Bytes)) (hn : (Share.dir n fs).Named)
    (hfn : (fs.map (fun f => f.1.headD [])).Nodup) (hz : (Share.dir n fs).Sized pl url) (path : List Bytes) (c : Bytes) (hmem : (path, c) ∈ fs)
    (hlen : 2 ≤ path.length) (hc : c ≠ []) (os : Os) (outDir : Bytes) (disk0 disk : Disk)
    (hnew : ∀ p, PathTo outDir (n :: path) p → disk0 p = []) (S : JobSetup) (hS : S.sha1 = sha1)
    (ho : openTorrent sha1 os outDir (.ok true) (.ok ((Share.dir n fs).torrent sha1 pl url).encode) disk0 = (.ok S.t, disk))
    (hu : ∀ u ∈ S.urls, u ∈ S.t.trackers) (P : Prog) (hP : Prog.Reachable S disk P) : ¬ (Share.dir n fs).OnDisk P.world.out.disk outDir := by
  have hfirst : FirstNames (.dir n fs) := by
    intro n' fs' e
    cases e
    exact hfn
  rw [C73_open _ _ _ _ _ _ (torrent_encodable hh hz) (torrent_is sha1 pl url _)] at ho
  have hsen := meta_sensible (sha1 := sha1) hn hfirst hz
  obtain ⟨hcon, hcount, htr, hhash⟩ := meta_new hh hn hfirst hz ho
  have hbound : S.t.pieces.length * pl + 2 ^ 32 ≤ 2 ^ 63 := by
    rw [hcount]
    have := Nat.div_mul_le_self ((Share.dir n fs).content.length + pl - 1) pl
    have h1 := hz.size
    have h2 := hz.piece
    unfold pieceCount
    omega
  subst hS
  obtain ⟨_, htouch⟩ := C136_provenance S os _ outDir disk0 disk ho hsen pl rfl hbound (hh _) hu P hP
  intro hon
  obtain ⟨p, hp, he⟩ := hon (path, c) hmem
  have hdiff : ∀ f ∈ fs, p ≠ join (join outDir n) (f.1.headD []) := by
    intro f hm hq
    obtain ⟨g1, g2⟩ := hn.2.1 f hm
    have hplain : PlainName (f.1.headD []) := by
      cases hf1 : f.1 with
      | nil => exact absurd hf1 g1
      | cons x xs => exact g2 x (by rw [hf1]; simp)
    have := (pathTo_join2 (root := outDir) hn.1 hplain).2
    rw [← hq, hp.2] at this
    have := congrArg (fun x : Place => x.names.length) this
    simp at this
    omega
  have h1 := htouch p (by
    rw [meta_extents hn hz.some ho, extentsOf, List.map_map]
    intro hm
    obtain ⟨f, hf, hq⟩ := List.mem_map.1 hm
    exact hdiff f hf hq.symm)
  have h2 := newTorrent_frame S.sha1 os (metaOf S.sha1 pl url (.dir n fs)) outDir disk0 p (fun h => absurd rfl h) (by
    intro _ f hf _
    simp only [metaOf] at hf
    obtain ⟨g, hg, rfl⟩ := List.mem_map.1 hf
    exact hdiff g hg)
  rw [ho] at h2
  exact hc (he.symm.trans (h1.trans (h2.trans (hnew p hp))))

/-! ### Concrete shares -/

/-- A file of five bytes in pieces of two. -/
def fiveBytes : Share := .file (ascii "n") [1, 2, 3, 4, 5]
/-- A directory of two files, one of them in a directory of its own. -/
def nestedShare : Share := .dir (ascii "n") [([ascii "a"], [1, 2, 3]), ([ascii "b", ascii "c"], [4, 5])]

theorem fiveBytes_fine : fiveBytes.Named ∧ fiveBytes.Flat ∧ fiveBytes.Sized 2 (ascii "http://t/a") :=
  ⟨show PlainName (ascii "n") by decide, trivial,
    { some := (by simp [fiveBytes, Share.content]), size := (by simp [fiveBytes, Share.content]), piece := (by omega), count := (by simp [fiveBytes, Share.content, pieceCount]),
      url := (by decide), name := (by decide), names := fun n fs h => by cases h }⟩

theorem nestedShare_fine : nestedShare.Named ∧ nestedShare.Sized 2 (ascii "http://t/a") :=
  ⟨⟨by decide, by decide, by decide⟩,
    { some := (by simp [nestedShare, Share.content]), size := (by simp [nestedShare, Share.content]), piece := (by omega), count := (by simp [nestedShare, Share.content, pieceCount]),
      url := (by decide), name := (by decide), names := fun n fs h => by cases h; decide }⟩

/-- C144: five bytes with a short last piece, from a tracker that names one peer. -/
example : ∃ t disk P, openTorrent (fun _ => List.replicate 20 1) goodOs (ascii "/r") (.ok true)
      (.ok (fiveBytes.torrent (fun _ => List.replicate 20 1) 2 (ascii "http://t/a")).encode) (fun _ => []) = (.ok t, disk) ∧ t.trackers = [ascii "http://t/a"] ∧
      Prog.Reachable ⟨fun _ => List.replicate 20 1, t, [], fun _ => some (.v4 1 2 3 4), fun a => if a = .zero then [0] else [1], fun _ _ _ => some [],
        fun _ => true, t.trackers⟩ disk P ∧ fiveBytes.OnDisk P.world.out.disk (ascii "/r") ∧ P.mgr.main = .stopped ∧ P.alive := by
  obtain ⟨h1, h2, h3⟩ := fiveBytes_fine
  exact C144_flat_partial _ (fun _ => by simp) goodOs (by simp [goodOs]) (by simp [goodOs]) fiveBytes 2 _ h1 h2 h3 _ _ _ _ _ _ _
    (show trackerNew (fun _ _ _ => some []) (fun _ => true) (ascii "http://t/a") = _ by decide) ⟨some (.v4 1 2 3 4), 5⟩ ⟨[], [], [], 0⟩ _
    (.reply 200 (ascii "d5:peersld2:ip1:x4:port1:5eee")) ((C17_success_iff_partial _ _ _ _ _).2 ⟨_, _, _, badIpBody_good, by
      simp [peerAddr, show portNumber (ascii "5") = some 5 from by decide], rfl⟩) (by decide)

/-- C144: `n/b/c` is never there. -/
example (S : JobSetup) (hS : S.sha1 = fun _ => List.replicate 20 1) (disk : Disk) (P : Prog)
    (ho : openTorrent (fun _ => List.replicate 20 1) goodOs (ascii "/r") (.ok true)
      (.ok (nestedShare.torrent (fun _ => List.replicate 20 1) 2 (ascii "http://t/a")).encode) (fun _ => []) = (.ok S.t, disk))
    (hu : S.urls = S.t.trackers) (hP : Prog.Reachable S disk P) : ¬ nestedShare.OnDisk P.world.out.disk (ascii "/r") :=
  C144_nested_violated (fun _ => by simp) _ _ nestedShare_fine.1 (by decide) nestedShare_fine.2 [ascii "b", ascii "c"] [4, 5] (by simp) (by simp) (by simp)
    goodOs _ _ disk (fun _ _ => rfl) S hS ho (fun u h => hu ▸ h) P hP

end Gotit.Props
