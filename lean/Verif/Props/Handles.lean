import Verif.Spec.Handles
/-
  C143: what the program opens it closes when it is done with it.
-/
namespace Gotit.Props

open Gotit.Spec

/-! ### Bodies of responses -/

/-- C143 for HTTP trackers: an announce does what `httpAnnounce` says; whenever there is a response, whatever its status and its body are and
however the announce ends, its body is opened once and closed once, after that. -/
theorem C143_body (parseAddr : Bytes → Option Addr) (t : HttpTracker) (r : HttpDone) :
    (httpAnnounceTrace parseAddr t r).1 = httpAnnounce parseAddr t (replyOf r) ∧
    Settled (httpAnnounceTrace parseAddr t r).2 ∧
    ((∃ v, r = .ok v) ↔ .opened .body ∈ (httpAnnounceTrace parseAddr t r).2) := by
  cases r with
  | error e =>
    refine ⟨rfl, ⟨fun h => rfl, fun pre h post hs => ?_⟩, by simp [httpAnnounceTrace]⟩
    simp [httpAnnounceTrace] at hs
  | ok v =>
    obtain ⟨status, content⟩ := v
    refine ⟨by cases content <;> rfl, ⟨fun h => ?_, fun pre h post hs => ?_⟩, by simp [httpAnnounceTrace]⟩
    · by_cases hb : h = .body
      · subst hb; rfl
      · simp [httpAnnounceTrace, List.count_cons, Ne.symm hb]
    · simp only [httpAnnounceTrace, List.cons_append, List.nil_append] at hs
      match pre, hs with
      | [], hs => simp at hs
      | [e], hs =>
        simp only [List.cons_append, List.nil_append, List.cons.injEq, HandleEv.closed.injEq] at hs
        obtain ⟨rfl, rfl, _⟩ := hs
        simp [LeftOpen]
      | _ :: _ :: pre, hs =>
        simp at hs

/-- A tracker that answers with a text that ends too early. -/
example : (httpAnnounceTrace (fun _ => none) { addr := [], trackerId := [], event := [], interval := 0 } (.ok (200, .ok (ascii "d5:peers2:x")))).2 =
    [.opened .body, .closed .body] := rfl

/-! ### Files -/

theorem createTrace_made (os : Os) : ∀ (ps : List Bytes),
    ∃ made, CreatedBefore os ps made ∧ createTrace os ps = made.map (fun p => .opened (.target p))
  | [] => ⟨[], .all (by simp), rfl⟩
  | p :: ps => by
    rw [createTrace]
    cases h : os.createError p with
    | some e => exact ⟨[], CreatedBefore.stopped (made := []) (by simp) (by simp [h]), rfl⟩
    | none =>
      obtain ⟨made, hm, he⟩ := createTrace_made os ps
      refine ⟨p :: made, ?_, by simp [he]⟩
      cases hm with
      | all ha => exact .all (by simpa [h] using ha)
      | @stopped made q rest ha hq => exact CreatedBefore.stopped (made := p :: made) (by simpa [h] using ha) hq

theorem createFiles_all (os : Os) : ∀ (ps : List Bytes) (disk : Disk), (createFiles os ps disk).1 = .ok () →
    createTrace os ps = ps.map (fun p => .opened (.target p))
  | [], _, _ => rfl
  | p :: ps, disk, h => by
    rw [createFiles] at h
    rw [createTrace]
    cases hp : os.createError p with
    | some e => rw [hp] at h; cases h
    | none =>
      rw [hp] at h
      simp [createFiles_all os ps _ h]

theorem initTrace_all (os : Os) (root name : Bytes) (isDirectory : Bool) (files : List TorrentFile) (disk disk' : Disk) (ps : List Bytes)
    (h : initDownloadDir os root name isDirectory files disk = (.ok ps, disk')) :
    initTrace os root name isDirectory files = ps.map (fun p => .opened (.target p)) := by
  unfold initDownloadDir at h
  unfold initTrace
  cases isDirectory with
  | true =>
    simp only [if_true] at h ⊢
    split at h
    · simp at h
    · rename_i hm
      rw [if_neg hm]
      cases hf : filePaths (join root name) files with
      | ok qs =>
        rw [hf] at h
        simp only at h ⊢
        have := createFiles_all os qs disk
        rcases hc : createFiles os qs disk with ⟨r, d⟩
        rw [hc] at h this
        cases r with
        | ok u => simp only [Prod.mk.injEq, Res.ok.injEq] at h; rw [← h.1]; exact this rfl
        | err e => simp at h
        | panic e => simp at h
      | err e => rw [hf] at h; simp at h
      | panic e => rw [hf] at h; simp at h
  | false =>
    simp only [Bool.false_eq_true, if_false] at h ⊢
    have := createFiles_all os [join root name] disk
    rcases hc : createFiles os [join root name] disk with ⟨r, d⟩
    rw [hc] at h this
    cases r with
    | ok u => simp only [Prod.mk.injEq, Res.ok.injEq] at h; rw [← h.1]; exact this rfl
    | err e => simp at h
    | panic e => simp at h

theorem newTrace_all (sha1 : Bytes → Bytes) (os : Os) (m : Metainfo) (root : Bytes) (disk disk' : Disk) (t : Torrent)
    (h : newTorrent sha1 os m root disk = (.ok t, disk')) : newTrace os m root = t.osFiles.map (fun p => .opened (.target p)) := by
  unfold newTorrent at h
  unfold newTrace
  cases hp : newPieces m.pieces with
  | ok pieces =>
    rw [hp] at h
    simp only at h ⊢
    rcases hi : initDownloadDir os root m.name (decide (m.infoLength = 0)) (if decide (m.infoLength = 0) = true then m.files else []) disk
      with ⟨r, d⟩
    rw [hi] at h
    cases r with
    | ok qs =>
      simp only [Prod.mk.injEq, Res.ok.injEq] at h
      rw [initTrace_all os root m.name _ _ disk d qs hi, ← h.1]
    | err e => simp at h
    | panic e => simp at h
  | err e => rw [hp] at h; simp at h
  | panic e => rw [hp] at h; simp at h

theorem count_map_of (f : Bytes → HandleEv) (hf : ∀ p q, f p = f q → p = q) (x : Bytes) :
    ∀ (ps : List Bytes), (ps.map f).count (f x) = ps.count x
  | [] => rfl
  | p :: ps => by
    have hd : (f p == f x) = (p == x) := by
      by_cases h : p = x
      · simp [h]
      · have h' : f p ≠ f x := fun he => h (hf _ _ he)
        rw [beq_eq_false_iff_ne.2 h, beq_eq_false_iff_ne.2 h']
    simp [List.count_cons, count_map_of f hf x ps, hd]

theorem opened_count (ps : List Bytes) (p : Bytes) :
    (ps.map (fun q => HandleEv.opened (.target q))).count (.opened (.target p)) = ps.count p :=
  count_map_of (fun q => HandleEv.opened (.target q)) (by simp) p ps

theorem closed_count (ps : List Bytes) (p : Bytes) :
    (ps.map (fun q => HandleEv.closed (.target q))).count (.closed (.target p)) = ps.count p :=
  count_map_of (fun q => HandleEv.closed (.target q)) (by simp) p ps

theorem count_zero {es : List HandleEv} {e : HandleEv} (h : e ∉ es) : es.count e = 0 := List.count_eq_zero.2 h

/-- C143 for the files of a torrent: when `New` succeeds, the files it has opened are those of `OsFiles`, one opening for each; the calls of
`Close` would close each of them and nothing else. -/
theorem C143_files (sha1 : Bytes → Bytes) (os : Os) (m : Metainfo) (root : Bytes) (disk disk' : Disk) (t : Torrent)
    (h : newTorrent sha1 os m root disk = (.ok t, disk')) :
    (∀ x, LeftOpen (newTrace os m root) x ↔ ∃ p ∈ t.osFiles, x = .target p) ∧ Settled (newTrace os m root ++ closeTrace t) := by
  have hn := newTrace_all sha1 os m root disk disk' t h
  have hno : ∀ x, HandleEv.closed x ∉ newTrace os m root := by rw [hn]; simp
  have hno' : ∀ x, HandleEv.opened x ∉ closeTrace t := by simp [closeTrace]
  refine ⟨fun x => ?_, fun x => ?_, fun pre x post hs => ?_⟩
  · unfold LeftOpen
    rw [count_zero (hno x), List.count_pos_iff, hn]
    simp [eq_comm]
  · rw [List.count_append, List.count_append, count_zero (hno x), count_zero (hno' x), hn]
    cases x with
    | target p => rw [opened_count, closeTrace, closed_count]; simp
    | _ => rw [count_zero (by simp), count_zero (by simp [closeTrace])]
  · -- the closing call is among those of `Close`, after all opening calls
    have hlen : (newTrace os m root).length ≤ pre.length := by
      rcases Nat.lt_or_ge pre.length (newTrace os m root).length with hl | hl
      · exfalso
        have hg : (newTrace os m root ++ closeTrace t)[pre.length]? = some (.closed x) := by rw [hs]; simp
        rw [List.getElem?_append_left hl] at hg
        exact hno x (List.mem_of_getElem? hg)
      · exact hl
    obtain ⟨mid, rfl⟩ : ∃ mid, pre = newTrace os m root ++ mid := by
      refine ⟨pre.drop (newTrace os m root).length, ?_⟩
      have := congrArg (List.take (newTrace os m root).length) hs
      rw [List.take_left, List.take_append_of_le_length hlen] at this
      rw (occs := .pos [1]) [this]
      rw [List.take_append_drop]
    rw [List.append_assoc] at hs
    have hs := List.append_cancel_left hs
    unfold LeftOpen
    have hmid : ∀ y, HandleEv.opened y ∉ mid := fun y hy => hno' y (by rw [hs]; simp [hy])
    rw [List.count_append, List.count_append, count_zero (hno x), count_zero (hmid x)]
    have hc : (closeTrace t).count (.closed x) = mid.count (.closed x) + 1 + post.count (.closed x) := by
      rw [hs, List.count_append, List.count_cons_self]; omega
    cases x with
    | target p =>
      rw [closeTrace, closed_count] at hc
      rw [hn, opened_count]; omega
    | _ => rw [count_zero (by simp [closeTrace])] at hc; omega

/-- C143, exact for a torrent of several files whose directory exists: the files left open by `New` are those created before the first that
cannot be created, and all of them if there is none, whether `New` succeeds or not. -/
theorem C143_new_partial (os : Os) (m : Metainfo) (root : Bytes) (pieces : List Piece) (ps : List Bytes) (hp : newPieces m.pieces = .ok pieces)
    (hd : m.infoLength = 0) (hm : os.mkdirNotExist (join root m.name) = false) (hf : filePaths (join root m.name) m.files = .ok ps) :
    ∃ made, CreatedBefore os ps made ∧ ∀ x, LeftOpen (newTrace os m root) x ↔ ∃ p ∈ made, x = .target p := by
  obtain ⟨made, hc, he⟩ := createTrace_made os ps
  refine ⟨made, hc, fun x => ?_⟩
  have : newTrace os m root = made.map (fun p => .opened (.target p)) := by
    unfold newTrace initTrace
    rw [hp]
    simp [hd, hm, hf, he]
  unfold LeftOpen
  rw [this, count_zero (by simp), List.count_pos_iff]
  simp [eq_comm]

theorem createTrace_never_closed (os : Os) (ps : List Bytes) (x : Held) : .closed x ∉ createTrace os ps := by
  obtain ⟨made, _, he⟩ := createTrace_made os ps
  rw [he]; simp

theorem newTrace_never_closed (os : Os) (m : Metainfo) (root : Bytes) (x : Held) : .closed x ∉ newTrace os m root := by
  unfold newTrace initTrace
  split
  · simp only
    split
    · split
      · simp
      · split
        · exact createTrace_never_closed _ _ _
        · simp
    · exact createTrace_never_closed _ _ _
  · simp

/-- C143, exact for the commands and for trackers: what they open stays open. The torrent file is open from the moment it could be opened,
whatever follows; so is the socket of a UDP tracker. -/
theorem C143_never_partial (os : Os) (outDir : Bytes) (stat : Except String Bool) (file : Except String (Except String Bytes))
    (rest : Bytes → Bytes → Bytes → Option Bytes) (dial : Bytes → Bool) (u : Bytes) :
    (∀ x, LeftOpen (openTrace os outDir stat file) x ↔ .opened x ∈ openTrace os outDir stat file) ∧
    (LeftOpen (openTrace os outDir stat file) .torrentFile ↔ stat = .ok true ∧ ∃ r, file = .ok r) ∧
    (LeftOpen (inspectTrace file) .torrentFile ↔ ∃ r, file = .ok r) ∧
    (∀ h, LeftOpen (trackerTrace rest dial u) (.socket h) ↔ trackerNew rest dial u = .udp h) := by
  have hno : ∀ x, HandleEv.closed x ∉ openTrace os outDir stat file := by
    intro x
    unfold openTrace
    (repeat' split) <;> simp [newTrace_never_closed]
  have h1 : ∀ x, LeftOpen (openTrace os outDir stat file) x ↔ .opened x ∈ openTrace os outDir stat file := by
    intro x
    unfold LeftOpen
    rw [count_zero (hno x), List.count_pos_iff]
  refine ⟨h1, ?_, ?_, fun h => ?_⟩
  · rw [h1]
    unfold openTrace
    (repeat' split) <;> simp
  · unfold LeftOpen inspectTrace
    split <;> simp
  · unfold LeftOpen trackerTrace
    split
    · rename_i host hh
      simp only [hh, List.count_cons, NewTracker.udp.injEq]
      by_cases h' : host = h <;> simp [h']
    · rename_i hh
      simp; exact hh h

/-- A torrent of two files of which the second cannot be created. -/
def secondFails : Os := { mkdirNotExist := fun _ => false, createError := fun p => if p = ascii "d/n/b" then some "permission denied" else none }

def twoTargets : Metainfo :=
  { announce := [], announceList := [], urlList := [], files := [⟨[ascii "a"], 3⟩, ⟨[ascii "b"], 4⟩], infoLength := 0, name := ascii "n",
    pieceLength := 7, pieces := List.replicate 20 0, infoDictRaw := [] }

/-- C143 is violated: `New` fails on the second file and leaves the first one open, with nobody who could close it; and a command that fails
because the torrent file cannot be parsed leaves that file open. -/
theorem C143_violated :
    (∀ (sha1 : Bytes → Bytes) (disk : Disk), ∃ e, (newTorrent sha1 secondFails twoTargets (ascii "d") disk).1 = .err e) ∧
    (∀ x, LeftOpen (newTrace secondFails twoTargets (ascii "d")) x ↔ x = .target (ascii "d/n/a")) ∧
    (∀ (sha1 : Bytes → Bytes) (os : Os) (disk : Disk), ∃ e, (openTorrent sha1 os (ascii "d") (.ok true) (.ok []) disk).1 = .err e) ∧
    (∀ (os : Os), LeftOpen (openTrace os (ascii "d") (.ok true) (.ok (.ok []))) .torrentFile) := by
  have hf : filePaths (join (ascii "d") twoTargets.name) twoTargets.files = .ok [ascii "d/n/a", ascii "d/n/b"] := by decide +kernel
  refine ⟨fun sha1 disk => ?_, fun x => ?_, fun sha1 os disk => ?_, fun os => ?_⟩
  · refine ⟨"permission denied", ?_⟩
    have hp : ∃ ps, newPieces twoTargets.pieces = .ok ps := ⟨_, rfl⟩
    obtain ⟨ps, hp⟩ := hp
    unfold newTorrent initDownloadDir
    rw [hp]
    have h0 : twoTargets.infoLength = 0 := rfl
    simp only [h0, decide_true, if_true, hf]
    rfl
  · obtain ⟨made, hc, he⟩ := C143_new_partial secondFails twoTargets (ascii "d") _ _ rfl rfl rfl hf
    rw [he]
    have : made = [ascii "d/n/a"] := by
      generalize hg : [ascii "d/n/a", ascii "d/n/b"] = all at hc
      cases hc with
      | all ha =>
        subst hg
        exact absurd (ha (ascii "d/n/b") (by simp)) (by decide +kernel)
      | @stopped made p rest ha hb =>
        match made, hg with
        | [], hg =>
          simp only [List.nil_append, List.cons.injEq] at hg
          rw [← hg.1] at hb
          exact absurd hb (by decide +kernel)
        | [q], hg =>
          simp only [List.cons_append, List.nil_append, List.cons.injEq] at hg
          rw [← hg.1]
        | q :: q' :: made, hg =>
          simp only [List.cons_append, List.cons.injEq] at hg
          have := ha q' (by simp)
          rw [← hg.2.1] at this
          exact absurd this (by decide +kernel)
    simp [this]
  · have h : (match (unmarshalMetainfo []).2 with | .err _ => true | _ => false) = true := by decide +kernel
    unfold openTorrent
    rcases hu : unmarshalMetainfo [] with ⟨m, o⟩
    rw [hu] at h
    cases o with
    | err e => exact ⟨e, by simp only [hu]⟩
    | ok => cases h
    | panic e => cases h
  · exact ((C143_never_partial os (ascii "d") (.ok true) (.ok (.ok [])) (fun _ _ _ => none) (fun _ => false) []).2.1).2 ⟨rfl, _, rfl⟩

/-- The other side: both files can be created, and `Close` would close both. -/
example (sha1 : Bytes → Bytes) (disk : Disk) : ∃ t disk', newTorrent sha1 ⟨fun _ => false, fun _ => none⟩ twoTargets (ascii "d") disk = (.ok t, disk') ∧
    t.osFiles = [ascii "d/n/a", ascii "d/n/b"] := by
  have hf : filePaths (join (ascii "d") twoTargets.name) twoTargets.files = .ok [ascii "d/n/a", ascii "d/n/b"] := by decide +kernel
  unfold newTorrent initDownloadDir
  have hp : ∃ ps, newPieces twoTargets.pieces = .ok ps := ⟨_, rfl⟩
  obtain ⟨ps, hp⟩ := hp
  rw [hp]
  have h0 : twoTargets.infoLength = 0 := rfl
  simp only [h0, decide_true, if_true, hf]
  exact ⟨_, _, rfl, rfl⟩

end Gotit.Props
