import Verif.Spec.Preserve
import Verif.Props.World
/-
  C97: opening a torrent empties its files.
-/
namespace Gotit.Props
open Gotit Spec

/-- `os.Create` on one file after the other, up to the first that fails. -/
theorem createFiles_exact (os : Os) : ∀ (ps : List Bytes) (disk : Disk),
    Emptied (ps.takeWhile (fun p => (os.createError p).isNone)) disk (createFiles os ps disk).2 ∧
    ((∀ p ∈ ps, os.createError p = none) ↔ (createFiles os ps disk).1 = .ok ()) := by
  intro ps
  induction ps with
  | nil => intro disk; exact ⟨fun q => ⟨by simp, fun _ => rfl⟩, by simp [createFiles]⟩
  | cons p ps ih =>
    intro disk
    unfold createFiles
    cases hc : os.createError p with
    | some e => exact ⟨fun q => ⟨by simp [hc], fun _ => rfl⟩, by simp [hc]⟩
    | none =>
      obtain ⟨h1, h2⟩ := ih (disk.update p [])
      refine ⟨fun q => ?_, ?_⟩
      · simp only [List.takeWhile_cons, hc, Option.isNone_none, if_true, List.mem_cons]
        by_cases hq : q ∈ ps.takeWhile (fun p => (os.createError p).isNone)
        · exact ⟨fun _ => (h1 q).1 hq, fun h => absurd (.inr hq) h⟩
        · by_cases e : q = p
          · subst e
            exact ⟨fun _ => by rw [(h1 q).2 hq]; simp [Disk.update], fun h => absurd (.inl rfl) h⟩
          · exact ⟨fun h => (h.elim e hq).elim, fun _ => by rw [(h1 q).2 hq]; simp [Disk.update, e]⟩
      · simp only [List.forall_mem_cons, hc, true_and]
        exact h2

/-- What `New` leaves on the disk in every case: the files of the torrent are emptied in order up to the first that cannot be created,
provided that nothing hinders it before. -/
theorem C97_any_partial (sha1 : Bytes → Bytes) (os : Os) (mi : Metainfo) (root : Bytes) (disk : Disk) :
    (Startable os root mi → Emptied ((outputs root mi).takeWhile (fun p => (os.createError p).isNone)) disk (newTorrent sha1 os mi root disk).2) ∧
    (¬ Startable os root mi → Untouched disk (newTorrent sha1 os mi root disk).2) := by
  have hp : newPieces mi.pieces = if mi.pieces.length % 20 ≠ 0 then .err "invalid pieces len"
      else .ok (newPiecesLoop (mi.pieces.length / 20) 0 mi.pieces) := rfl
  unfold newTorrent
  rw [hp]
  by_cases h20 : mi.pieces.length % 20 = 0
  · rw [if_neg (by simpa using h20)]
    simp only [decide_eq_true_eq]
    have key : (Startable os root mi → Emptied ((outputs root mi).takeWhile (fun p => (os.createError p).isNone)) disk
          (initDownloadDir os root mi.name (decide (mi.infoLength = 0)) (if mi.infoLength = 0 then mi.files else []) disk).2) ∧
        (¬ Startable os root mi →
          Untouched disk (initDownloadDir os root mi.name (decide (mi.infoLength = 0)) (if mi.infoLength = 0 then mi.files else []) disk).2) := by
      unfold initDownloadDir outputs
      by_cases h0 : mi.infoLength = 0
      · simp only [h0, decide_true, if_true, ne_eq, not_true_eq_false, if_false]
        cases hm : os.mkdirNotExist (join root mi.name) with
        | true =>
          simp only [if_true]
          exact ⟨fun hs => (by have := (hs.2 h0).1; rw [hm] at this; cases this), fun _ q => rfl⟩
        | false =>
          simp only [Bool.false_eq_true, if_false]
          cases hf : filePaths (join root mi.name) mi.files with
          | ok ps =>
            simp only
            obtain ⟨hne, rfl⟩ := filePaths_inv _ _ _ hf
            refine ⟨fun _ => ?_, fun hn => absurd ⟨h20, fun _ => ⟨hm, hne⟩⟩ hn⟩
            have := (createFiles_exact os (mi.files.map fun f => join (join root mi.name) (f.path.headD [])) disk).1
            split <;> (rename_i hc; rw [hc] at this; exact this)
          | err e => exact ⟨fun hs => (by rw [filePaths_ok _ _ (hs.2 h0).2] at hf; cases hf), fun _ q => rfl⟩
          | panic e => exact ⟨fun hs => (by rw [filePaths_ok _ _ (hs.2 h0).2] at hf; cases hf), fun _ q => rfl⟩
      · simp only [h0, decide_false, Bool.false_eq_true, if_false, ne_eq, not_false_eq_true, if_true]
        refine ⟨fun _ => ?_, fun hn => absurd ⟨h20, fun h => absurd h h0⟩ hn⟩
        have := (createFiles_exact os [join root mi.name] disk).1
        split <;> (rename_i hc; rw [hc] at this; exact this)
    split <;> (rename_i hc; rw [hc] at key; exact key)
  · rw [if_pos h20]
    exact ⟨fun hs => absurd hs.1 h20, fun _ q => rfl⟩
/-- The second of two files cannot be created: the first is lost all the same. -/
example : Emptied [ascii "/r/n/a"] (fun _ => [7]) (newTorrent (fun _ => []) ⟨fun _ => false, fun p => if p = ascii "/r/n/b" then some "denied" else none⟩
    { oneFile (ascii "n") with infoLength := 0, files := [⟨[ascii "a"], 4⟩, ⟨[ascii "b"], 4⟩] } (ascii "/r") (fun _ => [7])).2 := by
  have := (C97_any_partial (fun _ => []) ⟨fun _ => false, fun p => if p = ascii "/r/n/b" then some "denied" else none⟩
    { oneFile (ascii "n") with infoLength := 0, files := [⟨[ascii "a"], 4⟩, ⟨[ascii "b"], 4⟩] } (ascii "/r") (fun _ => [7])).1
    ⟨by decide, fun _ => ⟨rfl, by decide⟩⟩
  have e : (outputs (ascii "/r") { oneFile (ascii "n") with infoLength := 0, files := [⟨[ascii "a"], 4⟩, ⟨[ascii "b"], 4⟩] }).takeWhile
      (fun p => ((if p = ascii "/r/n/b" then some "denied" else none : Option String)).isNone) = [ascii "/r/n/a"] := by decide +kernel
  rw [e] at this
  exact this

/-- A torrent that was opened: all its files are empty, all other files are as before, and no piece counts as downloaded, whatever was
on the disk. -/
theorem C97_opened_partial (sha1 : Bytes → Bytes) (os : Os) (mi : Metainfo) (root : Bytes) (disk disk' : Disk) (t : Torrent)
    (hn : newTorrent sha1 os mi root disk = (.ok t, disk')) :
    Emptied (outputs root mi) disk disk' ∧ t.osFiles = outputs root mi ∧ ∀ i, t.downloaded.bit i = false := by
  obtain ⟨_, hi, _, _, _, _, _, _, _, _, _, hd, _⟩ := newTorrent_ok hn
  obtain ⟨h1, h2, h3⟩ := initDownloadDir_ok hi
  have ho : t.osFiles = outputs root mi := by
    unfold outputs
    by_cases h0 : mi.infoLength = 0
    · simp only [h0, decide_true, if_true] at h1
      obtain ⟨-, e⟩ := filePaths_inv _ _ _ (h1 trivial)
      simp [h0, e]
    · simp only [h0, decide_false] at h2
      simp [h0, h2]
  refine ⟨?_, ho, ?_⟩
  · rw [ho] at h3
    obtain ⟨g1, g2⟩ := createFiles_exact os (outputs root mi) disk
    rw [h3] at g1 g2
    have hall := g2.2 rfl
    rw [show (outputs root mi).takeWhile (fun p => (os.createError p).isNone) = outputs root mi from by
      revert hall
      generalize outputs root mi = ps
      intro hall
      induction ps with
      | nil => rfl
      | cons p ps ih =>
        rw [List.takeWhile_cons, hall p (by simp), Option.isNone_none, if_pos rfl, ih (fun x hx => hall x (by simp [hx]))]] at g1
    exact g1
  · intro i
    rw [hd]
    unfold bitsetNew
    simp only
    split <;> rfl

/-- C97 is false of the code; exactly the torrents whose files are all absent or empty are opened without loss. -/
theorem C97_iff_partial (sha1 : Bytes → Bytes) (os : Os) (mi : Metainfo) (root : Bytes) (disk disk' : Disk) (t : Torrent)
    (hn : newTorrent sha1 os mi root disk = (.ok t, disk')) : Untouched disk disk' ↔ ∀ q ∈ outputs root mi, disk q = [] := by
  obtain ⟨h, _⟩ := C97_opened_partial _ _ _ _ _ _ _ hn
  constructor
  · intro hu q hq
    rw [← hu q]; exact (h q).1 hq
  · intro hq q
    by_cases hm : q ∈ outputs root mi
    · rw [(h q).1 hm, hq q hm]
    · exact (h q).2 hm

/-- Whether files can be created does not depend on what they hold. -/
theorem createFiles_same (os : Os) : ∀ (ps : List Bytes) (d1 d2 : Disk), (createFiles os ps d1).1 = (createFiles os ps d2).1 := by
  intro ps
  induction ps with
  | nil => intros; rfl
  | cons p ps ih =>
    intro d1 d2
    unfold createFiles
    cases os.createError p with
    | some e => rfl
    | none => exact ih _ _

theorem newTorrent_same (sha1 : Bytes → Bytes) (os : Os) (mi : Metainfo) (root : Bytes) (d1 d2 : Disk) :
    (newTorrent sha1 os mi root d1).1 = (newTorrent sha1 os mi root d2).1 := by
  unfold newTorrent
  cases newPieces mi.pieces with
  | err e => rfl
  | panic e => rfl
  | ok pieces =>
    simp only
    have key : ∀ b files, (initDownloadDir os root mi.name b files d1).1 = (initDownloadDir os root mi.name b files d2).1 := by
      intro b files
      unfold initDownloadDir
      simp only
      have c := fun ps => createFiles_same os ps d1 d2
      split
      · split
        · rfl
        · cases filePaths (join root mi.name) files with
          | ok ps =>
            simp only
            have := c ps
            rcases h1 : createFiles os ps d1 with ⟨_ | _ | _, _⟩ <;> rcases h2 : createFiles os ps d2 with ⟨_ | _ | _, _⟩ <;>
              simp_all
          | err e => rfl
          | panic e => rfl
      · have := c [join root mi.name]
        rcases h1 : createFiles os [join root mi.name] d1 with ⟨_ | _ | _, _⟩ <;>
          rcases h2 : createFiles os [join root mi.name] d2 with ⟨_ | _ | _, _⟩ <;> simp_all
    have := key (decide (mi.infoLength = 0)) (if decide (mi.infoLength = 0) = true then mi.files else [])
    revert this
    generalize initDownloadDir os root mi.name _ _ d1 = x1
    generalize initDownloadDir os root mi.name _ _ d2 = x2
    intro h
    rcases x1 with ⟨_ | _ | _, _⟩ <;> rcases x2 with ⟨_ | _ | _, _⟩ <;> simp_all

/-- C97 is false of the code: a finished download that is started again is lost. For every torrent, whatever its files hold, opening
it again on that disk succeeds and empties them. -/
theorem C97_violated (sha1 : Bytes → Bytes) (os : Os) (mi : Metainfo) (root : Bytes) (disk disk' : Disk) (t : Torrent)
    (hn : newTorrent sha1 os mi root disk = (.ok t, disk')) (W : World) (hW : World.Reachable sha1 t (newPeer t) disk' W)
    (q : Bytes) (hq : q ∈ outputs root mi) (hne : W.out.disk q ≠ []) :
    ∃ t'' disk'', newTorrent sha1 os mi root W.out.disk = (.ok t'', disk'') ∧ disk'' q = [] ∧ disk'' q ≠ W.out.disk q ∧
      t''.downloaded = t.downloaded := by
  have h := newTorrent_same sha1 os mi root W.out.disk disk
  rw [hn] at h
  rcases hx : newTorrent sha1 os mi root W.out.disk with ⟨r, d⟩
  rw [hx] at h
  simp only at h
  subst h
  have he := (C97_opened_partial _ _ _ _ _ _ _ hx).1
  exact ⟨t, d, rfl, (he q).1 hq, by rw [(he q).1 hq]; exact Ne.symm hne, rfl⟩

/-- C97: the finished download of eight bytes, started again. -/
example : ∃ t disk' W disk'', newTorrent (fun _ => List.replicate 20 1) goodOs (fewBytes (8 : Nat) 2) (ascii "/r") (fun _ => []) = (.ok t, disk') ∧
    World.Reachable (fun _ => List.replicate 20 1) t (newPeer t) disk' W ∧ W.out.downloaded.all = true ∧
    layout W.out.disk (extents t) = [1, 2, 3, 4, 5, 6, 7, 8] ∧
    (newTorrent (fun _ => List.replicate 20 1) goodOs (fewBytes (8 : Nat) 2) (ascii "/r") W.out.disk).2 = disk'' ∧
    disk'' (ascii "/r/n") = [] ∧ ¬ Untouched W.out.disk disk'' := by
  obtain ⟨t, d', h1, h2, h3, h4, h5⟩ := fewBytes_opens 8 2 (by omega) (by omega) (by omega) [1, 2, 3, 4, 5, 6, 7, 8] rfl
  obtain ⟨W, g1, g2, g3, _⟩ := C78_pushed_partial _ _ _ _ _ _ _ h1 h2 _ 4 h3 (by simp) (by simp) (by omega) (by rw [h4]; decide) (by omega)
    (by simp)
  have ho : outputs (ascii "/r") (fewBytes (8 : Nat) 2) = [ascii "/r/n"] := by decide +kernel
  have hne : W.out.disk (ascii "/r/n") ≠ [] := by
    intro hd
    have hx : extents t = [(t.length.toNat, ascii "/r/n")] := by
      unfold extents
      rw [h5, (C97_opened_partial _ _ _ _ _ _ _ h1).2.1, ho]
      rfl
    have := congrArg (·[0]?) g3
    rw [hx] at this
    simp [layout, stored, hd] at this
    rw [List.getElem?_replicate] at this
    split at this <;> simp at this
  obtain ⟨t2, d2, e1, e2, e3, _⟩ := C97_violated _ _ _ _ _ _ _ h1 W g1 (ascii "/r/n") (by rw [ho]; simp) hne
  refine ⟨t, d', W, d2, h1, g1, g2, g3, by rw [e1], e2, fun h => e3 (h _)⟩

end Gotit.Props
