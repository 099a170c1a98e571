import Verif.Spec.Failing
import Verif.Props.Preserve
import Verif.Props.Process
/-
  C153: a command that fails leaves the disk as it was.
-/
namespace Gotit.Props
open Gotit Spec

theorem stuck_takeWhile {os : Os} {root : Bytes} {mi : Metainfo} {before : List Bytes} (h : Stuck os root mi before) :
    (outputs root mi).takeWhile (fun p => (os.createError p).isNone) = before := by
  obtain ⟨p, after, h1, h2, h3⟩ := h
  rw [h1]
  clear h1
  induction before with
  | nil =>
    rw [List.nil_append, List.takeWhile_cons]
    cases hp : os.createError p with
    | none => exact absurd hp h3
    | some e => rfl
  | cons q qs ih =>
    rw [List.cons_append, List.takeWhile_cons, h2 q (by simp)]
    simp only [Option.isNone_none, if_true]
    rw [ih (fun x hx => h2 x (by simp [hx]))]

theorem stuck_of_fails (os : Os) : ∀ (l : List Bytes), (¬ ∀ p ∈ l, os.createError p = none) →
    ∃ before p after, l = before ++ p :: after ∧ (∀ q ∈ before, os.createError q = none) ∧ os.createError p ≠ none := by
  intro l
  induction l with
  | nil => intro h; exact absurd (by simp) h
  | cons q qs ih =>
    intro h
    cases hq : os.createError q with
    | some e => exact ⟨[], q, qs, rfl, by simp, by simp [hq]⟩
    | none =>
      obtain ⟨b, p, a, h1, h2, h3⟩ := ih (fun hh => h (by simpa [hq] using hh))
      exact ⟨q :: b, p, a, by rw [h1]; rfl, by simpa [hq] using h2, h3⟩

/-- `New` succeeds if and only if nothing hinders it before the files are created and all can be created; it fails with an error if it
is stuck among them. -/
theorem newTorrent_startable {os : Os} {root : Bytes} {mi : Metainfo} (sha1 : Bytes → Bytes) (disk : Disk) (hs : Startable os root mi) :
    ((∀ p ∈ outputs root mi, os.createError p = none) → ∃ t d, newTorrent sha1 os mi root disk = (.ok t, d)) ∧
    ((¬ ∀ p ∈ outputs root mi, os.createError p = none) → ∃ e d, newTorrent sha1 os mi root disk = (.err e, d)) := by
  have hp : newPieces mi.pieces = if mi.pieces.length % 20 ≠ 0 then .err "invalid pieces len"
      else .ok (newPiecesLoop (mi.pieces.length / 20) 0 mi.pieces) := rfl
  have hx := (createFiles_exact os (outputs root mi) disk).2
  have hn := createFiles_noPanic os (outputs root mi) disk
  unfold newTorrent
  rw [hp, if_neg (by simpa using hs.1)]
  simp only
  have key : ∃ r d, createFiles os (outputs root mi) disk = (r, d) ∧
      initDownloadDir os root mi.name (decide (mi.infoLength = 0)) (if decide (mi.infoLength = 0) = true then mi.files else []) disk =
        (match r with | .ok _ => .ok (outputs root mi) | .err e => .err e | .panic w => .panic w, d) := by
    rcases hc : createFiles os (outputs root mi) disk with ⟨r, d⟩
    refine ⟨r, d, rfl, ?_⟩
    unfold initDownloadDir
    by_cases h0 : mi.infoLength = 0
    · have ho : outputs root mi = mi.files.map fun f => join (join root mi.name) (f.path.headD []) := by simp [outputs, h0]
      rw [ho] at hc ⊢
      simp only [h0, decide_true, if_true, (hs.2 h0).1, Bool.false_eq_true, if_false, filePaths_ok _ _ (hs.2 h0).2, hc]
      cases r <;> rfl
    · have ho : outputs root mi = [join root mi.name] := by simp [outputs, h0]
      rw [ho] at hc ⊢
      simp only [h0, decide_false, Bool.false_eq_true, if_false, hc]
      cases r <;> rfl
  obtain ⟨r, d, k1, k2⟩ := key
  rw [k1] at hx hn
  rw [k2]
  constructor
  · intro h
    rw [show r = .ok () from hx.1 h]
    exact ⟨_, _, rfl⟩
  · intro h
    cases r with
    | ok u => exact absurd (hx.2 rfl) h
    | err e => exact ⟨_, _, rfl⟩
    | panic w => cases hn

/-- What a process has done to the disk before its download begins. -/
structure DiskInv (S : Setup) (c : Command) (disk : Disk) (P : Proc) : Prop where
  bencode : c = .bencode → P.disk = disk
  before : (P.loc = .early ∨ P.loc = .between ∨ P.loc = .ready ∨ P.loc = .opening ∨ (∃ d, P.loc = .reading d) ∨ (∃ d, P.loc = .loaded d)) → P.disk = disk
  running : ∀ σ, P.loc = .running σ → c = .download
  failed : P.loc = .exited 1 → P.disk = disk ∨ (S.configOk = true ∧ S.stat = .ok true ∧ S.openError = none ∧
    ∃ d e, openTorrent S.sha1 S.os S.outDir S.stat (.ok d) disk = (.err e, P.disk))
  ready : (P.loc = .ready ∨ P.loc = .opening ∨ (∃ d, P.loc = .reading d) ∨ (∃ d, P.loc = .loaded d)) → S.configOk = true
  opening : c = .download → (P.loc = .opening ∨ (∃ d, P.loc = .reading d) ∨ (∃ d, P.loc = .loaded d)) → S.stat = .ok true
  opened : ((∃ d, P.loc = .reading d) ∨ (∃ d, P.loc = .loaded d)) → S.openError = none

theorem diskInv_step {S : Setup} {c : Command} {disk : Disk} {P P' : Proc} {a : ProcAct} (h : DiskInv S c disk P) (st : Proc.Step S c P a P') :
    DiskInv S c disk P' := by
  cases st with
  | first h1 => exact ⟨h.bencode, fun _ => h.before (.inl h1), by simp, by simp, by simp, by simp, by simp⟩
  | second h1 h2 => exact ⟨h.bencode, fun _ => h.before (.inr (.inl h1)), by simp, by simp, fun _ => h2, by simp, by simp⟩
  | badConfig h1 h2 => exact ⟨h.bencode, by simp, by simp, fun _ => .inl (h.before (.inr (.inl h1))), by simp, by simp, by simp⟩
  | badDir h1 h2 h3 => exact ⟨h.bencode, by simp, by simp, fun _ => .inl (h.before (.inr (.inr (.inl h1)))), by simp, by simp, by simp⟩
  | goodDir h1 h2 => exact ⟨h.bencode, fun _ => h.before (.inr (.inr (.inl h1))), by simp, by simp, fun _ => h.ready (.inl h1), fun hc _ => h2 hc, by simp⟩
  | openFails h1 h2 => exact ⟨h.bencode, by simp, by simp, fun _ => .inl (h.before (.inr (.inr (.inr (.inl h1))))), by simp, by simp, by simp⟩
  | openOk h1 h2 => exact ⟨h.bencode, fun _ => h.before (.inr (.inr (.inr (.inl h1)))), by simp, by simp, fun _ => h.ready (.inr (.inl h1)),
      fun hc _ => h.opening hc (.inl h1), fun _ => h2⟩
  | chunk bs h1 => exact ⟨h.bencode, fun _ => h.before (.inr (.inr (.inr (.inr (.inl ⟨_, h1⟩))))), by simp, by simp, fun _ => h.ready (.inr (.inr (.inl ⟨_, h1⟩))),
      fun hc _ => h.opening hc (.inr (.inl ⟨_, h1⟩)), fun _ => h.opened (.inl ⟨_, h1⟩)⟩
  | eof h1 => exact ⟨h.bencode, fun _ => h.before (.inr (.inr (.inr (.inr (.inl ⟨_, h1⟩))))), by simp, by simp, fun _ => h.ready (.inr (.inr (.inl ⟨_, h1⟩))),
      fun hc _ => h.opening hc (.inr (.inl ⟨_, h1⟩)), fun _ => h.opened (.inl ⟨_, h1⟩)⟩
  | readFails h1 => exact ⟨h.bencode, by simp, by simp, fun _ => .inl (h.before (.inr (.inr (.inr (.inr (.inl ⟨_, h1⟩)))))), by simp, by simp, by simp⟩
  | inspect h1 h2 => exact ⟨h.bencode, by simp, by simp, fun _ => .inl (h.bencode h2), by simp, by simp, by simp⟩
  | @cannotStart d r disk' out h1 h2 h3 h4 =>
    have hb := h.before (.inr (.inr (.inr (.inr (.inr ⟨_, h1⟩)))))
    refine ⟨fun hc => (by rw [h2] at hc; cases hc), by simp, by simp, fun he => .inr ⟨h.ready (.inr (.inr (.inr ⟨_, h1⟩))),
      h.opening h2 (.inr (.inr ⟨_, h1⟩)), h.opened (.inr ⟨_, h1⟩), d, ?_⟩, by simp, by simp, by simp⟩
    rw [hb] at h3
    cases r with
    | ok t => cases h4
    | err e => exact ⟨e, h3⟩
    | panic w =>
      simp only [downloadCommand, Option.some.injEq] at h4
      subst h4
      simp at he
  | begins h1 h2 h3 => exact ⟨fun hc => (by rw [h2] at hc; cases hc), by simp, fun _ _ => h2, by simp, by simp, by simp, by simp⟩
  | run h1 h2 h3 => exact ⟨h.bencode, by simp, fun _ _ => h.running _ h1, by simp, by simp, by simp, by simp⟩
  | ends h1 h2 h3 => exact ⟨h.bencode, by simp, by simp, by simp, by simp, by simp, by simp⟩
  | dies h1 h2 => exact ⟨h.bencode, by simp, by simp, by simp, by simp, by simp, by simp⟩
  | crashes h1 => exact ⟨h.bencode, by simp, by simp, by simp, by simp, by simp, by simp⟩
  | kill h1 => exact ⟨h.bencode, by simp, by simp, by simp, by simp, by simp, by simp⟩
  | early h1 => exact ⟨h.bencode, h.before, h.running, h.failed, h.ready, h.opening, h.opened⟩
  | notify h1 => exact ⟨h.bencode, h.before, h.running, h.failed, h.ready, h.opening, h.opened⟩
  | interrupt h1 h2 => exact ⟨h.bencode, by simp, fun _ _ => h.running _ h1, by simp, by simp, by simp, by simp⟩

theorem diskInv_acts {S : Setup} {c : Command} {disk : Disk} {P P' : Proc} (h : DiskInv S c disk P) (hr : Acts S c (fun _ => True) P P') :
    DiskInv S c disk P' := by
  induction hr with
  | here => exact h
  | step st _ _ ih => exact ih (diskInv_step h st)

theorem diskInv_gets {S : Setup} {c : Command} {disk : Disk} {P : Proc} (hr : Gets S c disk P) : DiskInv S c disk P :=
  diskInv_acts ⟨fun _ => rfl, fun _ => rfl, by simp [Proc.start], by simp [Proc.start], by simp [Proc.start], by simp [Proc.start], by simp [Proc.start]⟩ hr

/-- The command `bencode` never changes a file, however it ends. -/
theorem C153_bencode_partial {S : Setup} {disk : Disk} {P : Proc} (h : Gets S .bencode disk P) : Untouched disk P.disk :=
  fun q => by rw [(diskInv_gets h).bencode rfl]

/-- A download that fails has either touched nothing, or been stuck among the files of the torrent: then the ones before are empty,
and all others are as they were. -/
theorem C153_exact_partial {S : Setup} {disk : Disk} {P : Proc} (h : Gets S .download disk P) (he : P.loc = .exited 1) :
    Untouched disk P.disk ∨ ∃ d m before, unmarshalMetainfo d = (m, .ok) ∧ Stuck S.os S.outDir (metainfoOf m) before ∧ Emptied before disk P.disk := by
  rcases (diskInv_gets h).failed he with h1 | ⟨_, hst, _, d, e, h1⟩
  · exact .inl fun q => by rw [h1]
  · rw [hst] at h1
    unfold openTorrent at h1
    simp only at h1
    rcases hu : unmarshalMetainfo d with ⟨m, o⟩
    rw [hu] at h1
    cases o with
    | err e => simp only [Prod.mk.injEq] at h1; exact .inl fun q => by rw [h1.2]
    | panic w => simp at h1
    | ok =>
      simp only at h1
      have hany := C97_any_partial S.sha1 S.os (metainfoOf m) S.outDir disk
      rw [h1] at hany
      by_cases hs : Startable S.os S.outDir (metainfoOf m)
      · by_cases hc : ∀ p ∈ outputs S.outDir (metainfoOf m), S.os.createError p = none
        · obtain ⟨t, d', h2⟩ := (newTorrent_startable S.sha1 disk hs).1 hc
          rw [h2] at h1; simp at h1
        · obtain ⟨b, p, a, k1, k2, k3⟩ := stuck_of_fails _ _ hc
          have hst : Stuck S.os S.outDir (metainfoOf m) b := ⟨p, a, k1, k2, k3⟩
          have := hany.1 hs
          rw [stuck_takeWhile hst] at this
          exact .inr ⟨d, m, b, hu, hst, this⟩
      · exact .inl (hany.2 hs)

/-- C153 is false of the code. Whatever is on the disk: if a torrent can be opened but for one of its files that cannot be created, the
command fails and all files that come before it are lost. -/
theorem C153_violated (S : Setup) (disk : Disk) (h1 : S.configOk = true) (h2 : S.stat = .ok true) (h3 : S.openError = none) (d : Bytes)
    (m : GoVal) (hu : unmarshalMetainfo d = (m, .ok)) (hs : Startable S.os S.outDir (metainfoOf m)) (before : List Bytes)
    (hst : Stuck S.os S.outDir (metainfoOf m) before) :
    ∃ P, Gets S .download disk P ∧ P.loc = .exited 1 ∧ Emptied before disk P.disk := by
  obtain ⟨p, a, k1, k2, k3⟩ := hst
  have hc : ¬ ∀ p ∈ outputs S.outDir (metainfoOf m), S.os.createError p = none := fun h => k3 (h p (by rw [k1]; simp))
  obtain ⟨e, d', hn⟩ := (newTorrent_startable S.sha1 disk hs).2 hc
  have ho : openTorrent S.sha1 S.os S.outDir S.stat (.ok d) disk = (.err e, d') := by
    rw [h2]; unfold openTorrent; simp only [hu]; exact hn
  have hE := (C97_any_partial S.sha1 S.os (metainfoOf m) S.outDir disk).1 hs
  rw [stuck_takeWhile ⟨p, a, k1, k2, k3⟩, hn] at hE
  refine ⟨⟨.exited 1, false, d', 0⟩, ?_, rfl, hE⟩
  refine .step (P' := ⟨.between, false, disk, 0⟩) (.first rfl) trivial ?_
  refine .step (P' := ⟨.ready, false, disk, 0⟩) (.second rfl h1) trivial ?_
  refine .step (P' := ⟨.opening, false, disk, 0⟩) (.goodDir rfl (fun _ => h2)) trivial ?_
  refine .step (P' := ⟨.reading [], false, disk, 0⟩) (.openOk rfl h3) trivial ?_
  refine .step (P' := ⟨.reading ([] ++ d), false, disk, 0⟩) (.chunk d rfl) trivial ?_
  refine .step (P' := ⟨.loaded ([] ++ d), false, disk, 0⟩) (.eof rfl) trivial ?_
  rw [List.nil_append]
  exact .step (.cannotStart rfl rfl ho rfl) trivial .here

/-- Exactly when a file can be lost by a download that fails: the torrent file is readable, and some readable metainfo gets stuck after
a file that is not empty. -/
theorem C153_iff_partial (S : Setup) (disk : Disk) :
    (∃ P, Gets S .download disk P ∧ P.loc = .exited 1 ∧ ¬ Untouched disk P.disk) ↔
      S.configOk = true ∧ S.stat = .ok true ∧ S.openError = none ∧ ∃ d m before, unmarshalMetainfo d = (m, .ok) ∧
        Startable S.os S.outDir (metainfoOf m) ∧ Stuck S.os S.outDir (metainfoOf m) before ∧ ∃ q ∈ before, disk q ≠ [] := by
  constructor
  · rintro ⟨P, hg, he, hn⟩
    have inv := (diskInv_gets hg).failed he
    rcases inv with h1 | ⟨g1, hst, g3, d, e, h1⟩
    · exact absurd (fun q => by rw [h1]) hn
    · refine ⟨g1, hst, g3, ?_⟩
      rw [hst] at h1
      unfold openTorrent at h1
      simp only at h1
      rcases hu : unmarshalMetainfo d with ⟨m, o⟩
      rw [hu] at h1
      cases o with
      | err e => simp only [Prod.mk.injEq] at h1; exact absurd (fun q => by rw [h1.2]) hn
      | panic w => simp at h1
      | ok =>
        simp only at h1
        have hany := C97_any_partial S.sha1 S.os (metainfoOf m) S.outDir disk
        rw [h1] at hany
        by_cases hs : Startable S.os S.outDir (metainfoOf m)
        · by_cases hc : ∀ p ∈ outputs S.outDir (metainfoOf m), S.os.createError p = none
          · obtain ⟨t, d', h2⟩ := (newTorrent_startable S.sha1 disk hs).1 hc
            rw [h2] at h1; simp at h1
          · obtain ⟨b, p, a, k1, k2, k3⟩ := stuck_of_fails _ _ hc
            have hst : Stuck S.os S.outDir (metainfoOf m) b := ⟨p, a, k1, k2, k3⟩
            have hE := hany.1 hs
            rw [stuck_takeWhile hst] at hE
            refine ⟨d, m, b, hu, hs, hst, Classical.byContradiction fun hno => hn fun q => ?_⟩
            by_cases hq : q ∈ b
            · have he : P.disk q = [] := (hE q).1 hq
              rw [he]
              exact (Classical.byContradiction fun hne => hno ⟨q, hq, fun e => hne e.symm⟩)
            · exact (hE q).2 hq
        · exact absurd (hany.2 hs) hn
  · rintro ⟨h1, h2, h3, d, m, b, hu, hs, hst, q, hq, hne⟩
    obtain ⟨P, k1, k2, k3⟩ := C153_violated S disk h1 h2 h3 d m hu hs b hst
    exact ⟨P, k1, k2, fun hn => hne (by rw [← hn q]; exact (k3 q).1 hq)⟩

/-- A crash while the torrent is opened (C72) touches nothing: all panics come before the first file is created. -/
theorem C153_crash_partial {sha1 : Bytes → Bytes} {os : Os} {outDir : Bytes} {stat : Except String Bool} {file : Except String Bytes}
    {disk disk' : Disk} {w : String} (h : openTorrent sha1 os outDir stat file disk = (.panic w, disk')) : Untouched disk disk' := by
  unfold openTorrent at h
  cases stat with
  | error e => simp at h
  | ok b =>
    cases b with
    | false => simp at h
    | true =>
      cases file with
      | error e => simp at h
      | ok d =>
        simp only at h
        rcases hu : unmarshalMetainfo d with ⟨m, o⟩
        rw [hu] at h
        cases o with
        | err e => simp at h
        | panic w' => simp only [Prod.mk.injEq] at h; exact fun q => by rw [h.2]
        | ok =>
          simp only at h
          have hany := (C97_any_partial sha1 os (metainfoOf m) outDir disk).2
          rw [h] at hany
          refine hany fun hs => ?_
          by_cases hc : ∀ p ∈ outputs outDir (metainfoOf m), os.createError p = none
          · obtain ⟨t, d', h2⟩ := (newTorrent_startable sha1 disk hs).1 hc
            rw [h2] at h; simp at h
          · obtain ⟨t, d', h2⟩ := (newTorrent_startable sha1 disk hs).2 hc
            rw [h2] at h; simp at h

/-- The torrent of C72 with a file without a path: the program crashes, and all files are as before. -/
example : ∃ w disk', openTorrent (fun _ => []) ⟨fun _ => false, fun _ => none⟩ [] (.ok true) (.ok sampleMeta.encode) (fun _ => [7]) = (.panic w, disk') ∧
    Untouched (fun _ => [7]) disk' := by
  have h := C72_path_violated (fun _ => []) ⟨fun _ => false, fun _ => none⟩ [] (fun _ => [7]) _ _ sampleMeta_encodable sampleMeta_is (by decide) rfl rfl ⟨[], 1⟩
    (by simp [sampleMetainfo]) rfl
  rcases ho : openTorrent (fun _ => []) ⟨fun _ => false, fun _ => none⟩ [] (.ok true) (.ok sampleMeta.encode) (fun _ => [7]) with ⟨r, d⟩
  rw [ho] at h
  cases r with
  | ok t => cases h
  | err e => cases h
  | panic w => exact ⟨w, d, rfl, C153_crash_partial ho⟩

/-! ## A case -/

/-- A torrent of two files. -/
def pairInfo : Bencode := .dict true [(ascii "files", .list true [
    .dict true [(ascii "length", .int 4), (ascii "path", .list true [.str (ascii "a")] [])] [],
    .dict true [(ascii "length", .int 4), (ascii "path", .list true [.str (ascii "b")] [])] []] []),
  (ascii "name", .str (ascii "n")), (ascii "piece length", .int 16), (ascii "pieces", .str (List.replicate 20 7))] []
def pairMeta : Bencode := .dict true [(ascii "announce", .str (ascii "http://t/")), (ascii "info", pairInfo)] []
def pairMetainfo : Metainfo :=
  { announce := ascii "http://t/", announceList := [], urlList := [], files := [⟨[ascii "a"], 4⟩, ⟨[ascii "b"], 4⟩], infoLength := 0,
    name := ascii "n", pieceLength := 16, pieces := List.replicate 20 7, infoDictRaw := pairInfo.encode }

theorem pairMeta_is : IsMetainfo pairMeta pairMetainfo := by
  refine ⟨true, _, [], rfl, by simp [pairMetainfo], .inr ⟨lacks_keys (by decide), rfl⟩, .inr ⟨lacks_keys (by decide), rfl⟩,
    ⟨pairInfo, by simp, ?_, rfl⟩, .inl (lacks_keys (by decide))⟩
  refine ⟨true, _, [], rfl, by simp [pairMetainfo], by simp [pairMetainfo], by simp [pairMetainfo],
    .inr ⟨lacks_keys (by decide), rfl, true, _, [], .head _, ?_⟩⟩
  exact .cons ⟨true, _, [], rfl, ⟨_, .tail _ (.head _), ⟨true, [], rfl⟩⟩, .head _⟩
    (.cons ⟨true, _, [], rfl, ⟨_, .tail _ (.head _), ⟨true, [], rfl⟩⟩, .head _⟩ .nil)

theorem pairMeta_encodable : Encodable pairMeta := by
  have hi : ∀ n : Int, 0 ≤ n → n ≤ 100 → Encodable (.int n) := fun n h1 h2 => encodable_int ⟨h1, by simp only [maxNumber]; omega⟩
  have hs : ∀ s : Bytes, s.length ≤ 100 → Encodable (.str s) := fun s h => encodable_str (by simp only [maxNumber]; omega)
  have hk : ∀ kvs : List (Bytes × Bencode), (∀ e ∈ kvs, e.1.length ≤ 100) → ∀ e ∈ kvs, e.1.length ≤ maxNumber :=
    fun kvs h e he => by have := h e he; simp only [maxNumber]; omega
  have hf : ∀ s : Bytes, s.length ≤ 100 → Encodable (.dict true [(ascii "length", .int 4), (ascii "path", .list true [.str s] [])] []) := by
    intro s h
    refine encodable_dict ?_ (show [ascii "length", ascii "path"].Nodup by decide) (hk _ (by simp; decide))
    simp only [List.mem_cons, List.not_mem_nil, or_false, forall_eq_or_imp, forall_eq]
    exact ⟨hi _ (by decide) (by decide), encodable_list (by simp; exact hs _ h)⟩
  refine encodable_dict ?_ (by decide) (hk _ (by simp; decide))
  simp only [List.mem_cons, List.not_mem_nil, or_false, forall_eq_or_imp, forall_eq]
  refine ⟨hs _ (by decide), encodable_dict ?_ (by decide) (hk _ (by simp; decide))⟩
  simp only [List.mem_cons, List.not_mem_nil, or_false, forall_eq_or_imp, forall_eq]
  refine ⟨encodable_list ?_, hs _ (by decide), hi _ (by decide) (by decide), hs _ (by decide)⟩
  simp only [List.mem_cons, List.not_mem_nil, or_false, forall_eq_or_imp, forall_eq]
  exact ⟨hf _ (by decide), hf _ (by decide)⟩

/-- The second of its files cannot be created. -/
def pairSetup : Setup := ⟨fun _ => [], ⟨fun _ => false, fun p => if p = ascii "/r/n/b" then some "denied" else none⟩, ascii "/r", true, .ok true, none⟩

theorem pair_stuck : Startable pairSetup.os pairSetup.outDir pairMetainfo ∧ Stuck pairSetup.os pairSetup.outDir pairMetainfo [ascii "/r/n/a"] :=
  ⟨⟨by decide, fun _ => ⟨rfl, by decide⟩⟩, ascii "/r/n/b", [], by decide +kernel, by decide, by decide⟩

/-- So the first is lost, and C153 is false. -/
theorem C153_false_violated : ¬ FailureLeavesDisk pairSetup .download := by
  intro h
  obtain ⟨m, h1, h2⟩ := C73_roundtrip _ _ pairMeta_encodable pairMeta_is
  obtain ⟨P, k1, k2, k3⟩ := C153_violated pairSetup (fun _ => [7]) rfl rfl rfl _ m h1 (by rw [h2]; exact pair_stuck.1) [ascii "/r/n/a"]
    (by rw [h2]; exact pair_stuck.2)
  have a := h _ P k1 k2 (ascii "/r/n/a")
  rw [(k3 _).1 (by simp)] at a
  cases a

/-- The command `bencode` in the same place: it gets to its end, and the files are as before. -/
example : ∃ P, Gets pairSetup .bencode (fun _ => [7]) P ∧ Ended P ∧ Untouched (fun _ => [7]) P.disk := by
  have g : Gets pairSetup .bencode (fun _ => [7]) ⟨.exited (inspectCommand (.ok (.ok []))).exit, false, fun _ => [7], 0⟩ :=
    .step (P' := ⟨.between, false, fun _ => [7], 0⟩) (.first rfl) trivial
      (.step (P' := ⟨.ready, false, fun _ => [7], 0⟩) (.second rfl rfl) trivial
      (.step (P' := ⟨.opening, false, fun _ => [7], 0⟩) (.goodDir rfl (by simp)) trivial
      (.step (P' := ⟨.reading [], false, fun _ => [7], 0⟩) (.openOk rfl rfl) trivial
      (.step (P' := ⟨.loaded [], false, fun _ => [7], 0⟩) (.eof rfl) trivial
      (.step (.inspect rfl rfl) trivial .here)))))
  exact ⟨_, g, .inl ⟨_, rfl⟩, C153_bencode_partial g⟩

end Gotit.Props
