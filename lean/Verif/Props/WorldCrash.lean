import Verif.Props.Crash
import Verif.Props.WriterCrash
/-
  C74 for whole downloads.
-/
namespace Gotit.Props
open Gotit Spec

/-- The channel to the writer is closed only when the download was cancelled. -/
theorem world_closed {sha1 : Bytes → Bytes} {t : Torrent} {p0 : Peer} {disk : Disk} {W : World} (h : World.Reachable sha1 t p0 disk W) :
    W.closed = true → W.cancelled = true := by
  induction h with
  | start => simp [World.start]
  | @step W W' _ st ih =>
    cases st with
    | peer _ _ _ _ he =>
      obtain ⟨_, _, f3, f4, _⟩ := effects_frame he
      simp only [f3, f4]; exact ih
    | cancel _ => exact fun _ => rfl
    | close _ h => exact fun _ => h
    | _ => exact ih

/-- C74, exact for whole downloads: as long as the download is not cancelled, the program has crashed (in whichever goroutine, and however
badly the disk behaves) if and only if some peer sent a message that is too short for its type or names a piece that does not exist.
Missing: that it does not crash on these; and downloads that were cancelled, for which see C63. -/
theorem C74_download_partial (sha1 : Bytes → Bytes) (os : Os) (mi : Metainfo) (root : Bytes) (disk disk' : Disk) (t : Torrent) (W : World)
    (hm : Measured mi) (hn : newTorrent sha1 os mi root disk = (.ok t, disk')) (hW : World.Reachable sha1 t (newPeer t) disk' W)
    (hc : W.cancelled = false) : ¬ W.alive ↔ ∃ i f, (i, RunEv.received f) ∈ W.trace ∧ Poison t.pieces.length f := by
  have hdead := C107_partial sha1 os mi root disk disk' t W hm hn hW
  have hcl : W.closed = false := by
    cases h : W.closed with
    | false => rfl
    | true => rw [world_closed hW h] at hc; cases hc
  obtain ⟨t1, t2⟩ := world_trace hW
  have hrun : ∀ x ∈ W.peers, x.2.loc = .panicked ↔ ∃ f, RunEv.received f ∈ x.2.log ∧ Poison t.pieces.length f := by
    intro x hx
    obtain ⟨g1, _, g3⟩ := world_proj hW x hx
    refine C74_crash_iff_partial sha1 t (newPeer t) x.2 g1 ?_
    cases h : x.2.closed with
    | false => rfl
    | true => rw [g3 h] at hcl; cases hcl
  have hlog : ∀ i q r f, W.peers[i]? = some (q, r) → (RunEv.received f ∈ r.log ↔ (i, RunEv.received f) ∈ W.trace) := by
    intro i q r f hi
    rw [t2 i q r hi, List.mem_filterMap]
    constructor
    · rintro ⟨⟨j, e⟩, h1, h2⟩
      simp only at h2
      split at h2
      · rename_i hj; subst hj; cases h2; exact h1
      · cases h2
    · intro h; exact ⟨_, h, by simp⟩
  constructor
  · intro hna
    apply Classical.byContradiction
    intro hno
    apply hna
    refine ⟨hdead, ?_⟩
    intro x hx hl
    obtain ⟨f, h1, h2⟩ := (hrun x hx).1 hl
    obtain ⟨i, hi, rfl⟩ := List.getElem_of_mem hx
    exact hno ⟨i, f, (hlog i _ _ f (by rw [List.getElem?_eq_getElem hi])).1 h1, h2⟩
  · rintro ⟨i, f, h1, h2⟩ ha
    have hi := t1 _ h1
    simp only at hi
    have hg : W.peers[i]? = some (W.peers[i].1, W.peers[i].2) := by rw [List.getElem?_eq_getElem hi]
    exact ha.2 _ (List.getElem_mem hi) ((hrun _ (List.getElem_mem hi)).2 ⟨f, (hlog i _ _ f hg).2 h1, h2⟩)

/-- A download in which a peer, after the interested message, sends a have message without an index: the program crashes. -/
example : ∃ t disk' W, newTorrent (fun _ => List.replicate 20 1) goodOs (fewBytes 8 2) (ascii "/r") (fun _ => []) = (.ok t, disk') ∧
    Measured (fewBytes 8 2) ∧ World.Reachable (fun _ => List.replicate 20 1) t (newPeer t) disk' W ∧ W.cancelled = false ∧ ¬ W.alive := by
  obtain ⟨t, d', h1, h2, h3, h4, _⟩ := fewBytes_opens 8 2 (by omega) (by omega) (by omega) [1, 2, 3, 4, 5, 6, 7, 8] rfl
  have hm : Measured (fewBytes 8 2) := ⟨by decide, by decide, by decide⟩
  obtain ⟨r, a0, a1, a2, a3⟩ := At.start (sha1 := fun _ => List.replicate 20 1) (t := t) (p0 := newPeer t) (disk := d') rfl
  obtain ⟨k, k0, hdown, _⟩ := new_count h1 h2 h3 (by simp) (by simp) (by omega)
  have hall : t.downloaded.all = false := by
    cases h : t.downloaded.all with
    | false => rfl
    | true =>
      rw [BitSet.all_iff, hdown] at h
      exact absurd (h 0 k0) (by simp [BitSet.new])
  have s1 := a0.silent (.ctxOk a1 rfl) rfl (by simp [Run.goto])
  have s2 := s1.silent (.notDone rfl hall) rfl (by simp [Run.goto])
  have s3 := s2.silent (.notDue rfl) rfl (by simp [Run.goto])
  have s4 := s3.silent (.choked rfl a2) rfl (by simp [Run.goto])
  have s5 := s4.silent (.uCtxOk rfl rfl) rfl (by simp [Run.goto])
  obtain ⟨W, hW, s⟩ := s5.quiet [.sent interestedMessage] (.uSent rfl) rfl (by simp [quietEv]) (by simp [Run.emit])
  refine ⟨t, d', _, h1, hm, hW.step (.peer (i := 0) (q := 0) (es := [.received [4]]) s.isAlive (by rw [s.peers]; rfl) (.uRead [4] rfl) rfl
    (quiet_effects (by simp [quietEv]))), s.cancelled, ?_⟩
  intro ha
  exact ha.2 (0, _) (by rw [s.peers]; exact List.mem_cons_self) rfl

end Gotit.Props
