import Verif.Props.ProgramAny
import Verif.Props.Open
/-
  C136 from the bytes of the torrent file.
-/
namespace Gotit.Props
open Gotit Gotit.Spec

/-- C136, beginning with the torrent file: if the file is the encoding of the metainfo `mi` (C73) and the program opens it, then at every
moment of the download each byte of the torrent's files is zero or came, over a connection to an address that a tracker listed in the
file had named, from somebody who had introduced itself with the SHA-1 of the bytes the value of `info` has in the file, in a piece message
whose block has the SHA-1 that the file lists for its piece. No other file is touched. -/
theorem C136_file (S : JobSetup) (os : Os) (v : Bencode) (mi : Metainfo) (he : Encodable v) (hm : IsMetainfo v mi) (outDir : Bytes)
    (disk0 disk : Disk) (ho : openTorrent S.sha1 os outDir (.ok true) (.ok v.encode) disk0 = (.ok S.t, disk)) (hs : Sensible mi) (pl : Nat)
    (hpl : mi.pieceLength = pl) (hsm : S.t.pieces.length * pl + 2 ^ 32 ≤ 2 ^ 63) (hh : (S.sha1 mi.infoDictRaw).length = 20)
    (hu : ∀ u ∈ S.urls, u ∈ S.t.trackers) (P : Prog) (hP : Prog.Reachable S disk P) :
    (OldOrFrom (CameFrom S mi pl P.replies (P.addrs.zip P.wires)) (List.replicate (total (extents S.t)) 0) (layout P.world.out.disk (extents S.t)) ∧
      OnlyTouches (extents S.t) disk P.world.out.disk) ∧
    ∃ pre post, v.encode = pre ++ (mi.infoDictRaw ++ post) := by
  refine ⟨C136_provenance S os mi outDir disk0 disk ?_ hs pl hpl hsm hh hu P hP, ?_⟩
  · rw [← C73_open S.sha1 os outDir disk0 v mi he hm]; exact ho
  · obtain ⟨m, h1, h2⟩ := C73_roundtrip v mi he hm
    obtain ⟨_, _, _, _, _, _, raw, _, _, _, _, ⟨pre, post, h3⟩, h4, _⟩ := C15_info_hash S.sha1 v.encode m h1
    refine ⟨pre, post, ?_⟩
    rw [h3, ← h4, ← h2]
    rfl

/-- C136 for any torrent file at all, however it is written: if the program opens the bytes `data`, these have been read as a metainfo
value `m` (C94 says which), the bytes of its `info` stand in the file as they are, and with what `m` says in the place of `mi` the same is
true of the download. -/
theorem C136_bytes (S : JobSetup) (os : Os) (data outDir : Bytes) (disk0 disk : Disk)
    (ho : openTorrent S.sha1 os outDir (.ok true) (.ok data) disk0 = (.ok S.t, disk)) :
    ∃ m, unmarshalMetainfo data = (m, .ok) ∧ (∃ pre post, data = pre ++ ((metainfoOf m).infoDictRaw ++ post)) ∧
    (Sensible (metainfoOf m) → ∀ pl : Nat, (metainfoOf m).pieceLength = pl → S.t.pieces.length * pl + 2 ^ 32 ≤ 2 ^ 63 →
      (S.sha1 (metainfoOf m).infoDictRaw).length = 20 → (∀ u ∈ S.urls, u ∈ S.t.trackers) → ∀ P : Prog, Prog.Reachable S disk P →
      OldOrFrom (CameFrom S (metainfoOf m) pl P.replies (P.addrs.zip P.wires)) (List.replicate (total (extents S.t)) 0)
        (layout P.world.out.disk (extents S.t)) ∧
      OnlyTouches (extents S.t) disk P.world.out.disk) := by
  unfold openTorrent at ho
  simp only at ho
  cases hu : unmarshalMetainfo data with
  | mk m r =>
    rw [hu] at ho
    cases r with
    | err e => simp at ho
    | panic w => simp at ho
    | ok =>
      simp only at ho
      refine ⟨m, rfl, ?_, fun hs pl hpl hsm hh hus P hP => C136_provenance S os _ outDir disk0 disk ho hs pl hpl hsm hh hus P hP⟩
      obtain ⟨_, _, _, _, _, _, raw, _, _, _, _, ⟨pre, post, h3⟩, h4, _⟩ := C15_info_hash S.sha1 data m hu
      exact ⟨pre, post, by rw [h3, ← h4]; rfl⟩

/-! ### A file -/

/-- A torrent file of eight bytes in two pieces of four. -/
def eightInfo : Bencode := .dict true [(ascii "length", .int 8), (ascii "name", .str (ascii "n")), (ascii "piece length", .int 4),
  (ascii "pieces", .str (List.replicate 40 1))] []
def eightFile : Bencode := .dict true [(ascii "announce", .str (ascii "http://t/a")), (ascii "info", eightInfo)] []
def eightMeta : Metainfo := { fewBytes 8 2 with infoDictRaw := eightInfo.encode }

theorem eight_is : IsMetainfo eightFile eightMeta :=
  ⟨true, _, [], rfl, by simp [eightMeta, fewBytes, oneFile], .inr ⟨lacks_keys (by decide), rfl⟩, .inr ⟨lacks_keys (by decide), rfl⟩,
    ⟨eightInfo, by simp, ⟨true, _, [], rfl, by simp [eightMeta, fewBytes, oneFile], by simp [eightMeta, fewBytes, oneFile],
      by simp [eightMeta, fewBytes], .inl ⟨by simp [eightMeta, fewBytes], lacks_keys (by decide), rfl⟩⟩, rfl⟩, .inl (lacks_keys (by decide))⟩

theorem eight_encodable : Encodable eightFile := by
  have hi : ∀ n : Int, 0 ≤ n → n ≤ 100 → Encodable (.int n) := fun n h1 h2 => encodable_int ⟨h1, by simp only [maxNumber]; omega⟩
  have hs : ∀ s : Bytes, s.length ≤ 100 → Encodable (.str s) := fun s h => encodable_str (by simp only [maxNumber]; omega)
  have hk : ∀ kvs : List (Bytes × Bencode), (∀ e ∈ kvs, e.1.length ≤ 100) → ∀ e ∈ kvs, e.1.length ≤ maxNumber :=
    fun kvs h e he => by have := h e he; simp only [maxNumber]; omega
  refine encodable_dict ?_ (by decide) (hk _ (by simp; decide))
  simp only [List.mem_cons, List.not_mem_nil, or_false, forall_eq_or_imp, forall_eq]
  refine ⟨hs _ (by decide), encodable_dict ?_ (by decide) (hk _ (by simp; decide))⟩
  simp only [List.mem_cons, List.not_mem_nil, or_false, forall_eq_or_imp, forall_eq]
  exact ⟨hi _ (by decide) (by decide), hs _ (by decide), hi _ (by decide) (by decide), hs _ (by decide)⟩

/-- The file is opened, and a download of it can end with the content on the disk. -/
example : ∃ S disk P, openTorrent S.sha1 goodOs (ascii "/r") (.ok true) (.ok eightFile.encode) (fun _ => []) = (.ok S.t, disk) ∧
    Sensible eightMeta ∧ S.t.pieces.length * 4 + 2 ^ 32 ≤ 2 ^ 63 ∧ (S.sha1 eightMeta.infoDictRaw).length = 20 ∧
    (∀ u ∈ S.urls, u ∈ S.t.trackers) ∧ Prog.Reachable S disk P ∧ layout P.world.out.disk (extents S.t) = [1, 2, 3, 4, 5, 6, 7, 8] := by
  obtain ⟨t, d', h1, h2, h3, h4, _⟩ := fewBytes_opens 8 2 (by omega) (by omega) (by omega) [1, 2, 3, 4, 5, 6, 7, 8] rfl
  obtain ⟨W, g1, g2, g3, g4, r, g5⟩ := C78_pushed_partial _ _ _ _ _ _ _ h1 h2 _ 4 h3 (by simp) (by simp) (by omega) (by rw [h4]; decide) (by omega)
    (by simp)
  obtain ⟨_, _, _, _, _, _, _, htr, hhash, _⟩ := newTorrent_ok h1
  have hs : Supply ⟨fun _ => List.replicate 20 1, t, [], fun _ => some (.v4 1 2 3 4), fun a => if a = .zero then [0] else [1], fun _ _ _ => some [],
      fun _ => true, [ascii "http://t/a"]⟩ (fun _ => ⟨some (.v4 1 2 3 4), 5⟩) (fun _ => .reply 200 (ascii "d5:peersld2:ip1:x4:port1:5eee")) 1 := by
    refine ⟨⟨_, [], rfl, show trackerNew (fun _ _ _ => some []) (fun _ => true) (ascii "http://t/a") = _ by decide⟩, fun k _ => ⟨⟨[], [], [], 0⟩, _, (C17_success_iff_partial _ _ _ _ _).2 ⟨_, _, _, badIpBody_good, by
      simp [peerAddr, show portNumber (ascii "5") = some 5 from by decide], rfl⟩⟩, fun i j _ _ _ => by omega, fun i _ => by
        simp only; decide⟩
  obtain ⟨P, hP, hw⟩ := C136_any hs (by rw [hhash]; rfl) g1 (fun i q x hi => by
      rw [g5] at hi
      cases i with
      | zero => simp at hi; exact hi.1.symm
      | succ i => simp at hi) g4 (by rw [g5]; simp)
  refine ⟨_, d', P, ?_, ⟨h2.single, h2.multi⟩, ?_, rfl, ?_, hP, by rw [hw]; exact g3⟩
  · rw [C73_open _ _ _ _ _ _ eight_encodable eight_is]
    exact h1
  · simp only [h4]; decide
  · intro u hu
    rw [List.mem_singleton.1 hu, htr]
    decide

end Gotit.Props
