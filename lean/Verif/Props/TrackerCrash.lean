import Verif.Spec.TrackerCrash
import Verif.Props.ProgramAny
import Verif.Props.Unmarshal
/-
  C148: what a tracker has to send to end the program.
-/
namespace Gotit.Props
open Gotit Gotit.Spec

/-- C148, exact for one reply: `Announce` of an HTTP tracker panics if and only if the reply is one of `DeadlyReply`.
Missing: that there are no such replies; there are: C148_violated. -/
theorem C148_reply_partial (parseAddr : Bytes → Option Addr) (ht : HttpTracker) (r : HttpReply) :
    (∃ w, (httpAnnounce parseAddr ht r).2 = .panic w) ↔ DeadlyReply r := by
  have hkey : ∀ body, (∃ w, (readPeers parseAddr ht body).2 = .panic w) ↔
      (unmarshal (.ptr (.struct announceResponseFields)) (.ptr (some (.struct (zeros announceResponseFields)))) body).2.isPanic = true := by
    intro body
    unfold readPeers
    split
    · rename_i h; rw [h]; simp [Outcome.isPanic]
    · rename_i h; rw [h]; simp [Outcome.isPanic]
    · rename_i h
      rw [h]
      simp only [Outcome.isPanic, Bool.false_eq_true, iff_false]
      rintro ⟨w, hw⟩
      split at hw
      · cases hw
      · split at hw
        · cases hw
        · split at hw <;> cases hw
  have hact : ∃ f ∈ announceResponseFields, Active f :=
    ⟨fld "Failure" "failure reason,optional" .string, by simp [announceResponseFields], by simp [Active, fld, ascii]⟩
  have hkeyed : StringKeyedAll announceResponseFields := by
    simp [announceResponseFields, announcePeerFields, fld, StringKeyedAll, StringKeyed]
  cases r with
  | fail e =>
    simp only [httpAnnounce]
    constructor
    · rintro ⟨w, h⟩; cases h
    · rintro ⟨b, h, _⟩; cases h
  | reply st body =>
    simp only [httpAnnounce]
    by_cases hs : st = 200
    · subst hs
      rw [if_neg (by simp), hkey, C12_panic_iff_partial _ hkeyed]
      constructor
      · rintro (h | ⟨v, hv, hd, _⟩)
        · exact ⟨body, rfl, .inl h⟩
        · obtain ⟨b, x, hb, hden⟩ := (C03_grammar body v).1 hv
          exact ⟨body, rfl, .inr ⟨b, x, v, hb, hden, hd⟩⟩
      · rintro ⟨b', he, h⟩
        cases he
        rcases h with h | ⟨b, x, v, hb, hden, hd⟩
        · exact .inl h
        · exact .inr ⟨v, (C03_grammar body v).2 ⟨b, x, hb, hden⟩, hd, hact⟩
    · rw [if_pos hs]
      constructor
      · rintro ⟨w, h⟩; cases h
      · rintro ⟨b, h, _⟩; cases h; exact absurd rfl hs

/-- C148: no answer of a UDP tracker makes `Announce` panic. (A UDP socket knows no end of file; the slice of `io.ReadAll` has at least four
bytes to spare.) -/
theorem C148_udp_partial (clientId hash : Bytes) (ut : UdpTracker) (d : AnnounceData) (rnd : UdpRandom) (we : Option String) (evs : List Ev) (spare : Bytes)
    (hs : 4 ≤ spare.length) (he : .eof ∉ evs) : (udpAnnounce clientId ut hash d rnd we evs spare).2.2 ≠ .panic := by
  intro h
  obtain ⟨e, he'⟩ := C25_announce_violated clientId ut hash d rnd we evs spare hs he
  rw [h] at he'
  cases he'

/-- The reply that ended the program. -/
structure FatalOk (S : JobSetup) (P : Prog) : Prop where
  known : P.mgr.panicked = some "panic in Announce" → ∃ u r, P.fatal = some (u, r)
  fatal : ∀ u r, P.fatal = some (u, r) → P.mgr.panicked = some "panic in Announce" ∧ u ∈ S.urls ∧ trackerNew S.rest S.dial u = .http u ∧ DeadlyReply r

theorem fatalOk {S : JobSetup} {disk : Disk} {P : Prog} (hP : Prog.Reachable S disk P) : FatalOk S P := by
  induction hP with
  | start => exact ⟨(fun h => by cases h), (fun u r h => by cases h)⟩
  | @step P P' hP st ih =>
    have none_of : P.alive → P.fatal = none := by
      intro ha
      cases hf : P.fatal with
      | none => rfl
      | some x => have := (ih.fatal x.1 x.2 hf).1; rw [ha.1] at this; cases this
    have keep : P.alive → P'.mgr.panicked ≠ some "panic in Announce" → P'.fatal = P.fatal → FatalOk S P' := by
      intro ha hn hf
      refine ⟨fun h => absurd h hn, fun u r h => ?_⟩
      rw [hf, none_of ha] at h; cases h
    cases st with
    | manager ha hp => exact keep ha hp.panicked.2 rfl
    | announceCrash ht ha _ hu hk hr =>
      refine ⟨fun _ => ⟨_, _, rfl⟩, fun u r h => ?_⟩
      cases h
      exact ⟨rfl, (List.getElem?_eq_some_iff.1 hu).2 ▸ List.getElem_mem _, hk, (C148_reply_partial _ ht _).1 ⟨_, hr⟩⟩
    | announceCrashUdp ut d rnd we evs spare _ _ _ _ he hs hr => exact absurd hr (C148_udp_partial _ _ _ _ _ _ _ _ hs he)
    | peer ha => exact keep ha (by rw [(afterEvents_same _ _).2.2.2.2.2.1, ha.1]; simp) rfl
    | cancel ha => exact keep ha (by show P.mgr.panicked ≠ _; rw [ha.1]; simp) rfl
    | close ha => exact keep ha (by show P.mgr.panicked ≠ _; rw [ha.1]; simp) rfl
    | announcedHttp _ _ ha => exact keep ha (by show P.mgr.panicked ≠ _; rw [ha.1]; simp) rfl
    | announcedUdp _ _ _ _ _ _ ha => exact keep ha (by show P.mgr.panicked ≠ _; rw [ha.1]; simp) rfl
    | attempt _ ha => exact keep ha (by show P.mgr.panicked ≠ _; rw [ha.1]; simp) rfl
    | connectFailed ha => exact keep ha (by show P.mgr.panicked ≠ _; rw [ha.1]; simp) rfl
    | connected ha => exact keep ha (by show P.mgr.panicked ≠ _; rw [ha.1]; simp) rfl
    | peerEnds ha => exact keep ha (by show P.mgr.panicked ≠ _; rw [ha.1]; simp) rfl
    | receive ha => exact keep ha (by show P.mgr.panicked ≠ _; rw [ha.1]; simp) rfl
    | write _ ha => exact keep ha (by show P.mgr.panicked ≠ _; rw [ha.1]; simp) rfl
    | writeCrash _ ha => exact keep ha (by show P.mgr.panicked ≠ _; rw [ha.1]; simp) rfl

/-- C148 is false of the code: for every torrent with an HTTP tracker, one reply of this tracker ends the program, before there is any peer. -/
theorem C148_violated (S : JobSetup) (disk : Disk) (u : Bytes) (hu : u ∈ S.urls) (hk : trackerNew S.rest S.dial u = .http u) (r : HttpReply)
    (hr : DeadlyReply r) : ∃ P, Prog.Reachable S disk P ∧ P.fatal = some (u, r) ∧ ¬ P.alive ∧ P.mgr.cancelled = false ∧ P.world.peers = [] := by
  obtain ⟨k, hk1, hk2⟩ := List.getElem_of_mem hu
  have e1 : (Prog.start S disk).mgr.trackers = List.replicate k .start ++ TrackerLoc.start :: List.replicate (S.urls.length - k - 1) .start := by
    show List.replicate S.urls.length TrackerLoc.start = _
    rw [← List.replicate_succ, List.replicate_append_replicate]
    congr 1
    omega
  have p1 : (Prog.start S disk).mgr.Private { (Prog.start S disk).mgr with
      trackers := List.replicate k .start ++ TrackerLoc.announcing :: List.replicate (S.urls.length - k - 1) .start } := by
    refine ⟨.trackerNew rfl e1, by simp [Prog.start, Mgr.start], rfl, rfl, rfl, rfl, rfl, rfl, rfl, rfl, rfl, rfl, ?_⟩
    intro j ips hj
    have := List.mem_of_getElem? hj
    rw [e1] at this
    simp at this
  have r1 := Prog.Reachable.start.step (.manager ⟨rfl, by simp [Prog.start, World.start, World.alive]⟩ p1)
  obtain ⟨w, hw⟩ := (C148_reply_partial S.parseAddr (newHttpTracker u []) r).2 hr
  have r2 := r1.step (.announceCrash (newHttpTracker u []) ⟨rfl, by simp [Prog.start, World.start, World.alive]⟩ rfl
    (by rw [List.length_replicate, List.getElem?_eq_getElem hk1, hk2]) hk hw)
  exact ⟨_, r2, rfl, (fun h => by cases h.1), rfl, rfl⟩

/-- An empty list will do, or an integer. -/
example : DeadlyReply (.reply 200 (ascii "le")) ∧ DeadlyReply (.reply 200 (ascii "i0e")) := by
  exact ⟨⟨_, rfl, .inr ⟨ascii "le", [], .list true [] (ascii "le"), rfl, .list _ _ .nil, by simp⟩⟩,
    ⟨_, rfl, .inr ⟨105 :: ascii "0" ++ [101], [], .int (machineNumber (ascii "0")), by decide, .int _ (isDigits_of_all (by decide)), by simp⟩⟩⟩

end Gotit.Props
