import Verif.Model.Announced
import Verif.Spec.Announced
import Verif.Props.Paths
import Verif.Props.TrackerNew
/-
  C126: only trackers are announced to. C127: the tiers of announce-list.
-/
namespace Gotit.Props
open Gotit Spec

theorem mem_announcedTo {rest : Bytes → Bytes → Bytes → Option Bytes} {dial : Bytes → Bool} {t : Torrent} {x : NewTracker} :
    x ∈ announcedTo rest dial t ↔ x ≠ .err ∧ ∃ u ∈ t.trackers, trackerNew rest dial u = x := by
  simp only [announcedTo, List.mem_filter, List.mem_map, decide_eq_true_eq]
  exact ⟨fun ⟨h1, h2⟩ => ⟨h2, h1⟩, fun ⟨h1, h2⟩ => ⟨h2, h1⟩⟩

/-- C126, exact: HTTP announces go to every http(s) URL among announce, announce-list and url-list, UDP announces to the host of
every udp URL among them that can be dialled, and to nothing else. Missing: leaving url-list out. -/
theorem C126_exact_partial (sha1 : Bytes → Bytes) (os : Os) (m : Metainfo) (root : Bytes) (disk disk' : Disk) (t : Torrent)
    (h : newTorrent sha1 os m root disk = (.ok t, disk')) (rest : Bytes → Bytes → Bytes → Option Bytes) (dial : Bytes → Bool) :
    (∀ a, .http a ∈ announcedTo rest dial t ↔ (NamedTracker m a ∨ a ∈ m.urlList) ∧
      ∃ name r frag, (name = ascii "http" ∨ name = ascii "https") ∧ UrlOf a name r frag ∧ rest name r frag ≠ none) ∧
    (∀ host, .udp host ∈ announcedTo rest dial t ↔ dial host = true ∧ ∃ u, (NamedTracker m u ∨ u ∈ m.urlList) ∧
      ∃ r frag, UrlOf u (ascii "udp") r frag ∧ rest (ascii "udp") r frag = some host) := by
  have hm := (C48_trackers sha1 os m root disk disk' t h).2
  have hn : ∀ u, u ∈ t.trackers ↔ NamedTracker m u ∨ u ∈ m.urlList := fun u => by
    rw [hm]; unfold NamedTracker; exact or_assoc.symm
  refine ⟨fun a => ?_, fun host => ?_⟩
  · rw [mem_announcedTo]
    constructor
    · rintro ⟨-, u, hu, e⟩
      obtain ⟨rfl, hx⟩ := (C88_http rest dial u a).1 e
      exact ⟨(hn _).1 hu, hx⟩
    · rintro ⟨hu, hx⟩
      exact ⟨by simp, a, (hn _).2 hu, (C88_http rest dial a a).2 ⟨rfl, hx⟩⟩
  · rw [mem_announcedTo]
    constructor
    · rintro ⟨-, u, hu, e⟩
      obtain ⟨r, frag, h1, h2, h3⟩ := (C88_udp rest dial u host).1 e
      exact ⟨h3, u, (hn _).1 hu, r, frag, h1, h2⟩
    · rintro ⟨h3, u, hu, r, frag, h1, h2⟩
      exact ⟨by simp, u, (hn _).2 hu, (C88_udp rest dial u host).2 ⟨r, frag, h1, h2, h3⟩⟩

/-- C126 fails: every web seed with an http(s) URL is announced to, although it is not named as a tracker. -/
theorem C126_violated (sha1 : Bytes → Bytes) (os : Os) (m : Metainfo) (root : Bytes) (disk disk' : Disk) (t : Torrent)
    (h : newTorrent sha1 os m root disk = (.ok t, disk')) (rest : Bytes → Bytes → Bytes → Option Bytes) (dial : Bytes → Bool)
    (a : Bytes) (ha : a ∈ m.urlList) (hno : ¬ NamedTracker m a) (r frag : Bytes)
    (hu : UrlOf a (ascii "http") r frag ∨ UrlOf a (ascii "https") r frag) (hr : ∀ n, rest n r frag ≠ none) :
    ¬ ∀ b, .http b ∈ announcedTo rest dial t → NamedTracker m b := fun hall =>
  hno (hall a (((C126_exact_partial sha1 os m root disk disk' t h rest dial).1 a).2 ⟨.inr ha,
    hu.elim (fun x => ⟨_, r, frag, .inl rfl, x, hr _⟩) fun x => ⟨_, r, frag, .inr rfl, x, hr _⟩⟩))

/-- C126 for torrents without web seeds, or whose web seeds have other schemes (ftp): only trackers are announced to. -/
theorem C126_noseeds_partial (sha1 : Bytes → Bytes) (os : Os) (m : Metainfo) (root : Bytes) (disk disk' : Disk) (t : Torrent)
    (h : newTorrent sha1 os m root disk = (.ok t, disk')) (rest : Bytes → Bytes → Bytes → Option Bytes) (dial : Bytes → Bool)
    (hs : ∀ a ∈ m.urlList, ∀ name r frag, name ∈ [ascii "http", ascii "https", ascii "udp"] → ¬ UrlOf a name r frag) :
    (∀ a, .http a ∈ announcedTo rest dial t → NamedTracker m a) ∧
    (∀ host, .udp host ∈ announcedTo rest dial t → ∃ u r frag, NamedTracker m u ∧ UrlOf u (ascii "udp") r frag ∧
      rest (ascii "udp") r frag = some host) := by
  obtain ⟨h1, h2⟩ := C126_exact_partial sha1 os m root disk disk' t h rest dial
  refine ⟨fun a ha => ?_, fun host hh => ?_⟩
  · obtain ⟨h3 | h3, name, r, frag, hn, hu, _⟩ := (h1 a).1 ha
    · exact h3
    · exact absurd hu (hs a h3 name r frag (by rcases hn with rfl | rfl <;> simp))
  · obtain ⟨_, u, h3 | h3, r, frag, hu, hr⟩ := (h2 host).1 hh
    · exact ⟨u, r, frag, h3, hu, hr⟩
    · exact absurd hu (hs u h3 _ r frag (by simp))

/-! ### C127 -/

/-- The state in which exactly the chosen goroutines have begun to announce. -/
def begun (bs : List Bool) : List TrackerLoc := bs.map fun b => if b then .announcing else .start

theorem begun_reachable (limit : Nat) : ∀ (as bs : List Bool) (σ : Mgr), Mgr.Reachable (as.length + bs.length) limit σ →
    σ = { Mgr.start (as.length + bs.length) with trackers := begun as ++ List.replicate bs.length .start } →
    Mgr.Reachable (as.length + bs.length) limit { Mgr.start (as.length + bs.length) with trackers := begun (as ++ bs) } := by
  intro as bs
  induction bs generalizing as with
  | nil =>
    intro σ h e
    simp only [List.length_nil, List.replicate_zero, List.append_nil] at e ⊢
    exact e ▸ h
  | cons b bs ih =>
    intro σ h e
    have hl : (as ++ [b]).length + bs.length = as.length + (b :: bs).length := by simp; omega
    have hb : begun (as ++ [b]) = begun as ++ [if b then .announcing else .start] := by simp [begun]
    have := ih (as ++ [b]) { σ with trackers := begun (as ++ [b]) ++ List.replicate bs.length .start } (by
      rw [hl]
      cases b with
      | false =>
        have : ({ σ with trackers := begun (as ++ [false]) ++ List.replicate bs.length .start } : Mgr) = σ := by
          rw [e, hb]; simp [List.replicate_succ]
        rw [this]; exact h
      | true =>
        have ht : σ.trackers = begun as ++ .start :: List.replicate bs.length .start := by rw [e]; simp [List.replicate_succ]
        have := Mgr.Reachable.step h (.trackerNew (by rw [e]; rfl) ht)
        rw [hb]
        simpa using this) (by rw [e, hl])
    rw [hl] at this
    simpa using this

/-- C127, how far it goes: any of the trackers may have begun to announce while the others have not, whatever their tiers. -/
theorem C127_any_partial (limit : Nat) (bs : List Bool) :
    Mgr.Reachable bs.length limit { Mgr.start bs.length with trackers := begun bs } := by
  have := begun_reachable limit [] bs _ .start (by simp [begun]; rfl)
  simpa using this

theorem begun_only (n j : Nat) (hj : j < n) : ∃ bs : List Bool, bs.length = n ∧ ∀ i, i < n → (begun bs)[i]? = some (if i = j then .announcing else .start) := by
  refine ⟨(List.range n).map (fun i => decide (i = j)), by simp, fun i hi => ?_⟩
  simp only [begun, List.map_map, List.getElem?_map, List.getElem?_range hi, Option.map_some, Function.comp]
  by_cases h : i = j <;> simp [h]

/-- C127 fails for every torrent with trackers in two tiers: one of a later tier may be the first to be announced to. -/
theorem C127_violated (sha1 : Bytes → Bytes) (os : Os) (m : Metainfo) (root : Bytes) (disk disk' : Disk) (t : Torrent)
    (h : newTorrent sha1 os m root disk = (.ok t, disk')) (us : List Bytes) (hus : us.Perm t.trackers) (limit a b : Nat)
    (ta tb : List Bytes) (u v : Bytes) (ha : m.announceList[a]? = some ta) (hb : m.announceList[b]? = some tb) (hab : a < b)
    (hu : u ∈ ta) (hv : v ∈ tb) (hfirst : ∀ (c : Nat) (tc : List Bytes), m.announceList[c]? = some tc → c < b → v ∉ tc) :
    ∃ σ, Mgr.Reachable us.length limit σ ∧ ¬ TierOrder m.announceList us σ := by
  have hm := (C48_trackers sha1 os m root disk disk' t h).2
  have hu' : u ∈ us := hus.mem_iff.2 ((hm u).2 (.inr (.inl ⟨ta, List.mem_of_getElem? ha, hu⟩)))
  have hv' : v ∈ us := hus.mem_iff.2 ((hm v).2 (.inr (.inl ⟨tb, List.mem_of_getElem? hb, hv⟩)))
  obtain ⟨i, hi⟩ := List.mem_iff_getElem?.1 hu'
  obtain ⟨j, hj⟩ := List.mem_iff_getElem?.1 hv'
  have hil : i < us.length := (List.getElem?_eq_some_iff.1 hi).1
  have hjl : j < us.length := (List.getElem?_eq_some_iff.1 hj).1
  have hne : i ≠ j := by
    rintro rfl
    rw [hi] at hj
    injection hj with e
    exact hfirst a ta ha hab (e ▸ hu)
  obtain ⟨bs, hl, hbs⟩ := begun_only us.length j hjl
  have r := C127_any_partial limit bs
  rw [hl] at r
  refine ⟨_, r, fun ho => ?_⟩
  refine ho a b ta tb i j u v ha hb hab hu hv hfirst hi hj ?_ ?_
  · show (begun bs)[j]? = _
    rw [hbs j hjl]; simp
  · show (begun bs)[i]? = _
    rw [hbs i hil]; simp [hne]

/-- C127: nor is `announce` left out when there are tiers. -/
theorem C127_announce_violated (sha1 : Bytes → Bytes) (os : Os) (m : Metainfo) (root : Bytes) (disk disk' : Disk) (t : Torrent)
    (h : newTorrent sha1 os m root disk = (.ok t, disk')) (hl : m.announceList ≠ []) (hn : ∀ tier ∈ m.announceList, m.announce ∉ tier) :
    ¬ AnnounceIgnored m t.trackers := fun hi =>
  hi hl hn (((C48_trackers sha1 os m root disk disk' t h).2 _).2 (.inl rfl))

/-- A torrent file with two tiers and a web seed. -/
def seedMeta : Metainfo :=
  { announce := ascii "http://t/", announceList := [[ascii "http://a/"], [ascii "udp://b:1"]], urlList := [ascii "http://seed/f"],
    files := [], infoLength := 5, name := ascii "d", pieceLength := 16, pieces := List.replicate 20 7, infoDictRaw := [] }

theorem seedMeta_new (disk : Disk) : ∃ t disk', newTorrent (fun _ => []) ⟨fun _ => false, fun _ => none⟩ seedMeta (ascii "out") disk = (.ok t, disk') := by
  have hp : newPieces seedMeta.pieces = .ok [⟨0, List.replicate 20 7⟩] := by decide
  rw [newTorrent, hp]
  exact ⟨_, _, rfl⟩

example (disk : Disk) : ∃ t disk', newTorrent (fun _ => []) ⟨fun _ => false, fun _ => none⟩ seedMeta (ascii "out") disk = (.ok t, disk') ∧
    (¬ ∀ b, .http b ∈ announcedTo (fun _ _ _ => some []) (fun _ => true) t → NamedTracker seedMeta b) ∧
    (∃ σ, Mgr.Reachable t.trackers.length 30 σ ∧ ¬ TierOrder seedMeta.announceList t.trackers σ) ∧
    ¬ AnnounceIgnored seedMeta t.trackers := by
  obtain ⟨t, disk', h⟩ := seedMeta_new disk
  refine ⟨t, disk', h, ?_, ?_, ?_⟩
  · refine C126_violated _ _ _ _ _ _ _ h _ _ (ascii "http://seed/f") (by simp [seedMeta]) ?_ (ascii "//seed/f") [] (.inl ?_) (by simp)
    · simp only [NamedTracker, seedMeta]; decide
    · exact ⟨ascii "http", (isScheme_iff _).2 ⟨by decide, 104, ascii "ttp", by decide, by decide⟩, by
        rw [sameLetters_iff _ _ (by unfold lowerName; decide)]; decide, by decide, .inl ⟨by decide, rfl⟩⟩
  · refine C127_violated _ _ _ _ _ _ _ h _ (.refl _) 30 0 1 [ascii "http://a/"] [ascii "udp://b:1"] (ascii "http://a/") (ascii "udp://b:1") rfl rfl
      (by decide) (by simp) (by simp) ?_
    intro c tc hc hlt
    have : c = 0 := by omega
    subst this
    simp only [seedMeta, List.getElem?_cons_zero, Option.some.injEq] at hc
    subst hc; decide
  · exact C127_announce_violated _ _ _ _ _ _ _ h (by simp [seedMeta]) (by simp only [seedMeta]; decide)

end Gotit.Props
