import Verif.Spec.Below
import Verif.Props.Paths
/-
  C46 and C47: exactly which names keep a download inside its directory, and exactly which files of a torrent share a file on disk.
-/
namespace Gotit.Props
open Gotit Spec

theorem depth_some : ∀ (cs : List Bytes) (ns : List Bytes) (k : Nat), depthAfter ns.length cs = some k →
    ∃ ns', ns'.length = k ∧ ∀ abs (pl : Place), cs.foldl (enter abs) { pl with names := pl.names ++ ns } = { pl with names := pl.names ++ ns' } := by
  intro cs
  induction cs with
  | nil =>
    intro ns k h
    simp only [depthAfter, Option.some.injEq] at h
    exact ⟨ns, h, fun _ _ => rfl⟩
  | cons c cs ih =>
    intro ns k h
    simp only [depthAfter] at h
    by_cases h1 : c = [] ∨ c = ascii "."
    · rw [if_pos h1] at h
      obtain ⟨ns', g1, g2⟩ := ih ns k h
      refine ⟨ns', g1, fun abs pl => ?_⟩
      rw [List.foldl_cons, enter, if_pos h1]; exact g2 abs pl
    · rw [if_neg h1] at h
      by_cases h2 : c = ascii ".."
      · rw [if_pos h2] at h
        by_cases h3 : ns.length = 0
        · rw [if_pos h3] at h; cases h
        · rw [if_neg h3] at h
          obtain ⟨ns', g1, g2⟩ := ih ns.dropLast k (by rw [List.length_dropLast]; exact h)
          have hne : ns ≠ [] := fun e => h3 (by rw [e]; rfl)
          refine ⟨ns', g1, fun abs pl => ?_⟩
          rw [List.foldl_cons, enter, if_neg h1, if_pos h2, if_pos (by simp [hne])]
          rw [List.dropLast_append_of_ne_nil hne]
          exact g2 abs pl
      · rw [if_neg h2] at h
        obtain ⟨ns', g1, g2⟩ := ih (ns ++ [c]) k (by rw [List.length_append]; exact h)
        refine ⟨ns', g1, fun abs pl => ?_⟩
        rw [List.foldl_cons, enter, if_neg h1, if_neg h2]
        simp only [List.append_assoc]
        exact g2 abs pl

/-- Elements never entered do not appear. -/
theorem foldl_absent (abs : Bool) (x : Bytes) : ∀ (cs : List Bytes) (pl : Place), x ∉ cs → x ∉ pl.names → x ∉ (cs.foldl (enter abs) pl).names := by
  intro cs
  induction cs with
  | nil => intro pl _ h; exact h
  | cons c cs ih =>
    intro pl hc h
    simp only [List.mem_cons, not_or] at hc
    rw [List.foldl_cons]
    apply ih _ hc.2
    unfold enter
    split
    · exact h
    · split
      · split
        · exact fun hx => h (List.dropLast_subset _ hx)
        · split <;> exact h
      · simp only [List.mem_append, List.mem_singleton, not_or]; exact ⟨h, hc.1⟩

theorem depth_none (x : Bytes) : ∀ (cs : List Bytes) (ns : List Bytes), x ∉ cs → x ∉ ns → depthAfter ns.length cs = none →
    x ∉ (cs.foldl (enter true) ⟨0, x :: ns⟩).names := by
  intro cs
  induction cs with
  | nil => intro ns _ _ h; cases h
  | cons c cs ih =>
    intro ns hc hn h
    simp only [List.mem_cons, not_or] at hc
    simp only [depthAfter] at h
    rw [List.foldl_cons]
    by_cases h1 : c = [] ∨ c = ascii "."
    · rw [if_pos h1] at h
      rw [enter, if_pos h1]; exact ih ns hc.2 hn h
    · rw [if_neg h1] at h
      by_cases h2 : c = ascii ".."
      · rw [if_pos h2] at h
        rw [enter, if_neg h1, if_pos h2, if_pos (by simp)]
        by_cases h3 : ns.length = 0
        · have := List.length_eq_zero_iff.1 h3
          subst this
          exact foldl_absent true x cs _ hc.2 (by simp)
        · rw [if_neg h3] at h
          have hne : ns ≠ [] := fun e => h3 (by rw [e]; rfl)
          have := ih ns.dropLast hc.2 (fun hx => hn (List.dropLast_subset _ hx)) (by rw [List.length_dropLast]; exact h)
          simp only
          rwa [List.dropLast_cons_of_ne_nil hne]
      · rw [if_neg h2] at h
        rw [enter, if_neg h1, if_neg h2]
        exact ih (ns ++ [c]) hc.2 (by simp only [List.mem_append, List.mem_singleton, not_or]; exact ⟨hn, hc.1⟩) (by rw [List.length_append]; exact h)

/-- A plain name different from all given ones. -/
theorem fresh_name (cs : List Bytes) : ∃ x, PlainName x ∧ x ∉ cs := by
  refine ⟨List.replicate ((cs.map List.length).sum + 3) 97, ⟨?_, ?_, ?_, ?_⟩, ?_⟩
  · simp
  · intro e
    have := congrArg List.length e
    rw [List.length_replicate] at this
    simp [ascii] at this
  · intro e
    have := congrArg List.length e
    rw [List.length_replicate] at this
    simp [ascii] at this
  · simp
  · intro h
    have key : ∀ (cs : List Bytes) (c : Bytes), c ∈ cs → c.length ≤ (cs.map List.length).sum := by
      intro cs
      induction cs with
      | nil => intro c hc; cases hc
      | cons d cs ih =>
        intro c hc
        simp only [List.map_cons, List.sum_cons]
        rcases List.mem_cons.1 hc with rfl | hc
        · omega
        · have := ih c hc; omega
    have := key cs _ h
    rw [List.length_replicate] at this
    omega

/-- A path read below `root`. -/
theorem below_iff (p : Bytes) : (∀ root f, root ≠ [] → isAbs f = isAbs root →
      place f = (splitSlash p).foldl (enter (isAbs root)) (place root) → Inside root f) ↔ StaysBelow p := by
  constructor
  · intro h
    obtain ⟨x, hx, hxn⟩ := fresh_name (splitSlash p)
    have hroot : place (slash :: x) = ⟨0, [x]⟩ ∧ isAbs (slash :: x) = true := by
      have := place_textOf true ⟨0, [x]⟩ (by simpa using hx) (fun _ => rfl)
      simpa [textOf, joinSlash] using this
    have hpl := foldl_plain true (splitSlash p) ⟨0, [x]⟩ (splitSlash_noslash p) (by simpa using hx)
    have hups := foldl_abs (splitSlash p) ⟨0, [x]⟩
    have hf := place_textOf true ((splitSlash p).foldl (enter true) ⟨0, [x]⟩) hpl (fun _ => hups)
    obtain ⟨_, _, rest, h1, h2⟩ := h (slash :: x) (textOf true ((splitSlash p).foldl (enter true) ⟨0, [x]⟩)) (by simp)
      (by rw [hf.2, hroot.2]) (by rw [hf.1, hroot.1, hroot.2])
    rw [hf.1, hroot.1] at h2
    unfold StaysBelow
    rw [splitAt_slash]
    cases hd : depthAfter 0 (splitSlash p) with
    | none =>
      exfalso
      have := depth_none x (splitSlash p) [] hxn (by simp) hd
      rw [h2] at this
      simp at this
    | some k =>
      obtain ⟨ns', g1, g2⟩ := depth_some (splitSlash p) [] k hd
      have := g2 true ⟨0, [x]⟩
      simp only [List.append_nil] at this
      rw [this] at h2
      simp only [List.cons_append, List.nil_append, List.cons.injEq, true_and] at h2
      subst h2
      cases ns' with
      | nil => exact absurd rfl h1
      | cons a as => exact ⟨as.length, by rw [← g1]; rfl⟩
  · rintro ⟨d, hd⟩ root f hne ha hf
    rw [splitAt_slash] at hd
    obtain ⟨ns', g1, g2⟩ := depth_some (splitSlash p) [] _ hd
    have := g2 (isAbs root) (place root)
    simp only [List.append_nil] at this
    rw [this] at hf
    exact ⟨ha, by rw [hf], ns', (by intro e; rw [e] at g1; cases g1), by rw [hf]⟩

theorem join_ne_nil {root a : Bytes} (h : root ≠ []) : join root a ≠ [] := by
  unfold join
  rw [if_pos h]
  unfold clean
  split
  · split <;> simp [dot, ascii]
  · rename_i es hes
    split
    · simp
    · intro e
      have hp := place_clean (root ++ slash :: a)
      cases hc : cleanElems (root ++ slash :: a) with
      | nil => exact hes hc
      | cons c cs =>
        rw [hc] at e
        have hne : c ≠ [] := by
          have : c ∈ List.replicate (place (root ++ slash :: a)).ups dotdot ++ (place (root ++ slash :: a)).names := by
            rw [← cleanElems_eq, hc]; simp
          rcases List.mem_append.1 this with h | h
          · rw [List.mem_replicate] at h; rw [h.2]; decide
          · exact (place_plain _ _ h).1
        cases cs with
        | nil => exact hne e
        | cons d ds => simp [joinSlash] at e

/-- Where New stores things. -/
theorem osFiles_places {sha1 : Bytes → Bytes} {os : Os} {m : Metainfo} {root : Bytes} {disk disk' : Disk} {t : Torrent} (hr : root ≠ [])
    (h : newTorrent sha1 os m root disk = (.ok t, disk')) :
    t.osFiles.map place = (relativePaths m).map (fun p => (splitSlash p).foldl (enter (isAbs root)) (place root)) ∧
    ∀ q ∈ t.osFiles, isAbs q = isAbs root := by
  obtain ⟨_, hd, -⟩ := newTorrent_ok h
  obtain ⟨g1, g2, _⟩ := initDownloadDir_ok hd
  unfold relativePaths
  by_cases h0 : m.infoLength = 0
  · have := g1 (by simp [h0])
    rw [if_pos h0] at this
    obtain ⟨_, h4⟩ := filePaths_inv _ _ _ this
    rw [h4, if_pos h0, List.map_map, List.map_map]
    refine ⟨?_, ?_⟩
    · apply List.map_congr_left
      intro f _
      simp only [Function.comp]
      rw [(place_join _ _ (join_ne_nil hr)).1, (place_join _ _ hr).2, (place_join _ _ hr).1]
      rw [show m.name ++ 47 :: f.path.headD [] = m.name ++ slash :: f.path.headD [] from rfl, splitSlash_append, List.foldl_append]
    · intro q hq
      obtain ⟨f, _, rfl⟩ := List.mem_map.1 hq
      rw [(place_join _ _ (join_ne_nil hr)).2, (place_join _ _ hr).2]
  · rw [g2 (by simp [h0]), if_neg h0]
    refine ⟨?_, ?_⟩
    · simp only [List.map_cons, List.map_nil]
      rw [(place_join _ _ hr).1]
    · intro q hq
      rw [List.mem_singleton] at hq
      rw [hq, (place_join _ _ hr).2]

/-- C46, exact: the files New opens lie inside the download directory, whatever that is, exactly if no path of the torrent leads, at
any point, above the directory, and none ends in it. Missing: New opens the other files, too. -/
theorem C46_iff_partial (m : Metainfo) (hp : m.pieces.length % 20 = 0) (hf : m.infoLength = 0 → ∀ f ∈ m.files, f.path ≠ []) :
    (∀ sha1 os root disk t disk', root ≠ [] → newTorrent sha1 os m root disk = (.ok t, disk') → ∀ q ∈ t.osFiles, Inside root q) ↔
    ∀ p ∈ relativePaths m, StaysBelow p := by
  constructor
  · intro h p hpm
    rw [← below_iff]
    intro root f hr ha hpl
    obtain ⟨t, d', ht⟩ := newTorrent_succeeds (fun x => x) goodOs m root (fun _ => []) hp hf (by simp [goodOs]) (by simp [goodOs])
    obtain ⟨e1, e2⟩ := osFiles_places hr ht
    have : place f ∈ t.osFiles.map place := by rw [e1, hpl]; exact List.mem_map.2 ⟨p, hpm, rfl⟩
    obtain ⟨q, hq, hqe⟩ := List.mem_map.1 this
    obtain ⟨i1, i2, rest, i3, i4⟩ := h _ _ root _ t d' hr ht q hq
    exact ⟨ha, by rw [← hqe]; exact i2, rest, i3, by rw [← hqe]; exact i4⟩
  · intro h sha1 os root disk t disk' hr ht q hq
    obtain ⟨e1, e2⟩ := osFiles_places hr ht
    have : place q ∈ t.osFiles.map place := List.mem_map.2 ⟨q, hq, rfl⟩
    rw [e1] at this
    obtain ⟨p, hpm, hpe⟩ := List.mem_map.1 this
    exact (below_iff p).2 (h p hpm) root q hr (e2 q hq) hpe.symm

/-- C47, exact: two files of a torrent share a file on disk exactly if the first elements of their paths lead to the same place.
Missing: the other elements are not looked at. -/
theorem C47_iff_partial (sha1 : Bytes → Bytes) (os : Os) (m : Metainfo) (root : Bytes) (disk disk' : Disk) (t : Torrent) (hr : root ≠ [])
    (h : newTorrent sha1 os m root disk = (.ok t, disk')) (h0 : m.infoLength = 0) (i j : Nat) (f g : TorrentFile)
    (hi : m.files[i]? = some f) (hj : m.files[j]? = some g) :
    t.osFiles[i]? = t.osFiles[j]? ↔
    place (root ++ 47 :: (m.name ++ 47 :: f.path.headD [])) = place (root ++ 47 :: (m.name ++ 47 :: g.path.headD [])) := by
  obtain ⟨_, hd, -⟩ := newTorrent_ok h
  obtain ⟨g1, _, _⟩ := initDownloadDir_ok hd
  have := g1 (by simp [h0])
  rw [if_pos h0] at this
  rw [(filePaths_inv _ _ _ this).2, List.getElem?_map, List.getElem?_map, hi, hj]
  simp only [Option.map_some, Option.some.injEq]
  have hpl : ∀ c, place (root ++ 47 :: (m.name ++ 47 :: c)) = place (join (join root m.name) c) := by
    intro c
    rw [(place_join _ _ (join_ne_nil hr)).1, (place_join _ _ hr).2, (place_join _ _ hr).1]
    rw [show root ++ 47 :: (m.name ++ 47 :: c) = root ++ slash :: (m.name ++ slash :: c) from rfl]
    simp only [place_def]
    rw [isAbs_append _ _ hr, splitSlash_append, splitSlash_append, List.foldl_append, List.foldl_append]
  rw [hpl, hpl]
  constructor
  · exact fun e => by rw [e]
  · intro e
    have hj : ∀ c, join (join root m.name) c = textOf (isAbs root) (place (join (join root m.name) c)) := by
      intro c
      have h1 : join (join root m.name) c = clean (join root m.name ++ slash :: c) := by unfold join; rw [if_pos]; exact join_ne_nil hr
      have ha : isAbs (join root m.name ++ slash :: c) = isAbs root := by
        rw [isAbs_append _ _ (join_ne_nil hr), (place_join _ _ hr).2]
      rw [h1, (place_clean _).1, clean_eq, ha]
    exact (hj _).trans ((congrArg (textOf (isAbs root)) e).trans (hj _).symm)

example : StaysBelow (ascii "a/../b/./c") := ⟨1, by decide⟩
example : ¬ StaysBelow (ascii "a/../../dl/b") := by
  rintro ⟨d, h⟩
  have : depthAfter 0 (splitAt 47 (ascii "a/../../dl/b")) = none := by decide
  rw [this] at h; cases h

end Gotit.Props
