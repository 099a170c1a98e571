import Verif.Spec.TrackerNew
/-
  C88: which URLs become trackers.
-/
namespace Gotit.Props
open Gotit Spec

theorem isLetter_iff (b : UInt8) : isLetter b = true ↔ (97 ≤ b.toNat ∧ b.toNat ≤ 122 ∨ 65 ≤ b.toNat ∧ b.toNat ≤ 90) := by
  simp [isLetter, UInt8.le_iff_toNat_le]

theorem isSchemeRest_iff (b : UInt8) : isSchemeRest b = true ↔
    (48 ≤ b.toNat ∧ b.toNat ≤ 57 ∨ b.toNat = 43 ∨ b.toNat = 45 ∨ b.toNat = 46) := by
  simp [isSchemeRest, UInt8.le_iff_toNat_le, ← UInt8.toNat_inj, or_assoc]

theorem isCtl_iff (b : UInt8) : isCtl b = true ↔ (b.toNat < 32 ∨ b.toNat = 127) := by
  simp [isCtl, UInt8.lt_iff_toNat_lt, ← UInt8.toNat_inj]

/-- The scheme found by `getScheme`, when there is one. -/
theorem getScheme_some (whole : Bytes) : ∀ (s seen sc r : Bytes), sc ≠ [] → getScheme whole seen s = some (sc, r) →
    ∃ t, sc = seen ++ t ∧ s = t ++ 58 :: r ∧ (∀ b ∈ t, isLetter b = true ∨ isSchemeRest b = true) ∧
      (seen = [] → ∃ a t', t = a :: t' ∧ isLetter a = true) := by
  intro s
  induction s with
  | nil => intro seen sc r hne h; simp [getScheme] at h; exact absurd h.1.symm (by simpa using hne)
  | cons c s ih =>
    intro seen sc r hne h
    simp only [getScheme] at h
    by_cases hl : isLetter c = true
    · rw [if_pos hl] at h
      obtain ⟨t, h1, h2, h3, _⟩ := ih _ _ _ hne h
      exact ⟨c :: t, by simp [h1], by simp [h2], by simpa [hl] using h3, fun _ => ⟨c, t, rfl, hl⟩⟩
    · rw [if_neg hl] at h
      by_cases hr : isSchemeRest c = true
      · rw [if_pos hr] at h
        by_cases he : seen.isEmpty = true
        · rw [if_pos he] at h; simp at h; exact absurd h.1.symm (by simpa using hne)
        · rw [if_neg he] at h
          obtain ⟨t, h1, h2, h3, _⟩ := ih _ _ _ hne h
          exact ⟨c :: t, by simp [h1], by simp [h2], by simpa [hr] using h3, fun hs => absurd (by simp [hs]) he⟩
      · rw [if_neg hr] at h
        by_cases hc : (c == 58) = true
        · rw [if_pos hc] at h
          by_cases he : seen.isEmpty = true
          · rw [if_pos he] at h; cases h
          · rw [if_neg he] at h
            simp only [Option.some.injEq, Prod.mk.injEq] at h
            have : c = 58 := by simpa using hc
            exact ⟨[], by simp [h.1], by simp [this, h.2], by simp, fun hs => absurd (by simp [hs]) he⟩
        · rw [if_neg hc] at h; simp at h; exact absurd h.1.symm (by simpa using hne)

theorem getScheme_of (whole : Bytes) (r : Bytes) : ∀ (t seen : Bytes), (∀ b ∈ t, isLetter b = true ∨ isSchemeRest b = true) →
    (seen = [] → ∃ a t', t = a :: t' ∧ isLetter a = true) → getScheme whole seen (t ++ 58 :: r) = some (seen ++ t, r) := by
  intro t
  induction t with
  | nil =>
    intro seen _ h2
    have hne : seen.isEmpty = false := by
      cases seen with
      | nil => obtain ⟨a, t', h, _⟩ := h2 rfl; cases h
      | cons => rfl
    have e1 : isLetter 58 = false := by decide
    have e2 : isSchemeRest 58 = false := by decide
    simp [getScheme, e1, e2, hne]
  | cons c t ih =>
    intro seen h1 h2
    have hrest : getScheme whole (seen ++ [c]) (t ++ 58 :: r) = some (seen ++ c :: t, r) := by
      rw [ih (seen ++ [c]) (fun b hb => h1 b (by simp [hb])) (fun h => by simp at h)]
      simp
    simp only [List.cons_append, getScheme]
    by_cases hl : isLetter c = true
    · rw [if_pos hl, hrest]
    · rw [if_neg hl]
      have hr : isSchemeRest c = true := by
        rcases h1 c (by simp) with h | h
        · exact absurd h hl
        · exact h
      rw [if_pos hr]
      have hne : seen.isEmpty = false := by
        cases seen with
        | nil =>
          obtain ⟨a, t', h, ha⟩ := h2 rfl
          simp only [List.cons.injEq] at h
          exact absurd (h.1 ▸ ha) hl
        | cons => rfl
      rw [hne]
      exact hrest

theorem isScheme_iff (s : Bytes) : IsScheme s ↔ ((∀ b ∈ s, isLetter b = true ∨ isSchemeRest b = true) ∧ ∃ a t, s = a :: t ∧ isLetter a = true) := by
  constructor
  · rintro ⟨a, t, rfl, ha, ht⟩
    refine ⟨?_, a, t, rfl, (isLetter_iff a).2 ha⟩
    intro b hb
    rcases List.mem_cons.1 hb with rfl | hb
    · exact .inl ((isLetter_iff _).2 ha)
    · have := ht b hb
      rw [isLetter_iff, isSchemeRest_iff]; omega
  · rintro ⟨h1, a, t, rfl, ha⟩
    refine ⟨a, t, rfl, (isLetter_iff a).1 ha, fun b hb => ?_⟩
    have := h1 b (by simp [hb])
    rw [isLetter_iff, isSchemeRest_iff] at this; omega

theorem lower_toNat (a : UInt8) : (schemeLower a).toNat = if 65 ≤ a.toNat ∧ a.toNat ≤ 90 then a.toNat + 32 else a.toNat := by
  unfold schemeLower
  by_cases h : 65 ≤ a.toNat ∧ a.toNat ≤ 90
  · rw [if_pos h, if_pos (by simpa [UInt8.le_iff_toNat_le] using h), UInt8.toNat_add]
    have : (32 : UInt8).toNat = 32 := rfl
    omega
  · rw [if_neg h, if_neg (by simpa [UInt8.le_iff_toNat_le] using h)]

/-- A name without upper-case letters. -/
def lowerName (name : Bytes) : Prop := ∀ b ∈ name, ¬ (65 ≤ b.toNat ∧ b.toNat ≤ 90)

theorem sameLetters_iff : ∀ (s name : Bytes), lowerName name → (SameLetters s name ↔ s.map schemeLower = name) := by
  intro s
  induction s with
  | nil => intro name _; cases name <;> simp [SameLetters]
  | cons a s ih =>
    intro name hn
    cases name with
    | nil => simp [SameLetters]
    | cons b t =>
      have hb := hn b (by simp)
      simp only [SameLetters, List.map_cons, List.cons.injEq, ih t (fun x hx => hn x (by simp [hx]))]
      have : (a = b ∨ 65 ≤ a.toNat ∧ a.toNat ≤ 90 ∧ b.toNat = a.toNat + 32 ∨ 65 ≤ b.toNat ∧ b.toNat ≤ 90 ∧ a.toNat = b.toNat + 32) ↔
          schemeLower a = b := by
        rw [← UInt8.toNat_inj, ← UInt8.toNat_inj, lower_toNat]
        by_cases h : 65 ≤ a.toNat ∧ a.toNat ≤ 90
        · rw [if_pos h]; omega
        · rw [if_neg h]; omega
      rw [this]

theorem takeWhile_none {s : Bytes} (h : ∀ b ∈ s, b ≠ 35) : s.takeWhile (· != 35) = s ∧ s.dropWhile (· != 35) = [] := by
  induction s with
  | nil => simp
  | cons a s ih =>
    have ha := h a (by simp)
    have := ih (fun b hb => h b (by simp [hb]))
    simp [ha, this]

theorem takeWhile_hash {s frag : Bytes} (h : ∀ b ∈ s, b ≠ 35) :
    (s ++ 35 :: frag).takeWhile (· != 35) = s ∧ (s ++ 35 :: frag).dropWhile (· != 35) = 35 :: frag := by
  induction s with
  | nil => simp
  | cons a s ih =>
    have ha := h a (by simp)
    have := ih (fun b hb => h b (by simp [hb]))
    simp [ha, this]

theorem mem_takeWhile_ne {s : Bytes} {b : UInt8} (h : b ∈ s.takeWhile (· != 35)) : b ≠ 35 := by
  induction s with
  | nil => simp at h
  | cons a s ih =>
    rw [List.takeWhile_cons] at h
    split at h
    · rename_i ha
      rcases List.mem_cons.1 h with rfl | h
      · simpa using ha
      · exact ih h
    · simp at h

theorem dropWhile_shape (s : Bytes) : s.dropWhile (· != 35) = [] ∨ ∃ f, s.dropWhile (· != 35) = 35 :: f := by
  induction s with
  | nil => exact .inl rfl
  | cons a s ih =>
    rw [List.dropWhile_cons]
    by_cases ha : a = 35
    · subst ha; exact .inr ⟨s, by simp⟩
    · have : (a != 35) = true := by simpa using ha
      rw [if_pos this]; exact ih

/-- `url.Parse` finds the scheme `name` (not empty, lower case) exactly in URLs of that scheme whose rest is fine. -/
theorem urlParse_iff (rest : Bytes → Bytes → Bytes → Option Bytes) (addr name host : Bytes) (hne : name ≠ []) (hlow : lowerName name) :
    urlParse rest addr = some { scheme := name, host := host } ↔ ∃ r frag, UrlOf addr name r frag ∧ rest name r frag = some host := by
  constructor
  · intro h
    unfold urlParse at h
    simp only at h
    split at h
    · cases h
    · rename_i hctl
      split at h
      · cases h
      · rename_i s r hs
        rw [Option.map_eq_some_iff] at h
        obtain ⟨hh, h1, h2⟩ := h
        simp only [ParsedUrl.mk.injEq] at h2
        obtain ⟨h2, h3⟩ := h2
        rw [h2, h3] at h1
        have hsne : s ≠ [] := by
          intro e; rw [e] at h2; exact hne h2.symm
        obtain ⟨t, e1, e2, e3, e4⟩ := getScheme_some _ _ _ _ _ hsne hs
        simp only [List.nil_append] at e1
        subst e1
        refine ⟨r, _, ⟨s, (isScheme_iff s).2 ⟨e3, e4 rfl⟩, (sameLetters_iff s name hlow).2 h2, ?_, ?_⟩, h1⟩
        · intro b hb
          rw [← e2] at hb
          have hc : isCtl b ≠ true := fun hx => hctl (List.any_eq_true.2 ⟨b, hb, hx⟩)
          rw [Ne, isCtl_iff] at hc
          exact ⟨mem_takeWhile_ne hb, by omega, by omega⟩
        · have hcat := List.takeWhile_append_dropWhile (p := (· != 35)) (l := addr)
          rcases dropWhile_shape addr with hd | ⟨f, hd⟩
          · rw [hd] at hcat ⊢
            left
            exact ⟨by rw [← hcat, e2]; simp, rfl⟩
          · rw [hd] at hcat ⊢
            right
            rw [← hcat, e2]; simp
  · rintro ⟨r, frag, ⟨s, h1, h2, h3, h4⟩, h5⟩
    obtain ⟨g1, g2⟩ := (isScheme_iff s).1 h1
    have hn : ∀ b ∈ s ++ 58 :: r, b ≠ 35 := fun b hb => (h3 b hb).1
    have hu : addr.takeWhile (· != 35) = s ++ 58 :: r ∧ (addr.dropWhile (· != 35)).drop 1 = frag := by
      rcases h4 with ⟨rfl, rfl⟩ | rfl
      · obtain ⟨a, b⟩ := takeWhile_none hn; rw [b]; exact ⟨a, rfl⟩
      · obtain ⟨a, b⟩ := takeWhile_hash (frag := frag) hn; rw [b]; exact ⟨a, rfl⟩
    unfold urlParse
    simp only
    rw [hu.1, hu.2, if_neg]
    · rw [getScheme_of _ r s [] g1 (fun _ => g2)]
      simp only [List.nil_append]
      rw [(sameLetters_iff s name hlow).1 h2, h5]
      rfl
    · intro hx
      obtain ⟨b, hb, hc⟩ := List.any_eq_true.1 hx
      have := h3 b hb
      rw [isCtl_iff] at hc
      omega

/-- C88: a URL becomes an HTTP tracker exactly if its scheme is http or https, in any letter case, and the rest of it can be parsed;
the tracker then has exactly the address as given. -/
theorem C88_http (rest : Bytes → Bytes → Bytes → Option Bytes) (dial : Bytes → Bool) (addr a : Bytes) :
    trackerNew rest dial addr = .http a ↔
      a = addr ∧ ∃ name r frag, (name = ascii "http" ∨ name = ascii "https") ∧ UrlOf addr name r frag ∧ rest name r frag ≠ none := by
  have l1 : lowerName (ascii "http") := by unfold lowerName; decide
  have l2 : lowerName (ascii "https") := by unfold lowerName; decide
  constructor
  · intro h
    unfold trackerNew at h
    split at h
    · cases h
    · rename_i p hp
      split at h
      · split at h <;> cases h
      · split at h
        · rename_i hx
          simp only [NewTracker.http.injEq] at h
          refine ⟨h.symm, p.scheme, ?_⟩
          have : ∃ r frag, UrlOf addr p.scheme r frag ∧ rest p.scheme r frag = some p.host := by
            rcases hx with hx | hx
            · rw [hx]; exact (urlParse_iff rest addr _ p.host (by decide) l1).1 (by rw [hp, ← hx])
            · rw [hx]; exact (urlParse_iff rest addr _ p.host (by decide) l2).1 (by rw [hp, ← hx])
          obtain ⟨r, frag, h1, h2⟩ := this
          exact ⟨r, frag, hx, h1, by rw [h2]; simp⟩
        · cases h
  · rintro ⟨rfl, name, r, frag, hn, hu, hr⟩
    obtain ⟨host, hr⟩ := Option.ne_none_iff_exists'.1 hr
    have hp : urlParse rest a = some { scheme := name, host := host } := by
      rcases hn with rfl | rfl
      · exact (urlParse_iff rest a _ host (by decide) l1).2 ⟨r, frag, hu, hr⟩
      · exact (urlParse_iff rest a _ host (by decide) l2).2 ⟨r, frag, hu, hr⟩
    unfold trackerNew
    rw [hp]
    simp only
    rw [if_neg (by rcases hn with rfl | rfl <;> decide), if_pos hn]

/-- C88: a URL becomes a UDP tracker exactly if its scheme is udp, the rest can be parsed and a socket to its host can be had; the
socket is to that host. -/
theorem C88_udp (rest : Bytes → Bytes → Bytes → Option Bytes) (dial : Bytes → Bool) (addr host : Bytes) :
    trackerNew rest dial addr = .udp host ↔
      ∃ r frag, UrlOf addr (ascii "udp") r frag ∧ rest (ascii "udp") r frag = some host ∧ dial host = true := by
  have l1 : lowerName (ascii "udp") := by unfold lowerName; decide
  constructor
  · intro h
    unfold trackerNew at h
    split at h
    · cases h
    · rename_i p hp
      split at h
      · rename_i hx
        split at h
        · rename_i hd
          simp only [NewTracker.udp.injEq] at h
          subst h
          obtain ⟨r, frag, h1, h2⟩ := (urlParse_iff rest addr _ p.host (by decide) l1).1 (by rw [hp, ← hx])
          exact ⟨r, frag, h1, h2, hd⟩
        · cases h
      · split at h <;> cases h
  · rintro ⟨r, frag, hu, hr, hd⟩
    unfold trackerNew
    rw [(urlParse_iff rest addr _ host (by decide) l1).2 ⟨r, frag, hu, hr⟩]
    simp [hd]

/-- A URL has at most one scheme. -/
theorem url_scheme_unique {addr n n' r r' f f' : Bytes} (hn : n ≠ []) (hn' : n' ≠ []) (hl : lowerName n) (hl' : lowerName n')
    (h : UrlOf addr n r f) (h' : UrlOf addr n' r' f') : n = n' ∧ r = r' ∧ f = f' := by
  have a := (urlParse_iff (fun n r f => some (n.length :: r.length :: f.length :: []|>.map UInt8.ofNat)) addr n _ hn hl).2 ⟨r, f, h, rfl⟩
  have b := (urlParse_iff (fun n r f => some (n.length :: r.length :: f.length :: []|>.map UInt8.ofNat)) addr n' _ hn' hl').2 ⟨r', f', h', rfl⟩
  rw [a] at b
  simp only [Option.some.injEq, ParsedUrl.mk.injEq] at b
  refine ⟨b.1, ?_⟩
  have a2 := (urlParse_iff (fun _ r _ => some r) addr n r hn hl).2 ⟨r, f, h, rfl⟩
  have b2 := (urlParse_iff (fun _ r _ => some r) addr n' r' hn' hl').2 ⟨r', f', h', rfl⟩
  rw [a2] at b2
  have a3 := (urlParse_iff (fun _ _ f => some f) addr n f hn hl).2 ⟨r, f, h, rfl⟩
  have b3 := (urlParse_iff (fun _ _ f => some f) addr n' f' hn' hl').2 ⟨r', f', h', rfl⟩
  rw [a3] at b3
  simp only [Option.some.injEq, ParsedUrl.mk.injEq] at b2 b3
  exact ⟨b2.2, b3.2⟩

/-- An upper-case scheme, with a fragment. -/
example : UrlOf (ascii "HTTP://t.example/a#x") (ascii "http") (ascii "//t.example/a") (ascii "x") :=
  ⟨ascii "HTTP", (isScheme_iff _).2 ⟨by decide, 72, ascii "TTP", by decide, by decide⟩, by
    rw [sameLetters_iff _ _ (by unfold lowerName; decide)]; decide, by decide, .inr (by decide)⟩

example : trackerNew (fun _ _ _ => some (ascii "t.example:80")) (fun _ => true) (ascii "udp://t.example:80") = .udp (ascii "t.example:80") ∧
    trackerNew (fun _ _ _ => some []) (fun _ => true) (ascii "wss://t.example") = .err ∧
    trackerNew (fun _ _ _ => some []) (fun _ => true) (ascii "1http://t") = .err ∧
    trackerNew (fun _ _ _ => some []) (fun _ => true) (ascii "hTTps://t") = .http (ascii "hTTps://t") := by decide

end Gotit.Props
