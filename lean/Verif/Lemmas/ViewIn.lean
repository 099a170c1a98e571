import Verif.Lemmas.View
import Verif.Lemmas.ParseTop
/-
  All windows of a parsed value lie in the part of the buffer that was consumed, and the window of a container is the
  whole of it.
-/
namespace Gotit
open Spec Scanner

mutual
/-- Every window of the value ends at or before `hi`. -/
def View.In (hi : Nat) : View → Prop
  | .int _ => True
  | .str o l => o + l ≤ hi
  | .list vs o l => o + l ≤ hi ∧ inList hi vs
  | .dict kvs o l => o + l ≤ hi ∧ inEntries hi kvs
def inList (hi : Nat) : List View → Prop
  | [] => True
  | v :: vs => v.In hi ∧ inList hi vs
def inEntries (hi : Nat) : List ((Nat × Nat) × View) → Prop
  | [] => True
  | ((o, l), v) :: kvs => o + l ≤ hi ∧ v.In hi ∧ inEntries hi kvs
end

theorem window_take (b : Bytes) {o l hi : Nat} (h : o + l ≤ hi) : window (b.take hi) o l = window b o l := by
  simp only [window, List.drop_take, List.take_take]
  rw [Nat.min_eq_left (by omega)]

mutual
theorem resolve_take (b : Bytes) (hi : Nat) : ∀ v : View, v.In hi → v.resolve (b.take hi) = v.resolve b
  | .int _, _ => rfl
  | .str o l, h => by simp only [View.resolve, window_take b h]
  | .list vs o l, h => by simp only [View.resolve, window_take b h.1, resolveList_take b hi vs h.2]
  | .dict vs o l, h => by simp only [View.resolve, window_take b h.1, resolveEntries_take b hi vs h.2]
theorem resolveList_take (b : Bytes) (hi : Nat) :
    ∀ vs : List View, inList hi vs → resolveList (b.take hi) vs = resolveList b vs
  | [], _ => rfl
  | v :: vs, h => by simp only [resolveList, resolve_take b hi v h.1, resolveList_take b hi vs h.2]
theorem resolveEntries_take (b : Bytes) (hi : Nat) :
    ∀ vs : List ((Nat × Nat) × View), inEntries hi vs → resolveEntries (b.take hi) vs = resolveEntries b vs
  | [], _ => rfl
  | ((o, l), v) :: vs, h => by
    simp only [resolveEntries, window_take b h.1, resolve_take b hi v h.2.1, resolveEntries_take b hi vs h.2.2]
end

mutual
theorem View.In.mono {hi hi' : Nat} (hh : hi ≤ hi') : ∀ v : View, v.In hi → v.In hi'
  | .int _, _ => trivial
  | .str o l, h => by simp only [View.In] at *; omega
  | .list vs o l, h => ⟨by have := h.1; omega, inList.mono hh vs h.2⟩
  | .dict vs o l, h => ⟨by have := h.1; omega, inEntries.mono hh vs h.2⟩
theorem inList.mono {hi hi' : Nat} (hh : hi ≤ hi') : ∀ vs : List View, inList hi vs → inList hi' vs
  | [], _ => trivial
  | v :: vs, h => ⟨View.In.mono hh v h.1, inList.mono hh vs h.2⟩
theorem inEntries.mono {hi hi' : Nat} (hh : hi ≤ hi') :
    ∀ vs : List ((Nat × Nat) × View), inEntries hi vs → inEntries hi' vs
  | [], _ => trivial
  | ((o, l), v) :: vs, h => ⟨by have := h.1; omega, View.In.mono hh v h.2.1, inEntries.mono hh vs h.2.2⟩
end

theorem inEntries_upsertV {buf : Bytes} {hi : Nat} {k : Nat × Nat} {v : View} (hk : k.1 + k.2 ≤ hi) (hv : v.In hi) :
    ∀ {m : List ((Nat × Nat) × View)}, inEntries hi m → inEntries hi (upsertV buf k v m)
  | [], _ => ⟨hk, hv, trivial⟩
  | ((o, l), v') :: m, h => by
    simp only [upsertV]
    split
    · exact ⟨hk, hv, h.2.2⟩
    · exact ⟨h.1, h.2.1, inEntries_upsertV hk hv h.2.2⟩

theorem numberLoop_mono (s : Scanner) (n : Int) : s.current ≤ (numberLoop s n).2.current := by
  fun_induction numberLoop s n with
  | case1 s n _ _ _ _ ih => exact Nat.le_trans (by simp [advance]) ih
  | case2 => exact Nat.le_refl _

theorem number_mono (s : Scanner) : s.current ≤ s.number.2.current := by
  simp only [number, position]; exact numberLoop_mono s 0

theorem number_start (s : Scanner) : s.number.2.start = s.number.2.current := by
  simp only [number, position]

theorem matchByte_true {s : Scanner} {r : UInt8} (h : (s.matchByte r).1 = true) :
    (s.matchByte r).2.start = s.current + 1 ∧ (s.matchByte r).2.current = s.current + 1 := by
  unfold matchByte at *; split at h <;> simp_all [advance, position]

theorem readStringV_in {s s' : Scanner} {w : Nat × Nat} (h : s.readStringV = .ok (w, s')) :
    w.1 + w.2 = s'.current ∧ s.current ≤ s'.current ∧ s'.start = s'.current := by
  simp only [readStringV] at h
  split at h
  · cases h
  · next hm =>
    have hm : (s.number.2.matchByte 58).1 = true := by simpa using hm
    have h1 := matchByte_true hm
    have h2 := number_mono s
    split at h
    · cases h
    · split at h
      · cases h
      · next hc =>
        simp only [PRes.ok.injEq, Prod.mk.injEq, position] at h
        obtain ⟨rfl, rfl⟩ := h
        refine ⟨?_, ?_, rfl⟩ <;> simp only <;> omega

theorem readIntV_in {s s' : Scanner} {v : View} (h : s.readIntV = .ok (v, s')) :
    (∃ n, v = .int n) ∧ s.current ≤ s'.current ∧ s'.start = s'.current := by
  simp only [readIntV] at h
  split at h
  · cases h
  · next hm =>
    have hm : (s.advance.position.number.2.matchByte 101).1 = true := by simpa using hm
    have h1 := matchByte_true hm
    have h2 := number_mono s.advance.position
    simp only [PRes.ok.injEq, Prod.mk.injEq] at h
    obtain ⟨rfl, rfl⟩ := h
    refine ⟨⟨_, rfl⟩, ?_, by omega⟩
    simp only [advance, position] at *
    omega

/-- What the window of the value itself is, given where the element began and where it ended. -/
def View.Whole (from_ to_ : Nat) : View → Prop
  | .int _ => True
  | .str o l => o + l = to_
  | .list _ o l => o = from_ ∧ o + l = to_
  | .dict _ o l => o = from_ ∧ o + l = to_

theorem view_in : ∀ f : Nat,
    (∀ s s' v, s.start ≤ s.current → nextV f s = .ok (v, s') →
      v.In s'.current ∧ v.Whole s.start s'.current ∧ s.current ≤ s'.current ∧ s'.start = s'.current) ∧
    (∀ s s' v, s.start ≤ s.current → readListV f s = .ok (v, s') →
      v.In s'.current ∧ v.Whole s.start s'.current ∧ s.current ≤ s'.current ∧ s'.start = s'.current) ∧
    (∀ s s' vs, listLoopV f s = .ok (vs, s') →
      inList s'.current vs ∧ s.current ≤ s'.current) ∧
    (∀ s s' v, s.start ≤ s.current → readDictV f s = .ok (v, s') →
      v.In s'.current ∧ v.Whole s.start s'.current ∧ s.current ≤ s'.current ∧ s'.start = s'.current) ∧
    (∀ m s s' vs, inEntries s.current m → dictLoopV f m s = .ok (vs, s') →
      inEntries s'.current vs ∧ s.current ≤ s'.current) := by
  intro f
  induction f with
  | zero =>
    refine ⟨?_, ?_, ?_, ?_, ?_⟩ <;> intros <;> rename_i h <;> first | (rw [nextV] at h; cases h) | (rw [readListV] at h; cases h) | (rw [listLoopV] at h; cases h) | (rw [readDictV] at h; cases h) | (rw [dictLoopV] at h; cases h)
  | succ f ih =>
    obtain ⟨ihN, ihL, ihS, ihD, ihE⟩ := ih
    refine ⟨?_, ?_, ?_, ?_, ?_⟩
    · intro s s' v hs h
      rw [nextV] at h
      split at h
      · exact ihL _ _ _ hs h
      · split at h
        · exact ihD _ _ _ hs h
        · split at h
          · obtain ⟨⟨n, rfl⟩, h1, h2⟩ := readIntV_in h
            exact ⟨trivial, trivial, h1, h2⟩
          · obtain ⟨⟨w, s1⟩, h1, h2⟩ := PRes.bind_ok h
            simp only [PRes.ok.injEq, Prod.mk.injEq] at h2
            obtain ⟨rfl, rfl⟩ := h2
            have := readStringV_in h1
            exact ⟨by simp only [View.In]; omega, by simp only [View.Whole]; omega, this.2⟩
    · intro s s' v hs h
      rw [readListV] at h
      obtain ⟨⟨vs, s1⟩, h1, h2⟩ := PRes.bind_ok h
      have hl := ihS _ _ _ h1
      simp only at h2
      split at h2
      · cases h2
      · next hm =>
        have hm : (s1.matchByte 101).1 = true := by simpa using hm
        have h3 := matchByte_true hm
        simp only [PRes.ok.injEq, Prod.mk.injEq] at h2
        obtain ⟨rfl, rfl⟩ := h2
        have hc : s.current + 1 ≤ s1.current := hl.2
        refine ⟨⟨by omega, inList.mono (by omega) _ hl.1⟩, ⟨rfl, by omega⟩, by omega, by omega⟩
    · intro s s' vs h
      rw [listLoopV] at h
      split at h
      · obtain ⟨⟨v, s1⟩, h1, h2⟩ := PRes.bind_ok h
        obtain ⟨⟨vs', s2⟩, h3, h4⟩ := PRes.bind_ok h2
        simp only [PRes.ok.injEq, Prod.mk.injEq] at h4
        obtain ⟨rfl, rfl⟩ := h4
        have hn := ihN _ _ _ (by simp [position]) h1
        have hl := ihS _ _ _ h3
        have hc : s.current ≤ s1.current := hn.2.2.1
        exact ⟨⟨View.In.mono hl.2 _ hn.1, hl.1⟩, by have := hl.2; omega⟩
      · simp only [PRes.ok.injEq, Prod.mk.injEq] at h
        obtain ⟨rfl, rfl⟩ := h
        exact ⟨trivial, Nat.le_refl _⟩
    · intro s s' v hs h
      rw [readDictV] at h
      obtain ⟨⟨vs, s1⟩, h1, h2⟩ := PRes.bind_ok h
      have hl := ihE _ _ _ _ (by trivial) h1
      simp only at h2
      split at h2
      · cases h2
      · next hm =>
        have hm : (s1.matchByte 101).1 = true := by simpa using hm
        have h3 := matchByte_true hm
        simp only [PRes.ok.injEq, Prod.mk.injEq] at h2
        obtain ⟨rfl, rfl⟩ := h2
        have hc : s.current + 1 ≤ s1.current := hl.2
        refine ⟨⟨by omega, inEntries.mono (by omega) _ hl.1⟩, ⟨rfl, by omega⟩, by omega, by omega⟩
    · intro m s s' vs hm h
      rw [dictLoopV] at h
      split at h
      · obtain ⟨⟨k, s1⟩, h1, h2⟩ := PRes.bind_ok h
        obtain ⟨⟨v, s2⟩, h3, h4⟩ := PRes.bind_ok h2
        have hk := readStringV_in h1
        have hn := ihN _ _ _ (by omega) h3
        have hm2 : inEntries s2.current (upsertV s2.bencode k v m) :=
          inEntries_upsertV (by omega) hn.1 (inEntries.mono (by omega) _ hm)
        have hl := ihE _ _ _ _ hm2 h4
        exact ⟨hl.1, by have := hl.2; omega⟩
      · simp only [PRes.ok.injEq, Prod.mk.injEq] at h
        obtain ⟨rfl, rfl⟩ := h
        exact ⟨hm, Nat.le_refl _⟩

/-- The windows of a parsed value, relative to the text it was parsed from. -/
theorem parseView_in {data : Bytes} {v : View} (h : parseView data = .ok v) :
    ∃ b r, data = b ++ r ∧ Denotes b (v.resolve data) ∧ v.In b.length ∧ v.Whole 0 b.length := by
  simp only [parseView] at h
  split at h
  · cases h
  · next hf =>
    obtain ⟨⟨v', s'⟩, h1, h2⟩ := PRes.bind_ok h
    simp only [PRes.ok.injEq] at h2
    subst h2
    have hc := (view_corr data (parseFuel data)).1 (Scanner.new data) rfl
    rw [h1] at hc
    have hi := (view_in (parseFuel data)).1 _ _ _ (by simp [Scanner.new]) h1
    match hp : Scanner.next (parseFuel data) (Scanner.new data) with
    | .ok (x, s2) =>
      rw [hp] at hc
      obtain ⟨rfl, rfl, _⟩ := hc
      have hw : parseWith (parseFuel data) data = .ok (v'.resolve data, s') := by
        simp only [parseWith]; rw [if_neg hf, hp]
      obtain ⟨b, r, hb, hd, hs⟩ := parseWith_ok hw
      rw [hs] at hi
      exact ⟨b, r, hb, hd, hi.1, by simpa [Scanner.new] using hi.2.1⟩
    | .err _ => rw [hp] at hc; exact hc.elim
    | .panic _ => rw [hp] at hc; exact hc.elim
    | .outOfFuel => rw [hp] at hc; exact hc.elim

end Gotit
