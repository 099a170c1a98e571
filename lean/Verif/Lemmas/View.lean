import Verif.Model.ParseView
import Verif.Lemmas.Encode
namespace Gotit
open Spec Scanner

theorem numberLoop_bencode (s : Scanner) (n : Int) : (numberLoop s n).2.bencode = s.bencode := by
  fun_induction numberLoop s n with
  | case1 s n _ _ _ _ ih => rw [ih]; rfl
  | case2 => rfl

theorem number_bencode (s : Scanner) : s.number.2.bencode = s.bencode := by
  simp only [number, position]
  exact numberLoop_bencode s 0

theorem matchByte_bencode (s : Scanner) (r : UInt8) : (s.matchByte r).2.bencode = s.bencode := by
  unfold matchByte; split <;> rfl

/-- The view-returning outcome shows, in the buffer, the value of the value-returning outcome. -/
def VCorr {α β : Type} (buf : Bytes) (r : α → β) : PRes (α × Scanner) → PRes (β × Scanner) → Prop
  | .ok (a, s), .ok (b, s') => r a = b ∧ s = s' ∧ s.bencode = buf
  | .err e, .err e' => e = e'
  | .panic w, .panic w' => w = w'
  | .outOfFuel, .outOfFuel => True
  | _, _ => False

theorem VCorr.bind {α β γ δ : Type} {buf : Bytes} {r : α → β} {r' : γ → δ} {x : PRes (α × Scanner)}
    {y : PRes (β × Scanner)} {f : α × Scanner → PRes (γ × Scanner)} {g : β × Scanner → PRes (δ × Scanner)}
    (h : VCorr buf r x y)
    (hf : ∀ a s, x = .ok (a, s) → s.bencode = buf → VCorr buf r' (f (a, s)) (g (r a, s))) :
    VCorr buf r' (x.bind f) (y.bind g) := by
  cases x <;> cases y <;> simp_all [VCorr, PRes.bind]
  rename_i a b
  obtain ⟨a, s⟩ := a
  obtain ⟨b, s'⟩ := b
  simp only at h
  obtain ⟨rfl, rfl, hb⟩ := h
  exact hf a s rfl hb

theorem readString_view (buf : Bytes) (s : Scanner) (hb : s.bencode = buf) :
    VCorr buf (fun w : Nat × Nat => window buf w.1 w.2) s.readStringV s.readString := by
  simp only [readStringV, readString]
  have h1 : (s.number.2.matchByte 58).2.bencode = buf := by
    rw [matchByte_bencode, number_bencode, hb]
  generalize (s.number.2.matchByte 58).1 = m at *
  generalize (s.number.2.matchByte 58).2 = s' at *
  generalize s.number.1 = len at *
  cases m
  · simp [VCorr]
  · simp only [Bool.not_true, Bool.false_eq_true, if_false]
    split
    · simp [VCorr]
    · split
      · simp [VCorr]
      · simp only [VCorr, Scanner.read, position, window]
        subst h1
        refine ⟨?_, trivial, rfl⟩
        rw [List.drop_take]

theorem resolve_upsertV (buf : Bytes) (k : Nat × Nat) (v : View) (m : List ((Nat × Nat) × View)) :
    resolveEntries buf (upsertV buf k v m) = upsert (window buf k.1 k.2) (v.resolve buf) (resolveEntries buf m) := by
  induction m with
  | nil => simp [upsertV, resolveEntries, upsert]
  | cons e m ih =>
    obtain ⟨k', v'⟩ := e
    simp only [upsertV, resolveEntries, upsert]
    split
    · simp [resolveEntries]
    · simp [resolveEntries, ih]

theorem view_corr (buf : Bytes) : ∀ f : Nat,
    (∀ s : Scanner, s.bencode = buf → VCorr buf (View.resolve buf) (s.nextV f) (s.next f)) ∧
    (∀ s : Scanner, s.bencode = buf → VCorr buf (View.resolve buf) (s.readListV f) (s.readList f)) ∧
    (∀ s : Scanner, s.bencode = buf → VCorr buf (resolveList buf) (s.listLoopV f) (s.listLoop f)) ∧
    (∀ s : Scanner, s.bencode = buf → VCorr buf (View.resolve buf) (s.readDictV f) (s.readDict f)) ∧
    (∀ m (s : Scanner), s.bencode = buf → VCorr buf (resolveEntries buf) (s.dictLoopV f m)
        (s.dictLoop f (resolveEntries buf m))) := by
  intro f
  induction f with
  | zero => simp [nextV, Scanner.next, readListV, readList, listLoopV, listLoop, readDictV, readDict, dictLoopV, dictLoop, VCorr]
  | succ f ih =>
    obtain ⟨ihN, ihL, ihS, ihD, ihE⟩ := ih
    refine ⟨?_, ?_, ?_, ?_, ?_⟩
    · intro s hb
      rw [nextV, Scanner.next]
      split
      · exact ihL _ hb
      · split
        · exact ihD _ hb
        · split
          · simp only [readIntV, readInt]
            have h1 : (s.advance.position.number.2.matchByte 101).2.bencode = buf := by
              rw [matchByte_bencode, number_bencode]; exact hb
            generalize (s.advance.position.number.2.matchByte 101).1 = m
            cases m
            · simp [VCorr]
            · simp [VCorr, View.resolve, h1]
          · refine VCorr.bind (readString_view buf s hb) ?_
            intro a s' _ hb'
            simp [VCorr, View.resolve, hb']
    · intro s hb
      rw [readListV, readList]
      refine VCorr.bind (ihS _ hb) ?_
      intro a s' _ hb'
      have h1 : (s'.matchByte 101).2.bencode = buf := by rw [matchByte_bencode, hb']
      simp only []
      generalize (s'.matchByte 101).1 = m at *
      generalize (s'.matchByte 101).2 = s'' at *
      cases m
      · simp [VCorr]
      · simp only [Bool.not_true, Bool.false_eq_true, if_false, VCorr, View.resolve, window]
        subst h1
        rw [List.drop_take]; simp
    · intro s hb
      rw [listLoopV, listLoop]
      split
      · refine VCorr.bind (ihN _ hb) ?_
        intro a s' _ hb'
        refine VCorr.bind (ihS _ hb') ?_
        intro a s' _ hb'
        simp [VCorr, resolveList, hb']
      · simp [VCorr, resolveList, hb]
    · intro s hb
      rw [readDictV, readDict]
      refine VCorr.bind (by simpa [resolveEntries] using ihE [] s.advance.position hb) ?_
      intro a s' _ hb'
      have h1 : (s'.matchByte 101).2.bencode = buf := by rw [matchByte_bencode, hb']
      simp only []
      generalize (s'.matchByte 101).1 = m at *
      generalize (s'.matchByte 101).2 = s'' at *
      cases m
      · simp [VCorr]
      · simp only [Bool.not_true, Bool.false_eq_true, if_false, VCorr, View.resolve, window]
        subst h1
        rw [List.drop_take]; simp
    · intro m s hb
      rw [dictLoopV, dictLoop]
      split
      · refine VCorr.bind (readString_view buf s hb) ?_
        intro k s' _ hb'
        refine VCorr.bind (ihN _ hb') ?_
        intro a s' _ hb'
        subst hb'
        simp only
        rw [← resolve_upsertV]
        exact ihE _ _ rfl
      · simp [VCorr, hb]

theorem parseView_eq (data : Bytes) :
    parse data = (parseView data).bind fun v => .ok (v.resolve data) := by
  unfold parse parseWith parseView
  have h := (view_corr data (parseFuel data)).1 (Scanner.new data) rfl
  revert h
  simp only
  generalize Scanner.nextV (parseFuel data) (Scanner.new data) = x
  generalize Scanner.next (parseFuel data) (Scanner.new data) = y
  intro h
  split
  · rfl
  · cases x <;> cases y <;> simp_all [VCorr, PRes.bind]

end Gotit
