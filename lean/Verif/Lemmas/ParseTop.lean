import Verif.Lemmas.Grammar
/-
  `parse` in terms of the suffix parser; consequences for the grammar.
-/
namespace Gotit
open Spec

theorem parse_eq (data : Bytes) :
    parse data = if data = [] then .err "bencode: no data"
      else (pNext (parseFuel data) data).bind fun (v, _) => .ok v := by
  unfold parse parseWith
  cases data with
  | nil => simp [Scanner.new, Scanner.isFinished, PRes.bind]
  | cons b bs =>
    have hat : At (b :: bs) (Scanner.new (b :: bs)) (b :: bs) := by
      constructor <;> simp [Scanner.new]
    have hf : (Scanner.new (b :: bs)).isFinished = false := by
      simp [Scanner.new, Scanner.isFinished]
    have := (parser_corr (b :: bs) (parseFuel (b :: bs))).1 _ _ hat
    simp only [hf, Bool.false_eq_true, if_false]
    rw [if_neg (by simp)]
    revert this
    generalize Scanner.next (parseFuel (b :: bs)) (Scanner.new (b :: bs)) = x
    generalize pNext (parseFuel (b :: bs)) (b :: bs) = y
    intro h
    cases x <;> cases y <;> simp_all [Corr, PRes.bind]

/-- The bytes consumed: what the final scanner position says. -/
theorem parseWith_ok {data : Bytes} {v : Bencode} {s : Scanner}
    (h : parseWith (parseFuel data) data = .ok (v, s)) :
    ∃ b r, data = b ++ r ∧ Denotes b v ∧ s.current = b.length := by
  cases data with
  | nil => simp [parseWith, Scanner.new, Scanner.isFinished] at h
  | cons c bs =>
    have hat : At (c :: bs) (Scanner.new (c :: bs)) (c :: bs) := by
      constructor <;> simp [Scanner.new]
    have hf : (Scanner.new (c :: bs)).isFinished = false := by
      simp [Scanner.new, Scanner.isFinished]
    simp only [parseWith, hf, Bool.false_eq_true, if_false] at h
    have hc := (parser_corr (c :: bs) (parseFuel (c :: bs))).1 _ _ hat
    rw [h] at hc
    match hp : pNext (parseFuel (c :: bs)) (c :: bs) with
    | .ok (v', r) =>
      rw [hp] at hc
      obtain ⟨rfl, ha⟩ := hc
      obtain ⟨b, hb, hd⟩ := pNext_sound hp
      refine ⟨b, r, hb, hd, ?_⟩
      have h1 := ha.drop
      have h2 := ha.le
      rw [hb] at h1 h2
      have h3 := congrArg List.length h1
      simp only [List.length_drop, List.length_append] at h3 h2
      omega
    | .err _ => rw [hp] at hc; exact hc.elim
    | .panic _ => rw [hp] at hc; exact hc.elim
    | .outOfFuel => rw [hp] at hc; exact hc.elim

theorem parse_complete {b : Bytes} {v : Bencode} (h : Denotes b v) (r : Bytes) : parse (b ++ r) = .ok v := by
  rw [parse_eq, if_neg (by have := h.ne_nil; simp_all)]
  rw [complete_next h _ (by simp only [parseFuel, List.length_append]; omega)]
  rfl

theorem parse_sound {data : Bytes} {v : Bencode} (h : parse data = .ok v) :
    ∃ b r, data = b ++ r ∧ Denotes b v := by
  rw [parse_eq] at h
  split at h
  · simp at h
  · obtain ⟨⟨v', r⟩, h1, h2⟩ := PRes.bind_ok h
    simp only [PRes.ok.injEq] at h2
    subst h2
    obtain ⟨b, hb, hd⟩ := pNext_sound h1
    exact ⟨b, r, hb, hd⟩

theorem Denotes_unique {b b' r r' : Bytes} {v v' : Bencode} (h : Denotes b v) (h' : Denotes b' v')
    (e : b ++ r = b' ++ r') : b = b' ∧ v = v' := by
  have h1 := complete_next h (3 * b.length + 3 * b'.length) (by omega) r
  have h2 := complete_next h' (3 * b.length + 3 * b'.length) (by omega) r'
  rw [e, h2] at h1
  simp only [PRes.ok.injEq, Prod.mk.injEq] at h1
  obtain ⟨h3, h4⟩ := h1
  subst h4
  exact ⟨List.append_cancel_right e, h3.symm⟩

theorem parse_not_fuel (data : Bytes) : parse data ≠ .outOfFuel := by
  intro h
  rw [parse_eq] at h
  split at h
  · simp at h
  · rcases PRes.bind_fuel h with h | ⟨_, _, h⟩
    · exact (nofuel_aux _).1 _ (by simp only [parseFuel]; omega) h
    · simp at h

theorem denotes_int {ds : Bytes} {n : Int} (h : IsDigits ds) (hn : machineNumber ds = n) :
    Denotes (105 :: ds ++ [101]) (.int n) := by
  rw [← hn]; exact .int ds h

theorem denotes_int_inv {b : Bytes} {n : Int} (h : Denotes b (.int n)) :
    ∃ ds, IsDigits ds ∧ b = 105 :: ds ++ [101] ∧ n = machineNumber ds := by
  generalize hv : Bencode.int n = v at h
  cases h with
  | int ds hd => injection hv with hv; exact ⟨ds, hd, rfl, hv⟩
  | str => cases hv
  | list => cases hv
  | dict => cases hv

theorem isDigits_of_all {ds : Bytes} (h : ds.all digitB = true) : IsDigits ds := by
  intro d hd
  exact (digitB_iff d).1 (List.all_eq_true.1 h d hd)

/-! ### Panics -/

theorem pStr_panic {bs : Bytes} {w : String} (h : pStr bs = .panic w) :
    ∃ ds r, bs = ds ++ 58 :: r ∧ IsDigits ds ∧ machineNumber ds < 0 := by
  unfold pStr at h
  split at h
  · rename_i h58
    dsimp only at h
    have hd := takeWhile_isDigits bs
    rw [goNum_eq hd] at h
    split at h
    · simp at h
    · split at h
      · rename_i hneg
        refine ⟨_, (bs.dropWhile digitB).tail, ?_, hd, hneg⟩
        rw [← head?_tail h58, List.takeWhile_append_dropWhile]
      · simp at h
  · simp at h

theorem panic_pStr {ds r : Bytes} (hd : IsDigits ds) (hn : machineNumber ds < 0) :
    pStr (ds ++ 58 :: r) = .panic "slice bounds out of range" := by
  unfold pStr
  obtain ⟨h1, h2⟩ := takeWhile_digits hd 58 not_digit_58 r
  simp only [h1, h2, List.head?_cons, if_true, List.tail_cons, goNum_eq hd]
  rw [if_neg (by omega), if_pos hn]

theorem pEnd_not_panic (bs : Bytes) (w : String) : pEnd bs ≠ .panic w := by
  unfold pEnd; split <;> simp

theorem panic_aux : ∀ f : Nat,
    (∀ bs w, pNext f bs = .panic w → Crashes bs) ∧
    (∀ c bs w, c = 108 → pList f (c :: bs) = .panic w → Crashes (c :: bs)) ∧
    (∀ bs w, pSeq f bs = .panic w → ∃ p x, bs = p ++ x ∧ (∃ vs, DenotesSeq p vs) ∧ Crashes x) ∧
    (∀ c bs w, c = 100 → pDict f (c :: bs) = .panic w → Crashes (c :: bs)) ∧
    (∀ m bs w, pEntries f m bs = .panic w → ∃ p es x, bs = p ++ x ∧ DenotesEntries p es ∧
        (BadLength x ∨ ∃ kb k y, x = kb ++ y ∧ Denotes kb (.str k) ∧ Crashes y)) := by
  intro f
  induction f with
  | zero => simp [pNext, pList, pSeq, pDict, pEntries]
  | succ f ih =>
    obtain ⟨ihN, ihL, ihS, ihD, ihE⟩ := ih
    refine ⟨?_, ?_, ?_, ?_, ?_⟩
    · intro bs w h
      rw [pNext] at h
      split at h
      · rename_i hh; rw [head?_tail hh] at h ⊢; exact ihL _ _ _ rfl h
      · split at h
        · rename_i hh; rw [head?_tail hh] at h ⊢; exact ihD _ _ _ rfl h
        · split at h
          · unfold pInt at h
            rcases PRes.bind_panic h with h | ⟨_, _, h⟩
            · exact absurd h (pEnd_not_panic _ _)
            · simp at h
          · rcases PRes.bind_panic h with h | ⟨_, _, h⟩
            · exact .len (pStr_panic h)
            · simp at h
    · intro c bs w hc h
      subst hc
      rw [pList] at h
      rcases PRes.bind_panic h with h | ⟨⟨vs, r⟩, _, h⟩
      · obtain ⟨p, x, hb, ⟨vs, hd⟩, hx⟩ := ihS _ _ h
        simp only [List.tail_cons] at hb
        subst hb
        exact .list p vs x hd hx
      · rcases PRes.bind_panic h with h | ⟨_, _, h⟩
        · exact absurd h (pEnd_not_panic _ _)
        · simp at h
    · intro bs w h
      rw [pSeq] at h
      split at h
      · simp at h
      · rcases PRes.bind_panic h with h | ⟨⟨v, r⟩, h1, h⟩
        · exact ⟨[], bs, by simp, ⟨[], .nil⟩, ihN _ _ h⟩
        · rcases PRes.bind_panic h with h | ⟨_, _, h⟩
          · obtain ⟨b, hb, hd⟩ := pNext_sound h1
            obtain ⟨p, x, hp, ⟨vs, hd'⟩, hx⟩ := ihS _ _ h
            refine ⟨b ++ p, x, ?_, ⟨v :: vs, .cons _ _ _ _ hd hd'⟩, hx⟩
            rw [hb, hp, List.append_assoc]
          · simp at h
    · intro c bs w hc h
      subst hc
      rw [pDict] at h
      rcases PRes.bind_panic h with h | ⟨⟨vs, r⟩, _, h⟩
      · obtain ⟨p, es, x, hb, hd, hx⟩ := ihE _ _ _ h
        simp only [List.tail_cons] at hb
        subst hb
        rcases hx with hx | ⟨kb, k, y, rfl, hk, hy⟩
        · exact .key p es x hd hx
        · exact .val p es kb k y hd hk hy
      · rcases PRes.bind_panic h with h | ⟨_, _, h⟩
        · exact absurd h (pEnd_not_panic _ _)
        · simp at h
    · intro m bs w h
      rw [pEntries] at h
      split at h
      · simp at h
      · rcases PRes.bind_panic h with h | ⟨⟨k, r⟩, h1, h⟩
        · exact ⟨[], [], bs, by simp, .nil, .inl (pStr_panic h)⟩
        · obtain ⟨kb, hb, hk⟩ := pStr_sound h1
          rcases PRes.bind_panic h with h | ⟨⟨v, r'⟩, h2, h⟩
          · exact ⟨[], [], bs, by simp, .nil, .inr ⟨kb, k, r, hb, hk, ihN _ _ h⟩⟩
          · obtain ⟨vb, hvb, hv⟩ := pNext_sound h2
            obtain ⟨p, es, x, hp, hd, hx⟩ := ihE _ _ _ h
            refine ⟨kb ++ (vb ++ p), (k, v) :: es, x, ?_, .cons _ _ _ _ _ _ hk hv hd, hx⟩
            rw [hb, hvb, hp]; simp

theorem parse_panic {data : Bytes} {w : String} (h : parse data = .panic w) : Crashes data := by
  rw [parse_eq] at h
  split at h
  · simp at h
  · rcases PRes.bind_panic h with h | ⟨_, _, h⟩
    · exact (panic_aux _).1 _ _ h
    · simp at h

theorem Spec.BadLength.head {x : Bytes} (h : BadLength x) :
    ¬ (x = [] ∨ x.head? = some 101) ∧ x.head? ≠ some 108 ∧ x.head? ≠ some 100 ∧ x.head? ≠ some 105 := by
  obtain ⟨ds, r, rfl, hd, _⟩ := h
  cases ds with
  | nil => simp
  | cons d ds =>
    have := hd d (by simp)
    simp only [List.cons_append, List.head?_cons, ne_eq, Option.some.injEq]
    refine ⟨?_, ?_, ?_, ?_⟩
    · rintro (h | h)
      · simp at h
      · subst h; simp at this
    all_goals rintro rfl; simp at this

theorem Spec.Crashes.head {x : Bytes} (h : Crashes x) : ¬ (x = [] ∨ x.head? = some 101) := by
  cases h with
  | len h => exact h.head.1
  | list => simp
  | key => simp
  | val => simp

theorem pSeq_prefix {p : Bytes} {vs} (h : DenotesSeq p vs) {x : Bytes} (hx : ¬ (x = [] ∨ x.head? = some 101))
    (w : String) (n : Nat) : ∀ f, 3 * p.length + n + 1 ≤ f → (∀ g, n ≤ g → pNext g x = .panic w) →
    pSeq f (p ++ x) = .panic w := by
  induction vs generalizing p with
  | nil =>
    cases h
    intro f hf hg
    obtain ⟨f, rfl⟩ : ∃ g, f = g + 1 := ⟨f - 1, by omega⟩
    simp only [List.nil_append]
    rw [pSeq, if_neg hx, hg f (by simp at hf; omega)]; rfl
  | cons v vs ih =>
    cases h with
    | cons b bs _ _ hv hs =>
      intro f hf hg
      obtain ⟨f, rfl⟩ : ∃ g, f = g + 1 := ⟨f - 1, by omega⟩
      have hp := hv.pos
      simp only [List.length_append] at hf
      rw [List.append_assoc, pSeq, if_neg (hv.head _), complete_next hv f (by omega)]
      simp only [PRes.bind]
      rw [ih hs f (by omega) hg]

theorem pEntries_prefix {p : Bytes} {es} (h : DenotesEntries p es) {x : Bytes}
    (w : String) (n : Nat) : ∀ f m, 3 * p.length + n ≤ f → (∀ g m, n ≤ g → pEntries g m x = .panic w) →
    pEntries f m (p ++ x) = .panic w := by
  induction es generalizing p with
  | nil =>
    cases h
    intro f m hf hg
    simp only [List.nil_append]
    exact hg f m (by simp at hf; omega)
  | cons e es ih =>
    cases h with
    | cons kb vb bs k v _ hk hv hs =>
      intro f m hf hg
      have hp := hv.pos
      have hp' := hk.pos
      simp only [List.length_append] at hf
      obtain ⟨f, rfl⟩ : ∃ g, f = g + 1 := ⟨f - 1, by omega⟩
      rw [List.append_assoc, pEntries, if_neg (hk.head _), pStr_complete hk]
      simp only [PRes.bind]
      rw [List.append_assoc, complete_next hv f (by omega)]
      simp only []
      rw [ih hs f _ (by omega) hg]

theorem crash_next {x : Bytes} (h : Crashes x) : ∀ f, 3 * x.length ≤ f →
    pNext f x = .panic "slice bounds out of range" := by
  induction h with
  | len h =>
    intro f hf
    obtain ⟨h1, h2, h3, h4⟩ := h.head
    obtain ⟨ds, r, rfl, hd, hn⟩ := h
    obtain ⟨f, rfl⟩ : ∃ g, f = g + 1 := ⟨f - 1, by simp at hf; omega⟩
    rw [pNext, if_neg h2, if_neg h3, if_neg h4, panic_pStr hd hn]; rfl
  | list p vs y hp hy ih =>
    intro f hf
    obtain ⟨f, rfl⟩ : ∃ g, f = g + 2 := ⟨f - 2, by simp at hf; omega⟩
    rw [pNext, if_pos (by simp), pList]
    simp only [List.tail_cons, List.cons_append, List.length_cons, List.length_append] at hf ⊢
    rw [pSeq_prefix hp hy.head _ (3 * y.length) f (by omega) ih]; rfl
  | key p es y hp hy =>
    intro f hf
    obtain ⟨f, rfl⟩ : ∃ g, f = g + 2 := ⟨f - 2, by simp at hf; omega⟩
    rw [pNext, if_neg (by simp), if_pos (by simp), pDict]
    simp only [List.tail_cons, List.cons_append, List.length_cons, List.length_append] at hf ⊢
    rw [pEntries_prefix hp "slice bounds out of range" 1 f [] (by omega)]
    · rfl
    · intro g m hg
      obtain ⟨g, rfl⟩ : ∃ k, g = k + 1 := ⟨g - 1, by omega⟩
      have hh := hy.head.1
      obtain ⟨ds, r, rfl, hd, hn⟩ := hy
      rw [pEntries, if_neg hh, panic_pStr hd hn]; rfl
  | val p es kb k y hp hk hy ih =>
    intro f hf
    obtain ⟨f, rfl⟩ : ∃ g, f = g + 2 := ⟨f - 2, by simp at hf; omega⟩
    rw [pNext, if_neg (by simp), if_pos (by simp), pDict]
    simp only [List.tail_cons, List.cons_append, List.length_cons, List.length_append] at hf ⊢
    rw [pEntries_prefix hp "slice bounds out of range" (3 * y.length + 1) f [] (by omega)]
    · rfl
    · intro g m hg
      obtain ⟨g, rfl⟩ : ∃ k, g = k + 1 := ⟨g - 1, by omega⟩
      rw [pEntries, if_neg (hk.head _), pStr_complete hk]
      simp only [PRes.bind]
      rw [ih g (by omega)]

theorem Spec.Crashes.ne_nil {x : Bytes} (h : Crashes x) : x ≠ [] := fun e => h.head (.inl e)

theorem crash_parse {x : Bytes} (h : Crashes x) : parse x = .panic "slice bounds out of range" := by
  rw [parse_eq, if_neg h.ne_nil, crash_next h _ (by simp only [parseFuel]; omega)]; rfl

theorem Spec.Crashes.append {x : Bytes} (h : Crashes x) (r : Bytes) : Crashes (x ++ r) := by
  have hb : ∀ {x}, BadLength x → BadLength (x ++ r) := by
    rintro x ⟨ds, t, rfl, h1, h2⟩
    exact ⟨ds, t ++ r, by simp, h1, h2⟩
  induction h with
  | len h => exact .len (hb h)
  | list p vs y hp hy ih =>
    have e : 108 :: (p ++ y) ++ r = 108 :: (p ++ (y ++ r)) := by simp
    rw [e]; exact .list _ _ _ hp ih
  | key p es y hp hy =>
    have e : 100 :: (p ++ y) ++ r = 100 :: (p ++ (y ++ r)) := by simp
    rw [e]; exact .key _ _ _ hp (hb hy)
  | val p es kb k y hp hk hy ih =>
    have e : 100 :: (p ++ (kb ++ y)) ++ r = 100 :: (p ++ (kb ++ (y ++ r))) := by simp
    rw [e]; exact .val _ _ _ _ _ hp hk ih

end Gotit
