import Verif.Lemmas.Suffix
import Verif.Lemmas.MapOf
/-
  The suffix parser against the grammar.
-/
namespace Gotit
open Spec

theorem takeWhile_isDigits (bs : Bytes) : IsDigits (bs.takeWhile digitB) := by
  induction bs with
  | nil => intro d hd; simp at hd
  | cons b bs ih =>
    intro d hd
    by_cases h : digitB b = true
    · simp only [List.takeWhile_cons, h, if_true, List.mem_cons] at hd
      rcases hd with rfl | hd
      · exact (digitB_iff d).1 h
      · exact ih d hd
    · simp [List.takeWhile_cons, h] at hd

theorem goNum_eq {ds : Bytes} (h : IsDigits ds) : goNum ds = machineNumber ds := by
  simp [goNum, machineNumber, numAcc_zero ds h]

theorem takeWhile_digits {ds : Bytes} (h : IsDigits ds) (b : UInt8) (hb : digitB b = false) (r : Bytes) :
    (ds ++ b :: r).takeWhile digitB = ds ∧ (ds ++ b :: r).dropWhile digitB = b :: r := by
  have h' : ∀ d ∈ ds, digitB d = true := fun d hd => (digitB_iff d).2 (h d hd)
  constructor
  · rw [List.takeWhile_append_of_pos h']; simp [hb]
  · rw [List.dropWhile_append_of_pos h']; simp [hb]

theorem not_digit_58 : digitB 58 = false := by decide
theorem not_digit_101 : digitB 101 = false := by decide

theorem PRes.bind_ok {α β : Type} {x : PRes α} {f : α → PRes β} {b : β} (h : x.bind f = .ok b) :
    ∃ a, x = .ok a ∧ f a = .ok b := by
  cases x <;> simp_all [PRes.bind]

theorem PRes.bind_panic {α β : Type} {x : PRes α} {f : α → PRes β} {w : String} (h : x.bind f = .panic w) :
    x = .panic w ∨ ∃ a, x = .ok a ∧ f a = .panic w := by
  cases x <;> simp_all [PRes.bind]

theorem PRes.bind_fuel {α β : Type} {x : PRes α} {f : α → PRes β} (h : x.bind f = .outOfFuel) :
    x = .outOfFuel ∨ ∃ a, x = .ok a ∧ f a = .outOfFuel := by
  cases x <;> simp_all [PRes.bind]

theorem head?_tail {α : Type} {l : List α} {a : α} (h : l.head? = some a) : l = a :: l.tail := by
  cases l <;> simp_all

theorem pStr_sound {bs k r : Bytes} (h : pStr bs = .ok (k, r)) :
    ∃ b, bs = b ++ r ∧ Denotes b (.str k) := by
  unfold pStr at h
  split at h
  · rename_i h58
    dsimp only at h
    have hd := takeWhile_isDigits bs
    rw [goNum_eq hd] at h
    split at h
    · simp at h
    · split at h
      · simp at h
      · simp only [PRes.ok.injEq, Prod.mk.injEq] at h
        obtain ⟨h1, h2⟩ := h
        have hlen : machineNumber (bs.takeWhile digitB) = k.length := by
          rw [← h1, List.length_take]; omega
        refine ⟨bs.takeWhile digitB ++ 58 :: k, ?_, .str _ _ hd hlen⟩
        conv => lhs; rw [← List.takeWhile_append_dropWhile (p := digitB) (l := bs)]
        rw [← h1, ← h2, List.append_assoc, List.cons_append, List.take_append_drop, ← head?_tail h58]
  · simp at h

theorem pStr_complete {b k : Bytes} (h : Denotes b (.str k)) (r : Bytes) : pStr (b ++ r) = .ok (k, r) := by
  cases h with
  | str ds _ hd hl =>
    have e : ds ++ 58 :: k ++ r = ds ++ 58 :: (k ++ r) := by simp
    rw [e]
    unfold pStr
    obtain ⟨h1, h2⟩ := takeWhile_digits hd 58 not_digit_58 (k ++ r)
    simp only [h1, h2, List.head?_cons, if_true, List.tail_cons, goNum_eq hd, hl]
    rw [if_neg (by simp only [List.length_append]; omega), if_neg (by omega)]
    simp

theorem pEnd_ok {bs r : Bytes} (h : pEnd bs = .ok r) : bs = 101 :: r := by
  unfold pEnd at h; split at h <;> simp_all

theorem pInt_sound {bs r : Bytes} {v : Bencode} (h : pInt bs = .ok (v, r)) :
    ∃ b, 105 :: bs = b ++ r ∧ Denotes b v := by
  unfold pInt at h
  obtain ⟨r', h1, h2⟩ := PRes.bind_ok h
  simp only [PRes.ok.injEq, Prod.mk.injEq] at h2
  obtain ⟨h2, rfl⟩ := h2
  have hd := takeWhile_isDigits bs
  rw [goNum_eq hd] at h2
  subst h2
  refine ⟨_, ?_, .int _ hd⟩
  conv => lhs; rw [← List.takeWhile_append_dropWhile (p := digitB) (l := bs)]
  rw [pEnd_ok h1]; simp

theorem Spec.Denotes.ne_nil {b : Bytes} {v : Bencode} (h : Denotes b v) : b ≠ [] := by
  cases h <;> simp

theorem Spec.Denotes.pos {b : Bytes} {v : Bencode} (h : Denotes b v) : 0 < b.length :=
  List.length_pos_iff.2 h.ne_nil

theorem take_raw {b r : Bytes} : (b ++ r).take ((b ++ r).length - r.length) = b := by
  have : (b ++ r).length - r.length = b.length := by simp
  rw [this]; simp

theorem sound_aux : ∀ f : Nat,
    (∀ bs v r, pNext f bs = .ok (v, r) → ∃ b, bs = b ++ r ∧ Denotes b v) ∧
    (∀ c bs v r, c = 108 → pList f (c :: bs) = .ok (v, r) → ∃ b, c :: bs = b ++ r ∧ Denotes b v) ∧
    (∀ bs vs r, pSeq f bs = .ok (vs, r) → ∃ b, bs = b ++ r ∧ DenotesSeq b vs) ∧
    (∀ c bs v r, c = 100 → pDict f (c :: bs) = .ok (v, r) → ∃ b, c :: bs = b ++ r ∧ Denotes b v) ∧
    (∀ m bs m' r, pEntries f m bs = .ok (m', r) → ∃ b es, bs = b ++ r ∧ DenotesEntries b es ∧
        m' = es.foldl (fun m e => upsert e.1 e.2 m) m) := by
  intro f
  induction f with
  | zero => simp [pNext, pList, pSeq, pDict, pEntries]
  | succ f ih =>
    obtain ⟨ihN, ihL, ihS, ihD, ihE⟩ := ih
    refine ⟨?_, ?_, ?_, ?_, ?_⟩
    · intro bs v r h
      rw [pNext] at h
      split at h
      · rename_i hh; rw [head?_tail hh] at h ⊢; exact ihL _ _ _ _ rfl h
      · split at h
        · rename_i hh; rw [head?_tail hh] at h ⊢; exact ihD _ _ _ _ rfl h
        · split at h
          · rename_i hh
            obtain ⟨b, hb⟩ := pInt_sound h
            rw [head?_tail hh]; exact ⟨b, hb⟩
          · obtain ⟨⟨k, r'⟩, h1, h2⟩ := PRes.bind_ok h
            simp only [PRes.ok.injEq, Prod.mk.injEq] at h2
            obtain ⟨rfl, rfl⟩ := h2
            exact pStr_sound h1
    · intro c bs v r hc h
      subst hc
      rw [pList] at h
      obtain ⟨⟨vs, r1⟩, h1, h2⟩ := PRes.bind_ok h
      obtain ⟨r2, h3, h4⟩ := PRes.bind_ok h2
      simp only [PRes.ok.injEq, Prod.mk.injEq] at h4
      obtain ⟨rfl, rfl⟩ := h4
      obtain ⟨b, hb, hd⟩ := ihS _ _ _ h1
      have := pEnd_ok h3; subst this
      simp only [List.tail_cons] at hb
      subst hb
      refine ⟨108 :: b ++ [101], by simp, ?_⟩
      have e : (108 :: (b ++ 101 :: r2)) = (108 :: b ++ [101]) ++ r2 := by simp
      rw [e, take_raw]
      exact .list _ _ hd
    · intro bs vs r h
      rw [pSeq] at h
      split at h
      · simp only [PRes.ok.injEq, Prod.mk.injEq] at h
        obtain ⟨rfl, rfl⟩ := h
        exact ⟨[], by simp, .nil⟩
      · obtain ⟨⟨v, r1⟩, h1, h2⟩ := PRes.bind_ok h
        obtain ⟨⟨vs', r2⟩, h3, h4⟩ := PRes.bind_ok h2
        simp only [PRes.ok.injEq, Prod.mk.injEq] at h4
        obtain ⟨rfl, rfl⟩ := h4
        obtain ⟨b1, rfl, hd1⟩ := ihN _ _ _ h1
        obtain ⟨b2, rfl, hd2⟩ := ihS _ _ _ h3
        exact ⟨b1 ++ b2, by simp, .cons _ _ _ _ hd1 hd2⟩
    · intro c bs v r hc h
      subst hc
      rw [pDict] at h
      obtain ⟨⟨vs, r1⟩, h1, h2⟩ := PRes.bind_ok h
      obtain ⟨r2, h3, h4⟩ := PRes.bind_ok h2
      simp only [PRes.ok.injEq, Prod.mk.injEq] at h4
      obtain ⟨rfl, rfl⟩ := h4
      obtain ⟨b, es, hb, hd, hm⟩ := ihE _ _ _ _ h1
      have := pEnd_ok h3; subst this
      simp only [List.tail_cons] at hb
      subst hb
      refine ⟨100 :: b ++ [101], by simp, ?_⟩
      have e : (100 :: (b ++ 101 :: r2)) = (100 :: b ++ [101]) ++ r2 := by simp
      rw [e, take_raw, hm, foldl_upsert]
      exact .dict _ _ hd
    · intro m bs m' r h
      rw [pEntries] at h
      split at h
      · simp only [PRes.ok.injEq, Prod.mk.injEq] at h
        obtain ⟨rfl, rfl⟩ := h
        exact ⟨[], [], by simp, .nil, rfl⟩
      · obtain ⟨⟨k, r1⟩, h1, h2⟩ := PRes.bind_ok h
        obtain ⟨⟨v, r2⟩, h3, h4⟩ := PRes.bind_ok h2
        obtain ⟨b1, rfl, hd1⟩ := pStr_sound h1
        obtain ⟨b2, rfl, hd2⟩ := ihN _ _ _ h3
        obtain ⟨b3, es, rfl, hd3, hm⟩ := ihE _ _ _ _ h4
        exact ⟨b1 ++ (b2 ++ b3), (k, v) :: es, by simp, .cons _ _ _ _ _ _ hd1 hd2 hd3, hm⟩

theorem pNext_sound {f : Nat} {bs r : Bytes} {v : Bencode} (h : pNext f bs = .ok (v, r)) :
    ∃ b, bs = b ++ r ∧ Denotes b v := (sound_aux f).1 _ _ _ h
theorem pSeq_sound {f : Nat} {bs r : Bytes} {vs : List Bencode} (h : pSeq f bs = .ok (vs, r)) :
    ∃ b, bs = b ++ r ∧ DenotesSeq b vs := (sound_aux f).2.2.1 _ _ _ h
theorem pEntries_sound {f : Nat} {bs r : Bytes} {m m'} (h : pEntries f m bs = .ok (m', r)) :
    ∃ b es, bs = b ++ r ∧ DenotesEntries b es ∧ m' = es.foldl (fun m e => upsert e.1 e.2 m) m :=
  (sound_aux f).2.2.2.2 _ _ _ _ h

/-- First byte of an element: never 'e', so the loops continue. -/
theorem Spec.Denotes.head {b : Bytes} {v : Bencode} (h : Denotes b v) (r : Bytes) :
    ¬ (b ++ r = [] ∨ (b ++ r).head? = some 101) := by
  rintro (h1 | h1)
  · have := h.ne_nil; simp_all
  · cases h with
    | int ds _ => simp at h1
    | list _ _ _ => simp at h1
    | dict _ _ _ => simp at h1
    | str ds s hd _ =>
      cases ds with
      | nil => simp at h1
      | cons d ds =>
        simp at h1; subst h1
        have := hd 101 (by simp)
        simp at this

theorem Spec.Denotes.str_head {b k : Bytes} (h : Denotes b (.str k)) (r : Bytes) :
    (b ++ r).head? ≠ some 108 ∧ (b ++ r).head? ≠ some 100 ∧ (b ++ r).head? ≠ some 105 := by
  cases h with
  | str ds s hd _ =>
    cases ds with
    | nil => simp
    | cons d ds =>
      have := hd d (by simp)
      simp only [List.cons_append, List.head?_cons, ne_eq, Option.some.injEq]
      refine ⟨?_, ?_, ?_⟩ <;> rintro rfl <;> simp at this

mutual
theorem complete_next : ∀ {b : Bytes} {v : Bencode}, Denotes b v → ∀ (f : Nat), 3 * b.length ≤ f → ∀ r,
    pNext f (b ++ r) = .ok (v, r)
  | _, _, .int ds hd, f, hf, r => by
    obtain ⟨f, rfl⟩ : ∃ g, f = g + 1 := ⟨f - 1, by simp at hf; omega⟩
    rw [pNext]
    rw [if_neg (by simp), if_neg (by simp), if_pos (by simp)]
    have e : (105 :: ds ++ [101] ++ r).tail = ds ++ 101 :: r := by simp
    rw [e]
    obtain ⟨h1, h2⟩ := takeWhile_digits hd 101 not_digit_101 r
    simp [pInt, h1, h2, pEnd, PRes.bind, goNum_eq hd]
  | _, _, .str ds s hd hl, f, hf, r => by
    obtain ⟨f, rfl⟩ : ∃ g, f = g + 1 := ⟨f - 1, by simp at hf; omega⟩
    have hD : Denotes (ds ++ 58 :: s) (.str s) := .str ds s hd hl
    rw [pNext]
    obtain ⟨h1, h2, h3⟩ := hD.str_head r
    rw [if_neg h1, if_neg h2, if_neg h3, pStr_complete hD]
    rfl
  | _, _, .list body vs hs, f, hf, r => by
    obtain ⟨f, rfl⟩ : ∃ g, f = g + 2 := ⟨f - 2, by simp at hf; omega⟩
    rw [pNext, if_pos (by simp), pList]
    have e : (108 :: body ++ [101] ++ r).tail = body ++ 101 :: r := by simp
    rw [e, complete_seq hs f (by simp at hf; omega) (101 :: r) (by simp)]
    simp only [PRes.bind, pEnd]
    rw [take_raw]
  | _, _, .dict body es hs, f, hf, r => by
    obtain ⟨f, rfl⟩ : ∃ g, f = g + 2 := ⟨f - 2, by simp at hf; omega⟩
    rw [pNext, if_neg (by simp), if_pos (by simp), pDict]
    have e : (100 :: body ++ [101] ++ r).tail = body ++ 101 :: r := by simp
    rw [e, complete_entries hs f (by simp at hf; omega) (101 :: r) (by simp)]
    simp only [PRes.bind, pEnd]
    rw [take_raw, foldl_upsert]
theorem complete_seq : ∀ {b : Bytes} {vs : List Bencode}, DenotesSeq b vs → ∀ (f : Nat), 3 * b.length + 1 ≤ f →
    ∀ r, (r = [] ∨ r.head? = some 101) → pSeq f (b ++ r) = .ok (vs, r)
  | _, _, .nil, f, hf, r, hr => by
    obtain ⟨f, rfl⟩ : ∃ g, f = g + 1 := ⟨f - 1, by omega⟩
    rw [pSeq, if_pos (by simpa using hr)]; simp
  | _, _, .cons b bs v vs hv hs, f, hf, r, hr => by
    obtain ⟨f, rfl⟩ : ∃ g, f = g + 1 := ⟨f - 1, by omega⟩
    rw [List.append_assoc, pSeq, if_neg (hv.head _)]
    have hp := hv.pos
    simp only [List.length_append] at hf
    rw [complete_next hv f (by omega)]
    simp only [PRes.bind]
    rw [complete_seq hs f (by omega) r hr]
theorem complete_entries : ∀ {b : Bytes} {es : List (Bytes × Bencode)}, DenotesEntries b es → ∀ (f : Nat),
    3 * b.length + 1 ≤ f → ∀ r, (r = [] ∨ r.head? = some 101) → ∀ {m},
    pEntries f m (b ++ r) = .ok (es.foldl (fun m e => upsert e.1 e.2 m) m, r)
  | _, _, .nil, f, hf, r, hr, m => by
    obtain ⟨f, rfl⟩ : ∃ g, f = g + 1 := ⟨f - 1, by omega⟩
    rw [pEntries, if_pos (by simpa using hr)]; simp
  | _, _, .cons kb vb bs k v es hk hv hs, f, hf, r, hr, m => by
    obtain ⟨f, rfl⟩ : ∃ g, f = g + 1 := ⟨f - 1, by omega⟩
    rw [List.append_assoc, pEntries, if_neg (hk.head _), pStr_complete hk]
    have hp := hv.pos
    have hp' := hk.pos
    simp only [List.length_append] at hf
    simp only [PRes.bind]
    rw [List.append_assoc, complete_next hv f (by omega)]
    simp only []
    rw [complete_entries hs f (by omega) r hr]
    simp
end

theorem nofuel_aux : ∀ f : Nat,
    (∀ bs, 3 * bs.length + 1 ≤ f → pNext f bs ≠ .outOfFuel) ∧
    (∀ bs, bs ≠ [] → 3 * bs.length ≤ f → pList f bs ≠ .outOfFuel) ∧
    (∀ bs, 3 * bs.length + 2 ≤ f → pSeq f bs ≠ .outOfFuel) ∧
    (∀ bs, bs ≠ [] → 3 * bs.length ≤ f → pDict f bs ≠ .outOfFuel) ∧
    (∀ m bs, 3 * bs.length + 2 ≤ f → pEntries f m bs ≠ .outOfFuel) := by
  have hS : ∀ bs, pStr bs ≠ .outOfFuel := by
    intro bs; unfold pStr; split <;> try simp
    split <;> try simp
    split <;> simp
  have hE : ∀ bs, pEnd bs ≠ .outOfFuel := by
    intro bs; unfold pEnd; split <;> simp
  have hI : ∀ bs, pInt bs ≠ .outOfFuel := by
    intro bs h; unfold pInt at h
    rcases PRes.bind_fuel h with h | ⟨_, _, h⟩
    · exact hE _ h
    · simp at h
  intro f
  induction f with
  | zero =>
    refine ⟨?_, ?_, ?_, ?_, ?_⟩
    · intro bs h; omega
    · intro bs h0 h; exact absurd (List.length_pos_iff.2 h0) (by omega)
    · intro bs h; omega
    · intro bs h0 h; exact absurd (List.length_pos_iff.2 h0) (by omega)
    · intro m bs h; omega
  | succ f ih =>
    obtain ⟨ihN, ihL, ihS, ihD, ihE⟩ := ih
    have hne : ∀ {bs : Bytes} {c}, bs.head? = some c → bs ≠ [] := by
      intro bs c h e; subst e; simp at h
    refine ⟨?_, ?_, ?_, ?_, ?_⟩
    · intro bs hf h
      rw [pNext] at h
      split at h
      · rename_i hh; exact ihL _ (hne hh) (by omega) h
      · split at h
        · rename_i hh; exact ihD _ (hne hh) (by omega) h
        · split at h
          · exact hI _ h
          · rcases PRes.bind_fuel h with h | ⟨_, _, h⟩
            · exact hS _ h
            · simp at h
    · intro bs hb hf h
      rw [pList] at h
      have hl : bs.tail.length + 1 = bs.length := by
        cases bs <;> simp_all
      rcases PRes.bind_fuel h with h | ⟨⟨vs, r⟩, _, h⟩
      · exact ihS _ (by omega) h
      · rcases PRes.bind_fuel h with h | ⟨_, _, h⟩
        · exact hE _ h
        · simp at h
    · intro bs hf h
      rw [pSeq] at h
      split at h
      · simp at h
      · rcases PRes.bind_fuel h with h | ⟨⟨v, r⟩, h1, h'⟩
        · exact ihN _ (by omega) h
        · obtain ⟨b, rfl, hd⟩ := pNext_sound h1
          have := hd.pos
          simp only [List.length_append] at hf
          rcases PRes.bind_fuel h' with h | ⟨_, _, h⟩
          · exact ihS _ (by omega) h
          · simp at h
    · intro bs hb hf h
      rw [pDict] at h
      have hl : bs.tail.length + 1 = bs.length := by
        cases bs <;> simp_all
      rcases PRes.bind_fuel h with h | ⟨⟨vs, r⟩, _, h⟩
      · exact ihE _ _ (by omega) h
      · rcases PRes.bind_fuel h with h | ⟨_, _, h⟩
        · exact hE _ h
        · simp at h
    · intro m bs hf h
      rw [pEntries] at h
      split at h
      · simp at h
      · rcases PRes.bind_fuel h with h | ⟨⟨k, r⟩, h1, h'⟩
        · exact hS _ h
        · obtain ⟨b, rfl, hd⟩ := pStr_sound h1
          have := hd.pos
          simp only [List.length_append] at hf
          rcases PRes.bind_fuel h' with h | ⟨⟨v, r'⟩, h2, h''⟩
          · exact ihN _ (by omega) h
          · obtain ⟨b', rfl, hd'⟩ := pNext_sound h2
            have := hd'.pos
            simp only [List.length_append] at hf
            exact ihE _ _ (by omega) h''

end Gotit
