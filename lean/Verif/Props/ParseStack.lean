import Verif.Model.ParseStack
import Verif.Spec.ParseStack
import Verif.Lemmas.ParseTop
/-
  C125: the stack of the parser.
-/
namespace Gotit.Props
open Gotit Spec

/-! ### The parser with a limited stack on the remaining input -/

mutual
def pNextK : Nat → Nat → Bytes → PRes (Bencode × Bytes)
  | 0, _, _ => .outOfFuel
  | _ + 1, 0, _ => .panic stackOverflow
  | f + 1, k + 1, bs =>
    if bs.head? = some 108 then pListK f k bs
    else if bs.head? = some 100 then pDictK f k bs
    else if bs.head? = some 105 then pInt bs.tail
    else (pStr bs).bind fun (v, r) => .ok (.str v, r)
def pListK : Nat → Nat → Bytes → PRes (Bencode × Bytes)
  | 0, _, _ => .outOfFuel
  | f + 1, k, bs =>
    (pSeqK f k bs.tail).bind fun (vs, r) =>
      (pEnd r).bind fun r => .ok (.list true vs (bs.take (bs.length - r.length)), r)
def pSeqK : Nat → Nat → Bytes → PRes (List Bencode × Bytes)
  | 0, _, _ => .outOfFuel
  | f + 1, k, bs =>
    if bs = [] ∨ bs.head? = some 101 then .ok ([], bs)
    else
      (pNextK f k bs).bind fun (v, r) =>
      (pSeqK f k r).bind fun (vs, r) => .ok (v :: vs, r)
def pDictK : Nat → Nat → Bytes → PRes (Bencode × Bytes)
  | 0, _, _ => .outOfFuel
  | f + 1, k, bs =>
    (pEntriesK f k [] bs.tail).bind fun (kvs, r) =>
      (pEnd r).bind fun r => .ok (.dict true kvs (bs.take (bs.length - r.length)), r)
def pEntriesK : Nat → Nat → List (Bytes × Bencode) → Bytes → PRes (List (Bytes × Bencode) × Bytes)
  | 0, _, _, _ => .outOfFuel
  | f + 1, k, m, bs =>
    if bs = [] ∨ bs.head? = some 101 then .ok (m, bs)
    else
      (pStr bs).bind fun (key, r) =>
      (pNextK f k r).bind fun (v, r) =>
      pEntriesK f k (upsert key v m) r
end

theorem parserK_corr (data : Bytes) : ∀ f k : Nat,
    (∀ s bs, At data s bs → Corr data (s.nextK f k) (pNextK f k bs)) ∧
    (∀ s b bs, At data s (b :: bs) → Corr data (s.readListK f k) (pListK f k (b :: bs))) ∧
    (∀ s bs, At data s bs → Corr data (s.listLoopK f k) (pSeqK f k bs)) ∧
    (∀ s b bs, At data s (b :: bs) → Corr data (s.readDictK f k) (pDictK f k (b :: bs))) ∧
    (∀ m s bs, At data s bs → Corr data (s.dictLoopK f k m) (pEntriesK f k m bs)) := by
  intro f
  induction f with
  | zero =>
    intro k
    refine ⟨?_, ?_, ?_, ?_, ?_⟩ <;> intros <;>
      simp [Scanner.nextK, Scanner.readListK, Scanner.listLoopK, Scanner.readDictK, Scanner.dictLoopK,
        pNextK, pListK, pSeqK, pDictK, pEntriesK, Corr]
  | succ f ih =>
    intro k
    refine ⟨?_, ?_, ?_, ?_, ?_⟩
    · intro s bs h
      cases k with
      | zero => simp [Scanner.nextK, pNextK, Corr]
      | succ k =>
      obtain ⟨ihN, ihL, ihS, ihD, ihE⟩ := ih k
      rw [Scanner.nextK, pNextK]
      have hs : Corr data (s.readString.bind fun (v, s) => .ok (Bencode.str v, s))
          ((pStr bs).bind fun (v, r) => .ok (.str v, r)) :=
        (readString_at h.weak).bind (fun a s r _ hat => ⟨rfl, hat⟩)
      cases bs with
      | nil =>
        simp only [h.weak.peek_nil]
        rw [if_neg (by decide), if_neg (by decide), if_neg (by decide)]
        simpa using hs
      | cons b bs =>
        simp only [h.weak.peek_cons]
        by_cases h1 : b = 108
        · subst h1; simp only [List.head?_cons, if_true]; exact ihL _ _ _ h
        by_cases h2 : b = 100
        · subst h2; rw [if_neg (by decide), if_pos rfl, if_neg (by simp), if_pos (by simp)]; exact ihD _ _ _ h
        by_cases h3 : b = 105
        · subst h3; rw [if_neg (by decide), if_neg (by decide), if_pos rfl, if_neg (by simp), if_neg (by simp), if_pos (by simp)]; exact readInt_at h
        rw [if_neg h1, if_neg h2, if_neg h3, if_neg (by simpa using h1), if_neg (by simpa using h2),
          if_neg (by simpa using h3)]
        exact hs
    · obtain ⟨ihN, ihL, ihS, ihD, ihE⟩ := ih k
      intro s b bs h
      rw [Scanner.readListK, pListK]
      refine (ihS _ _ h.weak.advance.position).bind ?_
      intro vs s' r _ hat
      refine end_at hat.weak (fun s'' => .ok (Bencode.list true vs ((s''.bencode.take s''.start).drop s.start), s''))
        (fun r' => .ok (Bencode.list true vs ((b :: bs).take ((b :: bs).length - r'.length)), r')) ?_
      intro s'' r' _ hat'
      refine ⟨?_, hat'⟩
      rw [Corr.weaken_raw h hat']
    · obtain ⟨ihN, ihL, ihS, ihD, ihE⟩ := ih k
      intro s bs h
      rw [Scanner.listLoopK, pSeqK]
      cases bs with
      | nil =>
        rw [if_neg (by simp [h.weak.finished]), if_pos (by simp)]
        exact ⟨rfl, h⟩
      | cons b bs =>
        by_cases h1 : b = 101
        · subst h1
          rw [if_neg (by simp [h.weak.peek_cons]), if_pos (by simp)]
          exact ⟨rfl, h⟩
        · rw [if_pos (by simp [h.weak.peek_cons, h.weak.finished, h1]), if_neg (by simpa using h1)]
          · refine (ihN _ _ h.weak.position).bind ?_
            intro v s' r _ hat
            refine (ihS _ _ hat).bind ?_
            intro vs s'' r' _ hat'
            exact ⟨rfl, hat'⟩
    · obtain ⟨ihN, ihL, ihS, ihD, ihE⟩ := ih k
      intro s b bs h
      rw [Scanner.readDictK, pDictK]
      refine (ihE _ _ _ h.weak.advance.position).bind ?_
      intro vs s' r _ hat
      refine end_at hat.weak (fun s'' => .ok (Bencode.dict true vs ((s''.bencode.take s''.start).drop s.start), s''))
        (fun r' => .ok (Bencode.dict true vs ((b :: bs).take ((b :: bs).length - r'.length)), r')) ?_
      intro s'' r' _ hat'
      refine ⟨?_, hat'⟩
      rw [Corr.weaken_raw h hat']
    · obtain ⟨ihN, ihL, ihS, ihD, ihE⟩ := ih k
      intro m s bs h
      rw [Scanner.dictLoopK, pEntriesK]
      cases bs with
      | nil =>
        rw [if_neg (by simp [h.weak.finished]), if_pos (by simp)]
        exact ⟨rfl, h⟩
      | cons b bs =>
        by_cases h1 : b = 101
        · subst h1
          rw [if_neg (by simp [h.weak.peek_cons]), if_pos (by simp)]
          exact ⟨rfl, h⟩
        · rw [if_pos (by simp [h.weak.peek_cons, h.weak.finished, h1]), if_neg (by simpa using h1)]
          · refine (readString_at h.weak).bind ?_
            intro k s' r _ hat
            refine (ihN _ _ hat).bind ?_
            intro v s'' r' _ hat'
            exact ihE _ _ _ hat'

theorem parseStack_eq (k : Nat) (data : Bytes) :
    parseStack k data = if data = [] then .err "bencode: no data"
      else (pNextK (parseFuel data) k data).bind fun (v, _) => .ok v := by
  unfold parseStack
  cases data with
  | nil => simp [Scanner.new, Scanner.isFinished]
  | cons b bs =>
    have hat : At (b :: bs) (Scanner.new (b :: bs)) (b :: bs) := by
      constructor <;> simp [Scanner.new]
    have hf : (Scanner.new (b :: bs)).isFinished = false := by
      simp [Scanner.new, Scanner.isFinished]
    have := (parserK_corr (b :: bs) (parseFuel (b :: bs)) k).1 _ _ hat
    simp only [hf, Bool.false_eq_true, if_false]
    rw [if_neg (by simp)]
    revert this
    generalize Scanner.nextK (parseFuel (b :: bs)) k (Scanner.new (b :: bs)) = x
    generalize pNextK (parseFuel (b :: bs)) k (b :: bs) = y
    intro h
    cases x <;> cases y <;> simp_all [Corr, PRes.bind]

/-! ### The stack suffices or overflows -/

/-- The same outcome, or the overflow. -/
def OrOver {α : Type} (x y : PRes α) : Prop := x = .panic stackOverflow ∨ x = y

theorem OrOver.bind {α β : Type} {x y : PRes α} {f g : α → PRes β} (h : OrOver x y) (hf : ∀ a, OrOver (f a) (g a)) :
    OrOver (x.bind f) (y.bind g) := by
  rcases h with rfl | rfl
  · left; rfl
  · cases x with
    | ok a => exact hf a
    | err e => right; rfl
    | panic w => right; rfl
    | outOfFuel => right; rfl

theorem OrOver.same {α : Type} (x : PRes α) : OrOver x x := .inr rfl

theorem agree : ∀ f k : Nat,
    (∀ bs, OrOver (pNextK f k bs) (pNext f bs)) ∧ (∀ bs, OrOver (pListK f k bs) (pList f bs)) ∧
    (∀ bs, OrOver (pSeqK f k bs) (pSeq f bs)) ∧ (∀ bs, OrOver (pDictK f k bs) (pDict f bs)) ∧
    (∀ m bs, OrOver (pEntriesK f k m bs) (pEntries f m bs)) := by
  intro f
  induction f with
  | zero =>
    intro k
    refine ⟨?_, ?_, ?_, ?_, ?_⟩ <;> intros <;>
      simp [OrOver, pNextK, pListK, pSeqK, pDictK, pEntriesK, pNext, pList, pSeq, pDict, pEntries]
  | succ f ih =>
    intro k
    obtain ⟨ihN, ihL, ihS, ihD, ihE⟩ := ih k
    refine ⟨?_, ?_, ?_, ?_, ?_⟩
    · intro bs
      cases k with
      | zero => left; rw [pNextK]
      | succ k =>
        obtain ⟨_, ihL, _, ihD, _⟩ := ih k
        rw [pNextK, pNext]
        split
        · exact ihL _
        · split
          · exact ihD _
          · split
            · exact .same _
            · exact .same _
    · intro bs; rw [pListK, pList]; exact (ihS _).bind fun _ => .same _
    · intro bs; rw [pSeqK, pSeq]
      split
      · exact .same _
      · exact (ihN _).bind fun _ => (ihS _).bind fun _ => .same _
    · intro bs; rw [pDictK, pDict]; exact (ihE _ _).bind fun _ => .same _
    · intro m bs; rw [pEntriesK, pEntries]
      split
      · exact .same _
      · exact (OrOver.same _).bind fun _ => (ihN _).bind fun _ => ihE _ _

theorem pStr_not_over (bs : Bytes) : pStr bs ≠ .panic stackOverflow := by
  unfold pStr
  split
  · dsimp only
    split
    · simp
    · split
      · simp [stackOverflow]
      · simp
  · simp

theorem nextK_ok {f k : Nat} {bs r : Bytes} {v : Bencode} (h : pNextK f k bs = .ok (v, r)) : ∃ b, bs = b ++ r ∧ Denotes b v := by
  rcases (agree f k).1 bs with e | e
  · rw [e] at h; cases h
  · exact pNext_sound (e ▸ h)

theorem over_deep : ∀ f k : Nat,
    (∀ bs, pNextK f k bs = .panic stackOverflow → Deep k bs) ∧
    (∀ c bs, c = 108 → pListK f k (c :: bs) = .panic stackOverflow → Deep (k + 1) (c :: bs)) ∧
    (∀ bs, pSeqK f k bs = .panic stackOverflow →
      ∃ p x, bs = p ++ x ∧ (∃ vs, DenotesSeq p vs) ∧ x ≠ [] ∧ x.head? ≠ some 101 ∧ Deep k x) ∧
    (∀ c bs, c = 100 → pDictK f k (c :: bs) = .panic stackOverflow → Deep (k + 1) (c :: bs)) ∧
    (∀ m bs, pEntriesK f k m bs = .panic stackOverflow → ∃ p es kb key y, bs = p ++ (kb ++ y) ∧ DenotesEntries p es ∧
        Denotes kb (.str key) ∧ Deep k y) := by
  intro f
  induction f with
  | zero => intro k; simp [pNextK, pListK, pSeqK, pDictK, pEntriesK]
  | succ f ih =>
    intro k
    obtain ⟨ihN, ihL, ihS, ihD, ihE⟩ := ih k
    refine ⟨?_, ?_, ?_, ?_, ?_⟩
    · intro bs h
      cases k with
      | zero => exact .here _
      | succ k =>
        obtain ⟨_, ihL, _, ihD, _⟩ := ih k
        rw [pNextK] at h
        split at h
        · rename_i hh; rw [head?_tail hh] at h ⊢; exact ihL _ _ rfl h
        · split at h
          · rename_i hh; rw [head?_tail hh] at h ⊢; exact ihD _ _ rfl h
          · split at h
            · unfold pInt at h
              rcases PRes.bind_panic h with h | ⟨_, _, h⟩
              · exact absurd h (pEnd_not_panic _ _)
              · simp at h
            · rcases PRes.bind_panic h with h | ⟨_, _, h⟩
              · exact absurd h (pStr_not_over _)
              · simp at h
    · intro c bs hc h
      subst hc
      rw [pListK] at h
      rcases PRes.bind_panic h with h | ⟨⟨vs, r⟩, _, h⟩
      · obtain ⟨p, x, hb, ⟨vs, hd⟩, h1, h2, hx⟩ := ihS _ h
        simp only [List.tail_cons] at hb
        subst hb
        exact .list p vs x hd h1 h2 hx
      · rcases PRes.bind_panic h with h | ⟨_, _, h⟩
        · exact absurd h (pEnd_not_panic _ _)
        · simp at h
    · intro bs h
      rw [pSeqK] at h
      split at h
      · simp at h
      · rename_i hne
        rcases PRes.bind_panic h with h | ⟨⟨v, r⟩, h1, h⟩
        · exact ⟨[], bs, by simp, ⟨[], .nil⟩, fun e => hne (.inl e), fun e => hne (.inr e), ihN _ h⟩
        · rcases PRes.bind_panic h with h | ⟨_, _, h⟩
          · obtain ⟨b, hb, hd⟩ := nextK_ok h1
            obtain ⟨p, x, hp, ⟨vs, hd'⟩, hx⟩ := ihS _ h
            refine ⟨b ++ p, x, ?_, ⟨v :: vs, .cons _ _ _ _ hd hd'⟩, hx⟩
            rw [hb, hp, List.append_assoc]
          · simp at h
    · intro c bs hc h
      subst hc
      rw [pDictK] at h
      rcases PRes.bind_panic h with h | ⟨⟨vs, r⟩, _, h⟩
      · obtain ⟨p, es, kb, key, y, hb, hd, hk, hy⟩ := ihE _ _ h
        simp only [List.tail_cons] at hb
        subst hb
        exact .val p es kb key y hd hk hy
      · rcases PRes.bind_panic h with h | ⟨_, _, h⟩
        · exact absurd h (pEnd_not_panic _ _)
        · simp at h
    · intro m bs h
      rw [pEntriesK] at h
      split at h
      · simp at h
      · rcases PRes.bind_panic h with h | ⟨⟨key, r⟩, h1, h⟩
        · exact absurd h (pStr_not_over _)
        · obtain ⟨kb, hb, hk⟩ := pStr_sound h1
          rcases PRes.bind_panic h with h | ⟨⟨v, r'⟩, h2, h⟩
          · exact ⟨[], [], kb, key, r, hb, .nil, hk, ihN _ h⟩
          · obtain ⟨vb, hvb, hv⟩ := nextK_ok h2
            obtain ⟨p, es, kb', key', y, hp, hd, hx⟩ := ihE _ _ h
            refine ⟨kb ++ (vb ++ p), (key, v) :: es, kb', key', y, ?_, .cons _ _ _ _ _ _ hk hv hd, hx⟩
            rw [hb, hvb, hp]; simp

theorem pSeqK_prefix {k : Nat} {p : Bytes} {vs} (h : DenotesSeq p vs) {x : Bytes} (hx : ¬ (x = [] ∨ x.head? = some 101))
    (n : Nat) : ∀ f, 3 * p.length + n + 1 ≤ f → (∀ g, n ≤ g → pNextK g k x = .panic stackOverflow) →
    pSeqK f k (p ++ x) = .panic stackOverflow := by
  induction vs generalizing p with
  | nil =>
    cases h
    intro f hf hg
    obtain ⟨f, rfl⟩ : ∃ g, f = g + 1 := ⟨f - 1, by omega⟩
    simp only [List.nil_append]
    rw [pSeqK, if_neg hx, hg f (by simp at hf; omega)]; rfl
  | cons v vs ih =>
    cases h with
    | cons b bs _ _ hv hs =>
      intro f hf hg
      obtain ⟨f, rfl⟩ : ∃ g, f = g + 1 := ⟨f - 1, by omega⟩
      have hp := hv.pos
      simp only [List.length_append] at hf
      rw [List.append_assoc, pSeqK, if_neg (hv.head _)]
      rcases (agree f k).1 (b ++ (bs ++ x)) with e | e
      · rw [e]; rfl
      · rw [e, complete_next hv f (by omega)]
        simp only [PRes.bind]
        rw [ih hs f (by omega) hg]

theorem pEntriesK_prefix {k : Nat} {p : Bytes} {es} (h : DenotesEntries p es) {x : Bytes} (n : Nat) :
    ∀ f m, 3 * p.length + n ≤ f → (∀ g m, n ≤ g → pEntriesK g k m x = .panic stackOverflow) →
    pEntriesK f k m (p ++ x) = .panic stackOverflow := by
  induction es generalizing p with
  | nil =>
    cases h
    intro f m hf hg
    simp only [List.nil_append]
    exact hg f m (by simp at hf; omega)
  | cons e es ih =>
    cases h with
    | cons kb vb bs key v _ hk hv hs =>
      intro f m hf hg
      have hp := hv.pos
      have hp' := hk.pos
      simp only [List.length_append] at hf
      obtain ⟨f, rfl⟩ : ∃ g, f = g + 1 := ⟨f - 1, by omega⟩
      rw [List.append_assoc, pEntriesK, if_neg (hk.head _), pStr_complete hk]
      simp only [PRes.bind]
      rw [List.append_assoc]
      rcases (agree f k).1 (vb ++ (bs ++ x)) with e | e
      · rw [e]
      · rw [e, complete_next hv f (by omega)]
        simp only []
        rw [ih hs f _ (by omega) hg]

theorem deep_over {k : Nat} {x : Bytes} (h : Deep k x) : ∀ f, 3 * x.length + 1 ≤ f → pNextK f k x = .panic stackOverflow := by
  induction h with
  | here x =>
    intro f hf
    obtain ⟨f, rfl⟩ : ∃ g, f = g + 1 := ⟨f - 1, by omega⟩
    rw [pNextK]
  | list p vs y hp h1 h2 hy ih =>
    intro f hf
    obtain ⟨f, rfl⟩ : ∃ g, f = g + 2 := ⟨f - 2, by simp at hf; omega⟩
    rw [pNextK, if_pos (by simp), pListK]
    simp only [List.tail_cons, List.length_cons, List.length_append] at hf ⊢
    rw [pSeqK_prefix hp (by exact fun h => h.elim h1 h2) (3 * y.length + 1) f (by omega) ih]; rfl
  | val p es kb key y hp hk hy ih =>
    intro f hf
    obtain ⟨f, rfl⟩ : ∃ g, f = g + 2 := ⟨f - 2, by simp at hf; omega⟩
    rw [pNextK, if_neg (by simp), if_pos (by simp), pDictK]
    simp only [List.tail_cons, List.length_cons, List.length_append] at hf ⊢
    have := hk.pos
    rw [pEntriesK_prefix hp (3 * y.length + 2) f [] (by omega)]
    · rfl
    · intro g m hg
      obtain ⟨g, rfl⟩ : ∃ k, g = k + 1 := ⟨g - 1, by omega⟩
      rw [pEntriesK, if_neg (hk.head _), pStr_complete hk]
      simp only [PRes.bind]
      rw [ih g (by omega)]

/-- C125: with room for `k` nested calls, the parser dies of a stack overflow exactly on the texts in which an element has to
be read while `k` containers are open; on every other text the stack makes no difference. -/
theorem C125_exact_partial (k : Nat) (data : Bytes) :
    (parseStack k data = .panic stackOverflow ↔ data ≠ [] ∧ Deep k data) ∧
    (¬ (data ≠ [] ∧ Deep k data) → parseStack k data = parse data) := by
  have key : parseStack k data = .panic stackOverflow ↔ data ≠ [] ∧ Deep k data := by
    rw [parseStack_eq]
    constructor
    · intro h
      split at h
      · simp at h
      · rename_i hne
        rcases PRes.bind_panic h with h | ⟨_, _, h⟩
        · exact ⟨hne, (over_deep _ _).1 _ h⟩
        · simp at h
    · rintro ⟨h1, h2⟩
      rw [if_neg h1, deep_over h2 _ (by simp only [parseFuel]; omega)]; rfl
  refine ⟨key, fun hn => ?_⟩
  have hno := fun h => hn (key.1 h)
  rw [parseStack_eq] at hno ⊢
  rw [parse_eq]
  split
  · rfl
  · rename_i hne
    rw [if_neg hne] at hno
    rcases (agree (parseFuel data) k).1 data with e | e
    · rw [e] at hno; exact absurd rfl hno
    · rw [e]

theorem Deep.le {k : Nat} {x : Bytes} (h : Deep k x) : k ≤ x.length := by
  induction h with
  | here x => omega
  | list p vs y _ _ _ _ ih => simp only [List.length_cons, List.length_append]; omega
  | val p es kb key y _ _ _ ih => simp only [List.length_cons, List.length_append]; omega

/-- C125: room for one call more than the text has bytes is enough. Missing: a room that is enough for all texts. -/
theorem C125_bytes_partial (k : Nat) (data : Bytes) (h : data.length < k) : parseStack k data = parse data :=
  (C125_exact_partial k data).2 fun hd => by have := Deep.le hd.2; omega

theorem nested_succ (n : Nat) : nested (n + 1) = 108 :: (nested n ++ [101]) := by
  have : List.replicate (n + 1) (101 : UInt8) = List.replicate n 101 ++ [101] := List.replicate_succ'
  simp only [nested, this, List.replicate_succ, List.cons_append, List.append_assoc]

theorem nested_denotes : ∀ n, ∃ v, Denotes (nested (n + 1)) v
  | 0 => ⟨_, .list [] [] .nil⟩
  | n + 1 => by
    obtain ⟨v, hv⟩ := nested_denotes n
    have := Denotes.list _ _ (.cons _ _ _ _ hv .nil)
    rw [nested_succ]
    exact ⟨_, by simpa using this⟩

theorem nested_deep (n : Nat) (r : Bytes) : Deep n (nested (n + 1) ++ r) := by
  induction n generalizing r with
  | zero => exact .here _
  | succ n ih =>
    have := Deep.list (k := n) [] [] (nested (n + 1) ++ ([101] ++ r)) .nil (by rw [nested_succ]; simp)
      (by rw [nested_succ]; simp) (ih _)
    rw [nested_succ]
    simpa using this

/-- C125 fails: whatever room there is, some document of `2k + 2` bytes that parses without the limit kills the program. -/
theorem C125_violated (k : Nat) : ∃ data v, data.length = 2 * k + 2 ∧ parse data = .ok v ∧ Denotes data v ∧
    parseStack k data = .panic stackOverflow := by
  obtain ⟨v, hv⟩ := nested_denotes k
  refine ⟨nested (k + 1), v, ?_, ?_, hv, ?_⟩
  · simp [nested]; omega
  · simpa using parse_complete hv []
  · exact (C125_exact_partial _ _).1.2 ⟨hv.ne_nil, by simpa using nested_deep k []⟩

/-- C125: nor does the text have to be complete: `k + 1` times the letter `l` are enough. -/
theorem C125_open_violated (k : Nat) : parseStack k (List.replicate (k + 1) 108) = .panic stackOverflow := by
  refine (C125_exact_partial _ _).1.2 ⟨by simp [List.replicate_succ], ?_⟩
  induction k with
  | zero => exact .here _
  | succ k ih =>
    have := Deep.list [] [] _ .nil (by simp [List.replicate_succ]) (by simp [List.replicate_succ]) ih
    simpa [List.replicate_succ] using this

example : (match parseStack 2 (ascii "lle") with | .err e => e == "element not ended with 'e'" | _ => false) = true := by
  decide +kernel
example : (match parseStack 2 (ascii "d1:ali5eee") with | .panic w => w == stackOverflow | _ => false) = true := by decide +kernel
example : (match parseStack 3 (ascii "d1:ali5eee") with | .ok _ => true | _ => false) = true := by decide +kernel

end Gotit.Props
