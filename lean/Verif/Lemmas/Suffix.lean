import Verif.Model.Parse
import Verif.Lemmas.Num
/-
  A parser on the remaining input, and the proof that the index-based scanner of `Model/Parse.lean`
  behaves exactly like it.
-/
namespace Gotit
open Spec

def goNum (ds : Bytes) : Int := (numAcc 0 ds).tdiv 10

def pStr (bs : Bytes) : PRes (Bytes × Bytes) :=
  if (bs.dropWhile digitB).head? = some 58 then
    let rest := (bs.dropWhile digitB).tail
    let len := goNum (bs.takeWhile digitB)
    if len > rest.length then .err "string length invalid"
    else if len < 0 then .panic "slice bounds out of range"
    else .ok (rest.take len.toNat, rest.drop len.toNat)
  else .err "missing ':' in string element"

def pEnd (bs : Bytes) : PRes Bytes :=
  match bs with
  | 101 :: rest => .ok rest
  | _ => .err "element not ended with 'e'"

def pInt (bs : Bytes) : PRes (Bencode × Bytes) :=
  (pEnd (bs.dropWhile digitB)).bind fun rest => .ok (.int (goNum (bs.takeWhile digitB)), rest)

mutual
def pNext : Nat → Bytes → PRes (Bencode × Bytes)
  | 0, _ => .outOfFuel
  | f + 1, bs =>
    if bs.head? = some 108 then pList f bs
    else if bs.head? = some 100 then pDict f bs
    else if bs.head? = some 105 then pInt bs.tail
    else (pStr bs).bind fun (v, r) => .ok (.str v, r)
def pList : Nat → Bytes → PRes (Bencode × Bytes)
  | 0, _ => .outOfFuel
  | f + 1, bs =>
    (pSeq f bs.tail).bind fun (vs, r) =>
      (pEnd r).bind fun r => .ok (.list true vs (bs.take (bs.length - r.length)), r)
def pSeq : Nat → Bytes → PRes (List Bencode × Bytes)
  | 0, _ => .outOfFuel
  | f + 1, bs =>
    if bs = [] ∨ bs.head? = some 101 then .ok ([], bs)
    else
      (pNext f bs).bind fun (v, r) =>
      (pSeq f r).bind fun (vs, r) => .ok (v :: vs, r)
def pDict : Nat → Bytes → PRes (Bencode × Bytes)
  | 0, _ => .outOfFuel
  | f + 1, bs =>
    (pEntries f [] bs.tail).bind fun (kvs, r) =>
      (pEnd r).bind fun r => .ok (.dict true kvs (bs.take (bs.length - r.length)), r)
def pEntries : Nat → List (Bytes × Bencode) → Bytes → PRes (List (Bytes × Bencode) × Bytes)
  | 0, _, _ => .outOfFuel
  | f + 1, m, bs =>
    if bs = [] ∨ bs.head? = some 101 then .ok (m, bs)
    else
      (pStr bs).bind fun (k, r) =>
      (pNext f r).bind fun (v, r) =>
      pEntries f (upsert k v m) r
end

/-- The scanner stands at the beginning of `rest`, with nothing pending. -/
structure At (data : Bytes) (s : Scanner) (rest : Bytes) : Prop where
  dat : s.bencode = data
  pos : s.start = s.current
  drop : data.drop s.current = rest
  le : s.current ≤ data.length

/-- Same, but `start` may lag behind. -/
structure At' (data : Bytes) (s : Scanner) (rest : Bytes) : Prop where
  dat : s.bencode = data
  drop : data.drop s.current = rest
  le : s.current ≤ data.length

theorem At.weak {data s rest} (h : At data s rest) : At' data s rest := ⟨h.dat, h.drop, h.le⟩
theorem At'.position {data s rest} (h : At' data s rest) : At data s.position rest :=
  ⟨h.dat, rfl, h.drop, h.le⟩

theorem At'.len {data s rest} (h : At' data s rest) : s.current + rest.length = data.length := by
  have := h.drop; have := h.le; subst rest; simp; omega

theorem At'.finished {data s rest} (h : At' data s rest) : s.isFinished = rest.isEmpty := by
  have := h.len
  simp only [Scanner.isFinished, h.dat]
  cases rest with
  | nil => simp at this ⊢; omega
  | cons a r => simp at this ⊢; omega

theorem At'.peek_nil {data s} (h : At' data s []) : s.peek = 0 := by
  simp [Scanner.peek, h.finished]

theorem At'.peek_cons {data s a r} (h : At' data s (a :: r)) : s.peek = a := by
  simp only [Scanner.peek, h.finished, h.dat]
  have := congrArg List.head? h.drop
  simp [List.head?_drop] at this
  simp [List.getD, this]

theorem At'.advance {data s a r} (h : At' data s (a :: r)) : At' data s.advance r := by
  have hl := h.len
  refine ⟨h.dat, ?_, ?_⟩
  · have := congrArg List.tail h.drop
    simpa [Scanner.advance, List.tail_drop] using this
  · simp [Scanner.advance] at *; omega

theorem numberLoop_at {data : Bytes} (rest : Bytes) : ∀ (s : Scanner) (n : Int), At' data s rest →
    (s.numberLoop n).1 = numAcc n (rest.takeWhile digitB) ∧
    At' data (s.numberLoop n).2 (rest.dropWhile digitB) := by
  induction rest with
  | nil =>
    intro s n h
    rw [Scanner.numberLoop]
    have : ¬ s.current < s.bencode.length := by
      have := h.len; simp at this; rw [h.dat]; omega
    simp only [this, false_and, if_false]
    exact ⟨by simp [numAcc], by simpa using h⟩
  | cons a r ih =>
    intro s n h
    rw [Scanner.numberLoop]
    have hc : s.current < s.bencode.length := by
      have := h.len; simp at this; rw [h.dat]; omega
    simp only [hc, true_and, Scanner.isDigit, h.peek_cons]
    by_cases hd : digitB a = true
    · have hd' : (48 ≤ a && a ≤ 57) = true := hd
      simp only [hd', if_true]
      have := ih s.advance (wrap64 (wrap64 (n + ((a - 48).toNat : Int)) * 10)) h.advance
      simp only [List.takeWhile_cons, List.dropWhile_cons, hd, if_true, numAcc, List.foldl_cons]
      exact this
    · have hd' : ¬ (48 ≤ a && a ≤ 57) = true := hd
      simp only [hd', if_false, List.takeWhile_cons, List.dropWhile_cons, hd]
      exact ⟨by simp [numAcc], h⟩

theorem number_at {data : Bytes} {s : Scanner} {rest : Bytes} (h : At' data s rest) :
    s.number.1 = goNum (rest.takeWhile digitB) ∧ At data s.number.2 (rest.dropWhile digitB) := by
  have := numberLoop_at rest s 0 h
  exact ⟨by simp [Scanner.number, goNum, this.1], this.2.position⟩

theorem matchByte_at {data : Bytes} {s : Scanner} {rest : Bytes} (h : At' data s rest) (r : UInt8) (hr : r ≠ 0) :
    (∃ rest', rest = r :: rest' ∧ (s.matchByte r).1 = true ∧ At data (s.matchByte r).2 rest') ∨
    (rest.head? ≠ some r ∧ (s.matchByte r).1 = false) := by
  cases rest with
  | nil => right; simp [Scanner.matchByte, h.peek_nil, hr.symm]
  | cons a t =>
    by_cases e : a = r
    · subst e
      left; refine ⟨t, rfl, ?_, ?_⟩
      · simp [Scanner.matchByte, h.peek_cons]
      · simp only [Scanner.matchByte, h.peek_cons, if_true]; exact h.advance.position
    · right; simp [Scanner.matchByte, h.peek_cons, e]

/-- Corresponding outcomes of scanner and suffix parser. -/
def Corr {α : Type} (data : Bytes) : PRes (α × Scanner) → PRes (α × Bytes) → Prop
  | .ok (a, s), .ok (b, r) => a = b ∧ At data s r
  | .err e, .err e' => e = e'
  | .panic w, .panic w' => w = w'
  | .outOfFuel, .outOfFuel => True
  | _, _ => False

theorem Corr.bind {α β : Type} {data : Bytes} {x : PRes (α × Scanner)} {y : PRes (α × Bytes)}
    {f : α × Scanner → PRes (β × Scanner)} {g : α × Bytes → PRes (β × Bytes)}
    (h : Corr data x y) (hf : ∀ a s r, y = .ok (a, r) → At data s r → Corr data (f (a, s)) (g (a, r))) :
    Corr data (x.bind f) (y.bind g) := by
  cases x <;> cases y <;> simp_all [Corr, PRes.bind]
  rename_i a b
  obtain ⟨a, s⟩ := a; obtain ⟨b, r⟩ := b
  obtain ⟨rfl, h2⟩ := h
  exact hf _ _ _ rfl h2

theorem end_at {α : Type} {data : Bytes} {s : Scanner} {rest : Bytes} (h : At' data s rest)
    (k : Scanner → PRes (α × Scanner)) (k' : Bytes → PRes (α × Bytes))
    (hk : ∀ s r, rest = 101 :: r → At data s r → Corr data (k s) (k' r)) :
    Corr data (let (m, s) := s.matchByte 101
               if !m then .err "element not ended with 'e'" else k s)
      ((pEnd rest).bind k') := by
  rcases matchByte_at h 101 (by decide) with ⟨r, rfl, hm, hat⟩ | ⟨hne, hm⟩
  · simp only [hm, pEnd, PRes.bind]
    exact hk _ _ rfl hat
  · simp only [hm]
    have : pEnd rest = .err "element not ended with 'e'" := by
      unfold pEnd; split
      · simp at hne
      · rfl
    rw [this]; simp [PRes.bind, Corr]

theorem readInt_at {data : Bytes} {s : Scanner} {r : Bytes} (h : At data s (105 :: r)) :
    Corr data s.readInt (pInt r) := by
  have hn := number_at h.weak.advance.position.weak
  unfold Scanner.readInt pInt
  have := end_at hn.2.weak (fun s' => .ok (Bencode.int s.advance.position.number.1, s'))
    (fun rest => .ok (.int (goNum (r.takeWhile digitB)), rest))
    (by intro s' r' _ hat; exact ⟨by rw [hn.1], hat⟩)
  exact this

theorem readString_at {data : Bytes} {s : Scanner} {r : Bytes} (h : At' data s r) :
    Corr data s.readString (pStr r) := by
  have hn := number_at h
  unfold Scanner.readString pStr
  rcases matchByte_at hn.2.weak 58 (by decide) with ⟨r', hr', hm, hat⟩ | ⟨hne, hm⟩
  · simp only [hm, hr', List.head?_cons, List.tail_cons, if_true]
    have hl := hat.weak.len
    have hp := hat.pos
    generalize s.number.2.matchByte 58 = q at hm hat hl hp
    obtain ⟨m, s'⟩ := q
    simp only at hm hat hl hp ⊢
    subst hm
    rw [hn.1]
    simp only [Bool.not_true, Bool.false_eq_true, if_false, hat.dat]
    generalize goNum (List.takeWhile digitB r) = len
    by_cases h1 : len > r'.length
    · rw [if_pos (by omega), if_pos h1]; simp [Corr]
    · rw [if_neg (by omega), if_neg h1]
      by_cases h2 : len < 0
      · rw [if_pos (by omega), if_pos h2]; simp [Corr]
      · rw [if_neg (by omega), if_neg h2]
        have ec : ((s'.current : Int) + len).toNat = s'.current + len.toNat := by omega
        simp only [Corr, ec]
        refine ⟨?_, ?_, rfl, ?_, ?_⟩
        · simp only [Scanner.read]
          rw [hp, List.drop_take, hat.drop]
          congr 1; omega
        · rfl
        · simp only [Scanner.position]
          rw [← hat.drop, List.drop_drop]
        · simp only [Scanner.position]; omega
  · simp only [hm]
    rw [if_pos (by simp), if_neg hne]; simp [Corr]

theorem Corr.weaken_raw {data : Bytes} {s0 s1 : Scanner} {bs r : Bytes} (h0 : At data s0 bs) (h1 : At data s1 r) :
    ((s1.bencode.take s1.start).drop s0.start) = bs.take (bs.length - r.length) := by
  have l0 := h0.weak.len
  have l1 := h1.weak.len
  rw [h1.dat, h1.pos, h0.pos, List.drop_take, h0.drop]
  congr 1; omega

theorem parser_corr (data : Bytes) : ∀ f : Nat,
    (∀ s bs, At data s bs → Corr data (s.next f) (pNext f bs)) ∧
    (∀ s b bs, At data s (b :: bs) → Corr data (s.readList f) (pList f (b :: bs))) ∧
    (∀ s bs, At data s bs → Corr data (s.listLoop f) (pSeq f bs)) ∧
    (∀ s b bs, At data s (b :: bs) → Corr data (s.readDict f) (pDict f (b :: bs))) ∧
    (∀ m s bs, At data s bs → Corr data (s.dictLoop f m) (pEntries f m bs)) := by
  intro f
  induction f with
  | zero =>
    refine ⟨?_, ?_, ?_, ?_, ?_⟩ <;> intros <;>
      simp [Scanner.next, Scanner.readList, Scanner.listLoop, Scanner.readDict, Scanner.dictLoop,
        pNext, pList, pSeq, pDict, pEntries, Corr]
  | succ f ih =>
    obtain ⟨ihN, ihL, ihS, ihD, ihE⟩ := ih
    refine ⟨?_, ?_, ?_, ?_, ?_⟩
    · intro s bs h
      rw [Scanner.next, pNext]
      have hs : Corr data (s.readString.bind fun (v, s) => .ok (Bencode.str v, s))
          ((pStr bs).bind fun (v, r) => .ok (.str v, r)) :=
        (readString_at h.weak).bind (fun a s r _ hat => ⟨rfl, hat⟩)
      cases bs with
      | nil =>
        simp only [h.weak.peek_nil]
        rw [if_neg (by decide), if_neg (by decide), if_neg (by decide)]
        simpa using hs
      | cons b bs =>
        simp only [h.weak.peek_cons]
        by_cases h1 : b = 108
        · subst h1; simp only [List.head?_cons, if_true]; exact ihL _ _ _ h
        by_cases h2 : b = 100
        · subst h2; rw [if_neg (by decide), if_pos rfl, if_neg (by simp), if_pos (by simp)]; exact ihD _ _ _ h
        by_cases h3 : b = 105
        · subst h3; rw [if_neg (by decide), if_neg (by decide), if_pos rfl, if_neg (by simp), if_neg (by simp), if_pos (by simp)]; exact readInt_at h
        rw [if_neg h1, if_neg h2, if_neg h3, if_neg (by simpa using h1), if_neg (by simpa using h2),
          if_neg (by simpa using h3)]
        exact hs
    · intro s b bs h
      rw [Scanner.readList, pList]
      refine (ihS _ _ h.weak.advance.position).bind ?_
      intro vs s' r _ hat
      refine end_at hat.weak (fun s'' => .ok (Bencode.list true vs ((s''.bencode.take s''.start).drop s.start), s''))
        (fun r' => .ok (Bencode.list true vs ((b :: bs).take ((b :: bs).length - r'.length)), r')) ?_
      intro s'' r' _ hat'
      refine ⟨?_, hat'⟩
      rw [Corr.weaken_raw h hat']
    · intro s bs h
      rw [Scanner.listLoop, pSeq]
      cases bs with
      | nil =>
        rw [if_neg (by simp [h.weak.finished]), if_pos (by simp)]
        exact ⟨rfl, h⟩
      | cons b bs =>
        by_cases h1 : b = 101
        · subst h1
          rw [if_neg (by simp [h.weak.peek_cons]), if_pos (by simp)]
          exact ⟨rfl, h⟩
        · rw [if_pos (by simp [h.weak.peek_cons, h.weak.finished, h1]), if_neg (by simpa using h1)]
          · refine (ihN _ _ h.weak.position).bind ?_
            intro v s' r _ hat
            refine (ihS _ _ hat).bind ?_
            intro vs s'' r' _ hat'
            exact ⟨rfl, hat'⟩
    · intro s b bs h
      rw [Scanner.readDict, pDict]
      refine (ihE _ _ _ h.weak.advance.position).bind ?_
      intro vs s' r _ hat
      refine end_at hat.weak (fun s'' => .ok (Bencode.dict true vs ((s''.bencode.take s''.start).drop s.start), s''))
        (fun r' => .ok (Bencode.dict true vs ((b :: bs).take ((b :: bs).length - r'.length)), r')) ?_
      intro s'' r' _ hat'
      refine ⟨?_, hat'⟩
      rw [Corr.weaken_raw h hat']
    · intro m s bs h
      rw [Scanner.dictLoop, pEntries]
      cases bs with
      | nil =>
        rw [if_neg (by simp [h.weak.finished]), if_pos (by simp)]
        exact ⟨rfl, h⟩
      | cons b bs =>
        by_cases h1 : b = 101
        · subst h1
          rw [if_neg (by simp [h.weak.peek_cons]), if_pos (by simp)]
          exact ⟨rfl, h⟩
        · rw [if_pos (by simp [h.weak.peek_cons, h.weak.finished, h1]), if_neg (by simpa using h1)]
          · refine (readString_at h.weak).bind ?_
            intro k s' r _ hat
            refine (ihN _ _ hat).bind ?_
            intro v s'' r' _ hat'
            exact ihE _ _ _ hat'

end Gotit
