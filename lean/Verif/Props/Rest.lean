import Verif.Model.Rest
import Verif.Spec.Rest
import Verif.Props.Describe
import Verif.Props.Reencode
import Verif.Props.Paths
import Verif.Props.Torrent
import Verif.Props.Writer
/-
  C129: the text of a piece; C130: the string set; C131: closing the files.
-/
namespace Gotit.Props
open Gotit Spec

/-! ## C129 -/

theorem takeWhile_digits (n : Nat) (rest : Bytes) : (natDigits n ++ 58 :: rest).takeWhile (· ≠ 58) = natDigits n ∧
    (natDigits n ++ 58 :: rest).dropWhile (· ≠ 58) = 58 :: rest := by
  have h : ∀ ds : Bytes, IsDigits ds → (ds ++ 58 :: rest).takeWhile (· ≠ 58) = ds ∧ (ds ++ 58 :: rest).dropWhile (· ≠ 58) = 58 :: rest := by
    intro ds
    induction ds with
    | nil => intro _; simp
    | cons d ds ih =>
      intro hd
      have h1 := hd d (by simp)
      have h2 := ih (fun x hx => hd x (by simp [hx]))
      have hne : d ≠ 58 := by intro e; subst e; simp at h1
      simp only [List.cons_append, List.takeWhile_cons, List.dropWhile_cons, hne, ne_eq, not_false_eq_true, decide_true, if_true]
      exact ⟨by rw [h2.1], h2.2⟩
  exact h _ (natDigits_spec n).1

/-- C129: index and hash of a piece can be read from its text. -/
theorem C129_text (p : Piece) : readPieceText p.string = some (p.getIndex, p.sha1) := by
  have e : p.string = 91 :: (natDigits p.index ++ 58 :: (base64Url p.sha1 ++ [93])) := by
    simp only [Piece.string, itoa_nat]
    have h1 : ascii "[" = [91] := by decide
    have h2 : ascii ":" = [58] := by decide
    have h3 : ascii "]" = [93] := by decide
    rw [h1, h2, h3]; simp
  obtain ⟨h1, h2⟩ := takeWhile_digits p.index (base64Url p.sha1 ++ [93])
  rw [e]
  simp only [readPieceText]
  rw [h2]
  simp only [List.getLast?_append, List.getLast?_singleton, Option.some_or, if_pos, List.dropLast_concat]
  rw [base64_decode, h1, (natDigits_spec _).2]
  rfl

/-- C129: different pieces have different texts. -/
theorem C129_different (p q : Piece) (h : p.string = q.string) : p = q := by
  have hp := C129_text p
  rw [h, C129_text q] at hp
  simp only [Option.some.injEq, Prod.mk.injEq, Piece.getIndex] at hp
  cases p; cases q
  simp_all

/-- C129: piece `i` of a torrent is shown with the number `i` and the bytes 20i to 20i+19 of `pieces`. -/
theorem C129_pieces (bs : Bytes) (ps : List Piece) (h : newPieces bs = .ok ps) (i : Nat) (p : Piece) (hp : ps[i]? = some p) :
    readPieceText p.string = some (i, (bs.drop (20 * i)).take 20) := by
  obtain ⟨_, h2, _⟩ := C35_table bs ps h
  have hi : i < ps.length := by
    apply Classical.byContradiction
    intro hn
    rw [List.getElem?_eq_none (by omega)] at hp
    simp at hp
  obtain ⟨q, k1, k2, k3, _⟩ := h2 i hi
  rw [hp, Option.some.injEq] at k1
  subst k1
  rw [C129_text, Piece.getIndex, k2, k3]

example : Piece.string ⟨7, [0, 16, 131]⟩ = ascii "[7:ABCD]" := by decide +kernel

/-! ## C130 -/

theorem entered_cons (x : Bytes) (op : SetOp) (ops : List SetOp) : Entered x (op :: ops) ↔ Entered x [op] ∨ Entered x ops := by
  simp only [Entered, List.mem_cons, List.not_mem_nil, or_false]
  constructor
  · rintro ((h | h) | ⟨xs, (h | h), hx⟩)
    · exact .inl (.inl h)
    · exact .inr (.inl h)
    · exact .inl (.inr ⟨xs, h, hx⟩)
    · exact .inr (.inr ⟨xs, h, hx⟩)
  · rintro ((h | ⟨xs, h, hx⟩) | (h | ⟨xs, h, hx⟩))
    · exact .inl (.inl h)
    · exact .inr ⟨xs, .inl h, hx⟩
    · exact .inl (.inr h)
    · exact .inr ⟨xs, .inr h, hx⟩

theorem call_mem (s : StringSet) (hs : s.Nodup) (op : SetOp) : (s.call op).1.Nodup ∧ ∀ x, x ∈ (s.call op).1 ↔ x ∈ s ∨ Entered x [op] := by
  cases op with
  | add y =>
    refine ⟨add_nodup s y hs, ?_⟩
    intro x
    simp only [StringSet.call, Entered, List.mem_singleton, SetOp.add.injEq, reduceCtorEq, false_and, exists_false, or_false]
    exact add_mem s y x
  | addAll ys =>
    obtain ⟨h1, h2⟩ := C48_addAll s ys hs
    refine ⟨h1, ?_⟩
    intro x
    simp only [StringSet.call, Entered, List.mem_singleton, SetOp.addAll.injEq, reduceCtorEq, false_or]
    rw [h2]
    constructor
    · rintro (h | h)
      · exact .inl h
      · exact .inr ⟨ys, rfl, h⟩
    · rintro (h | ⟨xs, rfl, h⟩)
      · exact .inl h
      · exact .inr h
  | contains y =>
    refine ⟨hs, ?_⟩
    intro x
    simp [StringSet.call, Entered]

theorem calls_from (ops : List SetOp) : ∀ (s : StringSet), s.Nodup → ∀ (pre post : List SetOp) (op : SetOp), ops = pre ++ op :: post →
    (∀ x, op = .contains x → ∃ b, (s.calls ops)[pre.length]? = some (some b) ∧ (b = true ↔ x ∈ s ∨ Entered x pre)) ∧
    (∀ x, op = .add x → ∃ b, (s.calls ops)[pre.length]? = some (some b) ∧ (b = true ↔ ¬ (x ∈ s ∨ Entered x pre))) := by
  induction ops with
  | nil => intro s _ pre post op h; simp at h
  | cons o ops ih =>
    intro s hs pre post op h
    cases pre with
    | nil =>
      simp only [List.nil_append, List.cons.injEq] at h
      obtain ⟨rfl, rfl⟩ := h
      have hn : ∀ x, ¬ Entered x [] := by intro x; simp [Entered]
      refine ⟨?_, ?_⟩
      · rintro x rfl
        refine ⟨_, rfl, ?_⟩
        simp [StringSet.has, hn]
      · rintro x rfl
        refine ⟨_, rfl, ?_⟩
        rw [C48_add_reports]
        simp [hn]
    | cons o' pre =>
      simp only [List.cons_append, List.cons.injEq] at h
      obtain ⟨rfl, rfl⟩ := h
      obtain ⟨h1, h2⟩ := call_mem s hs o
      obtain ⟨k1, k2⟩ := ih _ h1 pre post op rfl
      refine ⟨?_, ?_⟩
      · intro x hx
        obtain ⟨b, g1, g2⟩ := k1 x hx
        refine ⟨b, by simpa [StringSet.calls] using g1, ?_⟩
        rw [g2, h2, entered_cons x o pre, or_assoc]
      · intro x hx
        obtain ⟨b, g1, g2⟩ := k2 x hx
        refine ⟨b, by simpa [StringSet.calls] using g1, ?_⟩
        rw [g2, h2, entered_cons x o pre, or_assoc]

/-- C130: in any sequence of calls on a new set, `Contains` says whether the string was put in before, and `Add` says whether it was not. -/
theorem C130_set (pre post : List SetOp) (x : Bytes) :
    (∃ b, (StringSet.calls [] (pre ++ .contains x :: post))[pre.length]? = some (some b) ∧ (b = true ↔ Entered x pre)) ∧
    (∃ b, (StringSet.calls [] (pre ++ .add x :: post))[pre.length]? = some (some b) ∧ (b = true ↔ ¬ Entered x pre)) := by
  refine ⟨?_, ?_⟩
  · obtain ⟨b, h1, h2⟩ := (calls_from _ [] List.nodup_nil pre post _ rfl).1 x rfl
    exact ⟨b, h1, by simpa using h2⟩
  · obtain ⟨b, h1, h2⟩ := (calls_from _ [] List.nodup_nil pre post _ rfl).2 x rfl
    exact ⟨b, h1, by simpa using h2⟩

example : StringSet.calls [] [.add [1], .contains [1], .contains [2], .addAll [[2], [1]], .add [2], .contains [2]] =
    [some true, some true, some false, none, some false, some true] := by decide

/-! ## C131 -/

/-- C131: `Close` closes every file of the torrent, once, in order, whatever the others do, and its error holds the errors of exactly the files
that could not be closed; there is none if and only if all could. -/
theorem C131_close (closeFile : Bytes → Option String) (t : Torrent) :
    (t.close closeFile).2 = t.osFiles ∧ (t.close closeFile).1 = t.osFiles.filterMap closeFile ∧
    ((t.close closeFile).1 = [] ↔ ∀ f ∈ t.osFiles, closeFile f = none) := by
  have h : ∀ (fs : List Bytes) (es : List String) (cs : List Bytes),
      fs.foldl (fun acc f => (multierrAppend acc.1 (closeFile f).toList, acc.2 ++ [f])) (es, cs) = (es ++ fs.filterMap closeFile, cs ++ fs) := by
    intro fs
    induction fs with
    | nil => intro es cs; simp
    | cons f fs ih =>
      intro es cs
      rw [List.foldl_cons, ih]
      cases hf : closeFile f <;> simp [multierrAppend, hf]
  unfold Torrent.close
  rw [h]
  refine ⟨by simp, by simp, ?_⟩
  simp [List.filterMap_eq_nil_iff]

/-- Two files, the first of which cannot be closed. -/
example : ({ tiny with osFiles := [[97], [98]] } : Torrent).close (fun f => if f = [97] then some "input/output error" else none) =
    (["input/output error"], [[97], [98]]) := by decide +kernel

end Gotit.Props
