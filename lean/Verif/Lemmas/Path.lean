import Verif.Model.Path
import Verif.Spec.Path
namespace Gotit
open Spec

theorem splitSlash_ne_nil (a : Bytes) : splitSlash a ≠ [] := by
  cases a with
  | nil => simp [splitSlash]
  | cons c cs =>
    unfold splitSlash
    split
    · simp
    · split <;> simp

theorem splitSlash_append (a b : Bytes) : splitSlash (a ++ slash :: b) = splitSlash a ++ splitSlash b := by
  induction a with
  | nil => simp [splitSlash]
  | cons c cs ih =>
    rw [List.cons_append, splitSlash, splitSlash, ih]
    by_cases h : c = slash
    · simp [h]
    · simp only [h, if_false]
      cases hs : splitSlash cs with
      | nil => exact absurd hs (splitSlash_ne_nil cs)
      | cons x xs => simp

theorem splitSlash_plain (c : Bytes) (h : slash ∉ c) : splitSlash c = [c] := by
  induction c with
  | nil => rfl
  | cons a as ih =>
    simp only [List.mem_cons, not_or] at h
    rw [splitSlash, if_neg (fun e => h.1 e.symm), ih h.2]

theorem splitSlash_noslash (a : Bytes) : ∀ c ∈ splitSlash a, slash ∉ c := by
  induction a with
  | nil => simp [splitSlash]
  | cons x xs ih =>
    rw [splitSlash]
    by_cases h : x = slash
    · simp only [h, if_true, List.mem_cons]
      rintro c (rfl | hc)
      · simp
      · exact ih c hc
    · simp only [h, if_false]
      cases hs : splitSlash xs with
      | nil => exact absurd hs (splitSlash_ne_nil xs)
      | cons y ys =>
        rw [hs] at ih
        intro c hc
        rcases List.mem_cons.1 hc with rfl | hc
        · simp only [List.mem_cons, not_or]
          exact ⟨fun e => h e.symm, ih y (by simp)⟩
        · exact ih c (by simp [hc])

theorem splitSlash_join : ∀ es : List Bytes, es ≠ [] → (∀ c ∈ es, slash ∉ c) → splitSlash (joinSlash es) = es := by
  intro es
  induction es with
  | nil => intro h; exact absurd rfl h
  | cons c cs ih =>
    intro _ h
    cases cs with
    | nil => rw [joinSlash]; exact splitSlash_plain c (h c (by simp))
    | cons d ds =>
      rw [joinSlash, splitSlash_append, splitSlash_plain c (h c (by simp)), ih (by simp) (fun x hx => h x (by simp [hx]))]
      · rfl
      · simp

/-- Names collected by `enter` are plain. -/
theorem enter_plain (abs : Bool) (pl : Place) (c : Bytes) (hc : slash ∉ c) (h : ∀ n ∈ pl.names, PlainName n) :
    ∀ n ∈ (enter abs pl c).names, PlainName n := by
  unfold enter
  split
  · exact h
  · rename_i h1
    split
    · split
      · intro n hn; exact h n (List.dropLast_subset _ hn)
      · split <;> exact h
    · rename_i h2
      intro n hn
      simp only [List.mem_append, List.mem_singleton] at hn
      rcases hn with hn | rfl
      · exact h n hn
      · exact ⟨fun e => h1 (.inl e), fun e => h1 (.inr e), h2, hc⟩

theorem foldl_plain (abs : Bool) : ∀ (cs : List Bytes) (pl : Place), (∀ c ∈ cs, slash ∉ c) → (∀ n ∈ pl.names, PlainName n) →
    ∀ n ∈ (cs.foldl (enter abs) pl).names, PlainName n := by
  intro cs
  induction cs with
  | nil => intro pl _ h; exact h
  | cons c cs ih =>
    intro pl hc h
    exact ih _ (fun x hx => hc x (by simp [hx])) (enter_plain abs pl c (hc c (by simp)) h)

theorem splitAt_slash (p : Bytes) : splitAt 47 p = splitSlash p := by
  induction p with
  | nil => rfl
  | cons c cs ih => rw [splitAt, splitSlash, ih]; rfl

theorem absolute_eq : absolute = isAbs := rfl

theorem place_def (p : Bytes) : place p = (splitSlash p).foldl (enter (isAbs p)) ⟨0, []⟩ := by
  unfold place; rw [splitAt_slash]; rfl

theorem place_plain (p : Bytes) : ∀ n ∈ (place p).names, PlainName n :=
  foldl_plain _ _ _ (splitAt_slash p ▸ splitSlash_noslash p) (by simp)

theorem foldl_abs : ∀ (cs : List Bytes) (pl : Place), (cs.foldl (enter true) pl).ups = pl.ups := by
  intro cs
  induction cs with
  | nil => intro pl; rfl
  | cons c cs ih =>
    intro pl
    rw [List.foldl_cons, ih]
    unfold enter
    split
    · rfl
    · split
      · split
        · rfl
        · rfl
      · rfl

/-- The stack of `Clean` represents the place. -/
def stackOf (pl : Place) : List Bytes := pl.names.reverse ++ List.replicate pl.ups dotdot

theorem cleanStep_stack (abs : Bool) (pl : Place) (c : Bytes) (hp : ∀ n ∈ pl.names, PlainName n) (ha : abs = true → pl.ups = 0) :
    cleanStep abs (stackOf pl) c = stackOf (enter abs pl c) := by
  unfold cleanStep enter
  have hdot : dot = ascii "." := rfl
  have hdd : dotdot = ascii ".." := rfl
  rw [hdot, hdd]
  split
  · rfl
  · split
    · rcases List.eq_nil_or_concat pl.names with he | ⟨ns, n, he⟩
      · simp only [stackOf, he, List.reverse_nil, List.nil_append, ne_eq, not_true_eq_false, if_false]
        cases abs with
        | true =>
          have := ha rfl
          simp [this, he]
        | false =>
          simp only [if_false, Bool.false_eq_true, he, List.reverse_nil, List.nil_append]
          cases hu : pl.ups with
          | zero => simp [hdd]
          | succ k => simp [List.replicate_succ, hdd]
      · rw [List.concat_eq_append] at he
        have hn : PlainName n := hp n (by rw [he]; simp)
        simp only [stackOf, he, List.reverse_append, List.reverse_cons, List.reverse_nil, List.nil_append, List.cons_append]
        rw [if_neg hn.2.2.1]
        simp
    · simp [stackOf]

theorem foldl_stack (abs : Bool) : ∀ (cs : List Bytes) (pl : Place), (∀ c ∈ cs, slash ∉ c) → (∀ n ∈ pl.names, PlainName n) →
    (abs = true → pl.ups = 0) → cs.foldl (cleanStep abs) (stackOf pl) = stackOf (cs.foldl (enter abs) pl) := by
  intro cs
  induction cs with
  | nil => intros; rfl
  | cons c cs ih =>
    intro pl hc hp ha
    rw [List.foldl_cons, List.foldl_cons, cleanStep_stack abs pl c hp ha]
    apply ih _ (fun x hx => hc x (by simp [hx])) (enter_plain abs pl c (hc c (by simp)) hp)
    intro e
    subst e
    have := foldl_abs [c] pl
    rw [List.foldl_cons, List.foldl_nil] at this
    rw [this]; exact ha rfl

theorem cleanElems_eq (p : Bytes) : cleanElems p = List.replicate (place p).ups dotdot ++ (place p).names := by
  unfold cleanElems
  have := foldl_stack (isAbs p) (splitSlash p) ⟨0, []⟩ (splitSlash_noslash p) (by simp) (by simp)
  simp only [stackOf, List.reverse_nil, List.replicate_zero, List.append_nil] at this
  rw [this]
  simp [place_def]

/-- The text of a place. -/
def textOf (abs : Bool) (pl : Place) : Bytes :=
  match List.replicate pl.ups dotdot ++ pl.names with
  | [] => if abs then [slash] else dot
  | es => if abs then slash :: joinSlash es else joinSlash es

theorem clean_eq (p : Bytes) : clean p = textOf (isAbs p) (place p) := by
  unfold clean textOf
  rw [cleanElems_eq]
  cases List.replicate (place p).ups dotdot ++ (place p).names <;> rfl

theorem enter_plain_name (abs : Bool) (pl : Place) (c : Bytes) (h : PlainName c) :
    enter abs pl c = { pl with names := pl.names ++ [c] } := by
  unfold enter
  rw [if_neg (by rintro (e | e); exact h.1 e; exact h.2.1 e), if_neg h.2.2.1]

theorem foldl_names (abs : Bool) : ∀ (ns : List Bytes) (pl : Place), (∀ n ∈ ns, PlainName n) →
    ns.foldl (enter abs) pl = { pl with names := pl.names ++ ns } := by
  intro ns
  induction ns with
  | nil => intro pl _; simp
  | cons n ns ih =>
    intro pl h
    rw [List.foldl_cons, enter_plain_name _ _ _ (h n (by simp)), ih _ (fun x hx => h x (by simp [hx]))]
    simp

theorem foldl_ups (k : Nat) : ∀ u, (List.replicate k dotdot).foldl (enter false) ⟨u, []⟩ = ⟨u + k, []⟩ := by
  induction k with
  | zero => intro u; rfl
  | succ k ih =>
    intro u
    rw [List.replicate_succ, List.foldl_cons]
    have : enter false ⟨u, []⟩ dotdot = ⟨u + 1, []⟩ := by
      unfold enter
      rw [if_neg (by decide), if_pos (by rfl)]
      simp
    rw [this, ih]
    congr 1; omega

/-- Reading the text of a place leads back to it. -/
theorem place_textOf (abs : Bool) (pl : Place) (hp : ∀ n ∈ pl.names, PlainName n) (ha : abs = true → pl.ups = 0) :
    place (textOf abs pl) = pl ∧ isAbs (textOf abs pl) = abs := by
  have hnos : ∀ c ∈ List.replicate pl.ups dotdot ++ pl.names, slash ∉ c := by
    intro c hc
    rcases List.mem_append.1 hc with hc | hc
    · rw [List.mem_replicate] at hc; rw [hc.2]; decide
    · exact (hp c hc).2.2.2
  have hne : ∀ c ∈ List.replicate pl.ups dotdot ++ pl.names, c ≠ [] := by
    intro c hc
    rcases List.mem_append.1 hc with hc | hc
    · rw [List.mem_replicate] at hc; rw [hc.2]; decide
    · exact (hp c hc).1
  cases hes : List.replicate pl.ups dotdot ++ pl.names with
  | nil =>
    have hu : pl.ups = 0 := by
      have := congrArg List.length hes; simp at this; exact this.1
    have hn : pl.names = [] := by simp [hu] at hes; exact hes
    have hpl : pl = ⟨0, []⟩ := by cases pl; simp_all
    unfold textOf
    rw [hes]
    cases abs with
    | true => rw [hpl]; decide
    | false => rw [hpl]; decide
  | cons e es =>
    rw [hes] at hnos hne
    have htext : textOf abs pl = if abs then slash :: joinSlash (e :: es) else joinSlash (e :: es) := by
      unfold textOf; rw [hes]
    have hsplit : splitSlash (joinSlash (e :: es)) = e :: es := splitSlash_join _ (by simp) hnos
    cases abs with
    | true =>
      simp only [if_true] at htext
      have hu := ha rfl
      have hn : pl.names = e :: es := by simpa [hu] using hes
      have hab : isAbs (textOf true pl) = true := by rw [htext]; rfl
      refine ⟨?_, hab⟩
      simp only [place_def]
      rw [hab, htext, splitSlash, if_pos rfl, hsplit, List.foldl_cons]
      have : enter true ⟨0, []⟩ [] = ⟨0, []⟩ := by unfold enter; simp
      rw [this, ← hn, foldl_names _ _ _ hp]
      cases pl; simp_all
    | false =>
      simp only [Bool.false_eq_true, if_false] at htext
      have hab : isAbs (textOf false pl) = false := by
        rw [htext]
        have h1 := hne e (by simp)
        have h2 := hnos e (by simp)
        cases e with
        | nil => exact absurd rfl h1
        | cons b bs =>
          simp only [List.mem_cons, not_or] at h2
          cases es with
          | nil => simp [joinSlash, isAbs]; exact fun e => h2.1 e.symm
          | cons d ds => simp [joinSlash, isAbs]; exact fun e => h2.1 e.symm
      refine ⟨?_, hab⟩
      simp only [place_def]
      rw [hab, htext, hsplit, ← hes, List.foldl_append, foldl_ups, foldl_names _ _ _ hp]
      simp

theorem place_ups_abs (p : Bytes) (h : isAbs p = true) : (place p).ups = 0 := by
  rw [place_def, h, foldl_abs]

theorem place_clean (p : Bytes) : place (clean p) = place p ∧ isAbs (clean p) = isAbs p := by
  rw [clean_eq]
  exact place_textOf _ _ (place_plain p) (place_ups_abs p)

theorem isAbs_append (a b : Bytes) (h : a ≠ []) : isAbs (a ++ b) = isAbs a := by
  cases a with
  | nil => exact absurd rfl h
  | cons x xs => rfl

/-- Where a joined path leads. -/
theorem place_join (a b : Bytes) (h : a ≠ []) :
    place (join a b) = (splitSlash b).foldl (enter (isAbs a)) (place a) ∧ isAbs (join a b) = isAbs a := by
  unfold join
  rw [if_pos h, (place_clean _).1, (place_clean _).2]
  have e := isAbs_append a (slash :: b) h
  refine ⟨?_, e⟩
  simp only [place_def]
  rw [e, splitSlash_append, List.foldl_append]

/-- Joining a plain name. -/
theorem place_join_plain (a c : Bytes) (hc : PlainName c) :
    place (join a c) = { place a with names := (place a).names ++ [c] } ∧ isAbs (join a c) = isAbs a := by
  by_cases h : a = []
  · subst h
    unfold join
    rw [if_neg (by simp), if_pos hc.1, (place_clean _).1, (place_clean _).2]
    have hs := splitSlash_plain c hc.2.2.2
    have hab : isAbs c = false := by
      cases c with
      | nil => exact absurd rfl hc.1
      | cons x xs =>
        have := hc.2.2.2
        simp only [List.mem_cons, not_or] at this
        simp [isAbs]; exact fun e => this.1 e.symm
    refine ⟨?_, by rw [hab]; rfl⟩
    simp only [place_def]
    rw [hs, List.foldl_cons, List.foldl_nil, enter_plain_name _ _ _ hc]
    rfl
  · obtain ⟨h1, h2⟩ := place_join a c h
    refine ⟨?_, h2⟩
    rw [h1, splitSlash_plain c hc.2.2.2, List.foldl_cons, List.foldl_nil, enter_plain_name _ _ _ hc]

end Gotit
