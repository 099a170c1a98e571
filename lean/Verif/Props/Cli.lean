import Verif.Spec.Cli
/-
  C67: log levels. C71: the configuration file and the log format.
-/
namespace Gotit.Props
open Gotit Spec

/-- C67, what is claimed. -/
def LevelsTakeEffect : Prop := ∀ (readConfig : Bytes → Bool) (v : Verbosity) (f : GlobalFlags), f.level = some v.name →
  ∀ cfg ctx, startCommand readConfig f = some (cfg, ctx) → ∃ l, ctx.logger = some l ∧ hasVerbosity l v

/-- The flags have no effect: every command gets the logger of the defaults, whatever is given on the command line. -/
theorem flags_ignored (readConfig : Bytes → Bool) (f : GlobalFlags) (cfg : AppConfig) (ctx : AppContext)
    (h : startCommand readConfig f = some (cfg, ctx)) : ctx.logger = some (.core .info .color) ∧ ctx.cfgPath = [] := by
  unfold startCommand newCmdRun at h
  simp only at h
  split at h
  · simp only [Option.bind_some, Option.some.injEq, Prod.mk.injEq] at h
    rw [← h.2]
    exact ⟨by decide, rfl⟩
  · exact absurd h (by simp)

/-- C67 fails for every documented level but info. -/
theorem C67_violated : ¬ LevelsTakeEffect ∧ ∀ (readConfig : Bytes → Bool), readConfig [] = true → ∀ v : Verbosity, v ≠ .info →
    ∀ f : GlobalFlags, f.level = some v.name → ∃ cfg ctx, startCommand readConfig f = some (cfg, ctx) ∧
      ∀ l, ctx.logger = some l → ¬ hasVerbosity l v := by
  have key : ∀ (readConfig : Bytes → Bool), readConfig [] = true → ∀ v : Verbosity, v ≠ .info →
    ∀ f : GlobalFlags, f.level = some v.name → ∃ cfg ctx, startCommand readConfig f = some (cfg, ctx) ∧
      ∀ l, ctx.logger = some l → ¬ hasVerbosity l v := by
    intro readConfig hr v hv f _
    have hs : ∃ cfg ctx, startCommand readConfig f = some (cfg, ctx) := by
      unfold startCommand newCmdRun
      simp only
      rw [if_pos (show readConfig registerFlags.cfgPath = true from hr)]
      exact ⟨_, _, rfl⟩
    obtain ⟨cfg, ctx, hs⟩ := hs
    refine ⟨cfg, ctx, hs, fun l hl => ?_⟩
    rw [(flags_ignored readConfig f cfg ctx hs).1] at hl
    obtain rfl := Option.some.inj hl
    exact hv
  refine ⟨fun h => ?_, key⟩
  obtain ⟨cfg, ctx, h1, h2⟩ := key (fun _ => true) rfl .debug (by decide) ⟨some (Verbosity.debug.name), none, none⟩ rfl
  obtain ⟨l, h3, h4⟩ := h (fun _ => true) .debug _ rfl cfg ctx h1
  exact h2 l h3 h4

/-- C67, also with the order of initialisation put right: two of the documented names are not known to the logger, and the error
is swallowed, leaving a nil logger. -/
theorem C67_names_violated : newCommandLine Verbosity.trace.name (ascii "color") = none ∧
    newCommandLine Verbosity.warning.name (ascii "color") = none := by decide

/-! ### Words -/

theorem isSpace_iff (c : UInt8) : isSpace c = true ↔ c ∈ whiteSpace := by
  have : ∀ n, n < 256 → (isSpace (UInt8.ofNat n) = true ↔ UInt8.ofNat n ∈ whiteSpace) := by decide +kernel
  simpa using this c.toNat c.toNat_lt

theorem lower_space (c : UInt8) : isSpace (if 65 ≤ c ∧ c ≤ 90 then c + 32 else c) = isSpace c := by
  have : ∀ n, n < 256 → isSpace (if 65 ≤ UInt8.ofNat n ∧ UInt8.ofNat n ≤ 90 then UInt8.ofNat n + 32 else UInt8.ofNat n) = isSpace (UInt8.ofNat n) := by
    decide +kernel
  simpa using this c.toNat c.toNat_lt

theorem lower_pair (c : UInt8) : (if 65 ≤ c ∧ c ≤ 90 then c + 32 else c) = c ∨ (c, if 65 ≤ c ∧ c ≤ 90 then c + 32 else c) ∈ letterPairs := by
  have : ∀ n, n < 256 → ((if 65 ≤ UInt8.ofNat n ∧ UInt8.ofNat n ≤ 90 then UInt8.ofNat n + 32 else UInt8.ofNat n) = UInt8.ofNat n ∨
      (UInt8.ofNat n, if 65 ≤ UInt8.ofNat n ∧ UInt8.ofNat n ≤ 90 then UInt8.ofNat n + 32 else UInt8.ofNat n) ∈ letterPairs) := by
    decide +kernel
  simpa using this c.toNat c.toNat_lt

theorem pair_lower : ∀ x ∈ letterPairs, (if 65 ≤ x.1 ∧ x.1 ≤ 90 then x.1 + 32 else x.1) = x.2 := by decide +kernel

/-- A word in small letters. -/
def Small (w : Bytes) : Prop := ∀ c ∈ w, 97 ≤ c ∧ c ≤ 122

instance (w : Bytes) : Decidable (Small w) := by unfold Small; infer_instance

theorem small_lower (c : UInt8) (h : 97 ≤ c ∧ c ≤ 122) : (if 65 ≤ c ∧ c ≤ 90 then c + 32 else c) = c ∧ isSpace c = false := by
  have : ∀ n, n < 256 → (97 ≤ UInt8.ofNat n ∧ UInt8.ofNat n ≤ 122) →
      (if 65 ≤ UInt8.ofNat n ∧ UInt8.ofNat n ≤ 90 then UInt8.ofNat n + 32 else UInt8.ofNat n) = UInt8.ofNat n ∧ isSpace (UInt8.ofNat n) = false := by
    decide +kernel
  have := this c.toNat c.toNat_lt
  simp only [UInt8.ofNat_toNat] at this
  exact this h

theorem sameWord_lower : ∀ (s : Bytes), SameWord s (toLower s)
  | [] => .nil
  | c :: s => by
    simp only [toLower, List.map_cons]
    rcases lower_pair c with h | h
    · rw [h]; exact .same c (sameWord_lower s)
    · exact .capital h (sameWord_lower s)

theorem lower_sameWord {s w : Bytes} (h : SameWord s w) (hw : Small w) : toLower s = w := by
  induction h with
  | nil => rfl
  | same c _ ih =>
    have := ih (fun x hx => hw x (by simp [hx]))
    unfold toLower at this ⊢
    rw [List.map_cons, this, (small_lower c (hw c (by simp))).1]
  | capital hp _ ih =>
    have := ih (fun x hx => hw x (by simp [hx]))
    unfold toLower at this ⊢
    rw [List.map_cons, this, pair_lower _ hp]

theorem dropWhile_spaces {a : Bytes} (b : Bytes) (h : ∀ c ∈ a, isSpace c = true) : (a ++ b).dropWhile isSpace = b.dropWhile isSpace := by
  induction a with
  | nil => rfl
  | cons c a ih => simp [h c (by simp), ih (fun x hx => h x (by simp [hx]))]

theorem dropWhile_word {w b : Bytes} (h : ∀ c ∈ w, isSpace c = false) (hw : w ≠ []) : (w ++ b).dropWhile isSpace = w ++ b := by
  cases w with
  | nil => exact absurd rfl hw
  | cons c w => simp [h c (by simp)]

theorem trimSpace_word {a w b : Bytes} (ha : ∀ c ∈ a, isSpace c = true) (hw : ∀ c ∈ w, isSpace c = false) (hb : ∀ c ∈ b, isSpace c = true) :
    trimSpace (a ++ w ++ b) = w := by
  unfold trimSpace
  rw [List.append_assoc, dropWhile_spaces _ ha]
  have hb' : ∀ c ∈ b.reverse, isSpace c = true := by simpa using hb
  by_cases h : w = []
  · subst h
    rw [List.nil_append, show b = b ++ [] from (List.append_nil b).symm, dropWhile_spaces _ hb]
    rfl
  · rw [dropWhile_word hw h, List.reverse_append, dropWhile_spaces _ hb']
    have := dropWhile_word (w := w.reverse) (b := []) (by simpa using hw) (by simpa using h)
    rw [List.append_nil] at this
    rw [this, List.reverse_reverse]

theorem takeWhile_all (s : Bytes) : ∀ c ∈ s.takeWhile isSpace, isSpace c = true := by
  induction s with
  | nil => simp
  | cons c s ih =>
    intro x hx
    rw [List.takeWhile_cons] at hx
    split at hx
    · rcases List.mem_cons.1 hx with rfl | hx
      · assumption
      · exact ih x hx
    · cases hx

theorem trimSpace_split (s : Bytes) : ∃ a b, s = a ++ trimSpace s ++ b ∧ (∀ c ∈ a, isSpace c = true) ∧ (∀ c ∈ b, isSpace c = true) := by
  refine ⟨s.takeWhile isSpace, ((s.dropWhile isSpace).reverse.takeWhile isSpace).reverse, ?_, takeWhile_all s, ?_⟩
  · unfold trimSpace
    rw [List.append_assoc, ← List.reverse_append, List.takeWhile_append_dropWhile, List.reverse_reverse, List.takeWhile_append_dropWhile]
  · intro c hc
    exact takeWhile_all _ c (List.mem_reverse.1 hc)

theorem isWord_iff (s w : Bytes) (hw : Small w) : trimSpace (toLower s) = w ↔ IsWord s w := by
  constructor
  · intro h
    obtain ⟨a, b, h1, h2, h3⟩ := trimSpace_split (toLower s)
    rw [h] at h1
    unfold toLower at h1
    obtain ⟨ac, b0, rfl, h4, h5⟩ := List.map_eq_append_iff.1 h1
    obtain ⟨a0, c0, rfl, h6, h7⟩ := List.map_eq_append_iff.1 h4
    refine ⟨a0, c0, b0, rfl, ?_, ?_⟩
    · intro c hc
      rw [← isSpace_iff]
      rcases List.mem_append.1 hc with hc | hc
      · rw [← lower_space]; exact h2 _ (h6 ▸ List.mem_map_of_mem hc)
      · rw [← lower_space]; exact h3 _ (h5 ▸ List.mem_map_of_mem hc)
    · have := sameWord_lower c0
      rw [show toLower c0 = w from h7] at this
      exact this
  · rintro ⟨a, c, b, rfl, h1, h2⟩
    have e : toLower (a ++ c ++ b) = toLower a ++ toLower c ++ toLower b := by simp [toLower]
    rw [e, lower_sameWord h2 hw]
    have sp : ∀ x : Bytes, (∀ c ∈ x, c ∈ whiteSpace) → ∀ c ∈ toLower x, isSpace c = true := by
      intro x hx c hc
      obtain ⟨d, hd, rfl⟩ := List.mem_map.1 hc
      rw [lower_space, isSpace_iff]
      exact hx d hd
    exact trimSpace_word (sp a (fun c hc => h1 c (by simp [hc]))) (fun c hc => (small_lower c (hw c hc)).2) (sp b (fun c hc => h1 c (by simp [hc])))

theorem getZapLevel_iff (level : Bytes) (l : ZapLevel) : getZapLevel level = some l ↔
    trimSpace (toLower level) = levelWord l ∨ (l = .info ∧ trimSpace (toLower level) = []) := by
  unfold getZapLevel
  simp only
  generalize trimSpace (toLower level) = s
  have e1 : ascii "debug" ≠ ascii "info" := by decide
  have e2 : ascii "debug" ≠ ascii "warn" := by decide
  have e3 : ascii "debug" ≠ ascii "error" := by decide
  have e4 : ascii "info" ≠ ascii "warn" := by decide
  have e5 : ascii "info" ≠ ascii "error" := by decide
  have e6 : ascii "warn" ≠ ascii "error" := by decide
  have n1 : ascii "debug" ≠ [] := by decide
  have n2 : ascii "warn" ≠ [] := by decide
  have n3 : ascii "error" ≠ [] := by decide
  constructor
  · intro h
    split at h
    · rename_i hs; cases l <;> simp_all [levelWord]
    · split at h
      · rename_i hs; cases l <;> simp_all [levelWord]
      · split at h
        · rename_i hs; cases l <;> simp_all [levelWord]
        · split at h
          · rename_i hs; cases l <;> simp_all [levelWord]
          · exact absurd h (by simp)
  · rintro (h | ⟨rfl, h⟩)
    · unfold levelWord at h
      cases l with
      | debug => rw [if_pos h]
      | info => rw [if_neg (by rw [h]; exact e1.symm), if_pos (.inl h)]
      | warn =>
        rw [if_neg (by rw [h]; exact e2.symm), if_neg (by rw [h]; simp only [not_or]; exact ⟨e4.symm, n2⟩), if_pos h]
      | error =>
        rw [if_neg (by rw [h]; exact e3.symm), if_neg (by rw [h]; simp only [not_or]; exact ⟨e5.symm, n3⟩),
          if_neg (by rw [h]; exact e6.symm), if_pos h]
    · rw [if_neg (by rw [h]; exact n1.symm), if_pos (.inr h)]

/-- The level the logger understands by a text: one of four words, or nothing, which is info; capitals and white space around the word do not
matter. (Missing for C67: the words are not the documented ones, and the flag has no effect, see `C67_violated`.) -/
theorem C67_level_partial (level : Bytes) (l : ZapLevel) :
    getZapLevel level = some l ↔ IsWord level (levelWord l) ∨ (l = .info ∧ IsWord level []) := by
  rw [getZapLevel_iff, isWord_iff level (levelWord l) (by cases l <;> decide), isWord_iff level [] (by decide)]

/-- The same for the format: the three documented names, or nothing, which is color. -/
theorem C67_format_partial (format : Bytes) (e : ZapEncoder) :
    getZapEncoder format = some e ↔ IsWord format (formatName e) ∨ (e = .color ∧ IsWord format []) := by
  rw [← isWord_iff format (formatName e) (by cases e <;> decide), ← isWord_iff format [] (by decide)]
  unfold getZapEncoder
  simp only
  generalize trimSpace (toLower format) = s
  have e1 : ascii "text" ≠ ascii "color" := by decide
  have e2 : ascii "text" ≠ ascii "json" := by decide
  have e3 : ascii "color" ≠ ascii "json" := by decide
  have n1 : ascii "text" ≠ [] := by decide
  have n2 : ascii "json" ≠ [] := by decide
  constructor
  · intro h
    split at h
    · rename_i hs; cases e <;> simp_all [formatName]
    · split at h
      · rename_i hs; cases e <;> simp_all [formatName]
      · split at h
        · rename_i hs; cases e <;> simp_all [formatName]
        · exact absurd h (by simp)
  · rintro (h | ⟨rfl, h⟩)
    · unfold formatName at h
      cases e with
      | text => rw [if_pos h]
      | color => rw [if_neg (by rw [h]; exact e1.symm), if_pos (.inl h)]
      | json => rw [if_neg (by rw [h]; exact e2.symm), if_neg (by rw [h]; simp only [not_or]; exact ⟨e3.symm, n2⟩), if_pos h]
    · rw [if_neg (by rw [h]; exact n1.symm), if_pos (.inr h)]

/-- ` Debug` and a line feed is the word debug. -/
example : IsWord (ascii " Debug\n") (levelWord .debug) :=
  ⟨[32], ascii "Debug", [10], rfl, by decide, .capital (by decide) (.same _ (.same _ (.same _ (.same _ .nil))))⟩

/-- C67, what holds if the logger is asked for a level directly: info, debug and error give a logger of that level in each
documented format, and silent gives a silent one. -/
theorem C67_partial (v : Verbosity) (e : ZapEncoder) (h1 : v ≠ .trace) (h2 : v ≠ .warning) :
    ∃ l, newCommandLine v.name (formatName e) = some l ∧ hasVerbosity l v ∧ (v ≠ .silent → ∃ z, l = .core z e) := by
  cases v with
  | trace => exact absurd rfl h1
  | warning => exact absurd rfl h2
  | debug => exact ⟨.core .debug e, by cases e <;> decide, .inl rfl, fun _ => ⟨_, rfl⟩⟩
  | info => exact ⟨.core .info e, by cases e <;> decide, rfl, fun _ => ⟨_, rfl⟩⟩
  | error => exact ⟨.core .error e, by cases e <;> decide, rfl, fun _ => ⟨_, rfl⟩⟩
  | silent => cases e <;> exact ⟨.nop, by decide, rfl, fun h => absurd rfl h⟩

/-- Nothing but the exact word gives a silent logger. -/
theorem C67_silent (level format : Bytes) : newCommandLine level format = some .nop ↔ level = ascii "silent" := by
  unfold newCommandLine
  constructor
  · intro h
    split at h
    · assumption
    · cases h1 : getZapLevel level <;> cases h2 : getZapEncoder format <;> simp [h1, h2] at h
  · intro h; rw [if_pos h]

example : newCommandLine (ascii " Debug ") (ascii "JSON") = some (.core .debug .json) := by decide
example : newCommandLine (ascii "Silent") (ascii "text") = none := by decide
example : ∃ ctx, startCommand (fun _ => true) ⟨some (ascii "silent"), some (ascii "json"), some (ascii "my.yaml")⟩ =
    some (⟨ascii "silent", ascii "json", ascii "my.yaml"⟩, ctx) ∧ ctx.logger = some (.core .info .color) := ⟨_, rfl, by decide⟩

/-- C71, what is claimed: the configuration file named on the command line is the one that is read, and an unusable one is
reported. -/
def ConfigUsed : Prop := ∀ (readConfig : Bytes → Bool) (f : GlobalFlags) (path : Bytes), f.config = some path →
  (readConfig path = false → startCommand readConfig f = none) ∧
  (∀ cfg ctx, startCommand readConfig f = some (cfg, ctx) → ctx.cfgPath = path)

/-- C71 fails for every path that is not empty: the default configuration is read instead. -/
theorem C71_violated (path : Bytes) (hp : path ≠ []) : ¬ ConfigUsed ∧ ∀ (readConfig : Bytes → Bool), readConfig [] = true →
    ∀ f : GlobalFlags, f.config = some path → ∃ cfg ctx, startCommand readConfig f = some (cfg, ctx) ∧ ctx.cfgPath = [] := by
  have key : ∀ (readConfig : Bytes → Bool), readConfig [] = true →
    ∀ f : GlobalFlags, f.config = some path → ∃ cfg ctx, startCommand readConfig f = some (cfg, ctx) ∧ ctx.cfgPath = [] := by
    intro readConfig hr f _
    unfold startCommand newCmdRun
    simp only
    rw [if_pos (show readConfig registerFlags.cfgPath = true from hr)]
    exact ⟨_, _, rfl, rfl⟩
  refine ⟨fun h => ?_, key⟩
  obtain ⟨cfg, ctx, h1, h2⟩ := key (fun _ => true) rfl ⟨none, none, some path⟩ rfl
  have := (h (fun _ => true) _ path rfl).2 cfg ctx h1
  rw [h2] at this
  exact hp this.symm

/-- C71, what holds: if the default configuration cannot be read the program ends before any command runs (even `version`), and
without the flag the default is what is read. -/
theorem C71_partial (readConfig : Bytes → Bool) (f : GlobalFlags) :
    (startCommand readConfig f = none ↔ readConfig [] = false) ∧
    ∀ cfg ctx, startCommand readConfig f = some (cfg, ctx) → ctx.cfgPath = [] := by
  refine ⟨?_, fun cfg ctx h => (flags_ignored readConfig f cfg ctx h).2⟩
  unfold startCommand newCmdRun
  simp only
  by_cases h : readConfig [] = true
  · rw [if_pos (show readConfig registerFlags.cfgPath = true from h)]; simp [h]
  · rw [if_neg (show ¬ readConfig registerFlags.cfgPath = true from h)]; simp at h ⊢; exact h

/-- C71, the only thing missing is the order: the flag is parsed, and a command built from the parsed flags would read the file named
on the command line and report an unusable one. -/
theorem C71_order_partial (readConfig : Bytes → Bool) (f : GlobalFlags) :
    (∀ cfg ctx, startCommand readConfig f = some (cfg, ctx) → cfg.cfgPath = f.config.getD []) ∧
    ∀ path, f.config = some path → (newCmdRun readConfig (parseFlags registerFlags f) = none ↔ readConfig path = false) ∧
      ∀ ctx, newCmdRun readConfig (parseFlags registerFlags f) = some ctx → ctx.cfgPath = path := by
  refine ⟨fun cfg ctx h => ?_, fun path hp => ?_⟩
  · unfold startCommand newCmdRun at h
    simp only at h
    split at h
    · simp only [Option.bind_some, Option.some.injEq, Prod.mk.injEq] at h
      rw [← h.1]; rfl
    · exact absurd h (by simp)
  · have e : (parseFlags registerFlags f).cfgPath = path := by simp [parseFlags, hp]
    unfold newCmdRun
    rw [e]
    cases hr : readConfig path with
    | true => exact ⟨by simp, fun ctx h => by simp at h; rw [← h]⟩
    | false => exact ⟨by simp, fun ctx h => by simp at h⟩

example : newCmdRun (fun p => p == ascii "a.yaml") (parseFlags registerFlags ⟨none, none, some (ascii "b.yaml")⟩) = none :=
  ((C71_order_partial _ ⟨none, none, some (ascii "b.yaml")⟩).2 _ rfl).1.2 (by decide)

end Gotit.Props
