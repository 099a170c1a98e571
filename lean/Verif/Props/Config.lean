import Verif.Spec.Config
import Verif.Props.Cli
/-
  C151: what the configuration says takes effect.
-/
namespace Gotit.Props
open Gotit Spec

theorem init_default (M : Machine) : (∃ v, initConfig M [] = .ok v ∧ v.env = M.env ∧ v.file.level = levelIn M.search ∧ v.file.format = formatIn M.search) ∧ M.search ≠ .unusable ∨
    initConfig M [] = .error .other ∧ M.search = .unusable := by
  unfold initConfig readInConfig
  cases h : M.search with
  | found s => exact .inl ⟨⟨_, by simp only [ne_eq, not_true_eq_false, if_false, h]; exact ⟨rfl, rfl, rfl, rfl⟩⟩, by simp⟩
  | missing => exact .inl ⟨⟨_, by simp [h]; exact ⟨rfl, rfl, rfl, rfl⟩⟩, by simp⟩
  | unusable => exact .inr ⟨by simp [h], rfl⟩

/-- `initConfig` with a name fails exactly if there is no usable file of that name, and with none exactly if one is found that is
not usable. The special treatment of `ConfigFileNotFoundError` for a named file (app.go:84-86) never happens. -/
theorem C71_init_partial (M : Machine) (path : Bytes) :
    ((∃ v, initConfig M path = .ok v) ↔ (path ≠ [] ∧ ∃ s, M.file path = .found s) ∨ (path = [] ∧ M.search ≠ .unusable)) ∧
    initConfig M path ≠ .error .notFound := by
  by_cases hp : path = []
  · subst hp
    rcases init_default M with ⟨⟨v, h, _⟩, hs⟩ | ⟨h, hs⟩
    · rw [h]; simp [hs]
    · rw [h]; simp [hs]
  · unfold initConfig readInConfig
    cases h : M.file path <;> simp [hp, h]

/-- The program with its configuration is the program of `startCommand`. -/
theorem startProgram_command (M : Machine) (f : GlobalFlags) :
    (startProgram M f).map (fun x => (x.1, x.2.1)) = startCommand (fun path => match initConfig M path with | .ok _ => true | .error _ => false) f := by
  unfold startProgram startCommand newCmdRun
  simp only
  rw [show registerFlags.cfgPath = [] from rfl]
  rcases init_default M with ⟨⟨v, h, _⟩, hs⟩ | ⟨h, hs⟩
  · simp [h, registerFlags]
  · simp [h]

/-- C151, exactly: the program does not get to a command if and only if the search finds a file that is not usable. Otherwise the
logger is of level info with the format color, whatever is in the file, in the environment or on the command line, although viper
holds what is in the environment, or else in the file that was found. -/
theorem C151_exact_partial (M : Machine) (f : GlobalFlags) :
    (startProgram M f = none ↔ M.search = .unusable) ∧
    ∀ cfg ctx v, startProgram M f = some (cfg, ctx, v) → ctx.logger = some (.core .info .color) ∧
      v.get.level = M.env.level.or (levelIn M.search) ∧ v.get.format = M.env.format.or (formatIn M.search) := by
  unfold startProgram
  simp only
  rw [show registerFlags.cfgPath = [] from rfl]
  rcases init_default M with ⟨⟨v, h, he, hl, hf⟩, hs⟩ | ⟨h, hs⟩
  · rw [h]
    refine ⟨by simp [hs], fun cfg ctx v' h' => ?_⟩
    simp only [Option.some.injEq, Prod.mk.injEq] at h'
    obtain ⟨_, rfl, rfl⟩ := h'
    exact ⟨by decide, by simp only [Viper.get, he, hl], by simp only [Viper.get, he, hf]⟩
  · rw [h]
    exact ⟨by simp [hs], fun cfg ctx v' h' => by simp at h'⟩

/-- C151 is false of the code: on every machine where the program starts, no level but info has any effect, be it asked for in the
file that was found, in the environment or on the command line. -/
theorem C151_violated : ¬ ConfigTakesEffect ∧ ∀ M f, M.search ≠ .unusable → ∀ l : Verbosity, l ≠ .info → meantLevel M f = l.name →
    ∃ cfg ctx v, startProgram M f = some (cfg, ctx, v) ∧ ∀ lg, ctx.logger = some lg → ¬ hasVerbosity lg l := by
  have key : ∀ M f, M.search ≠ .unusable → ∀ l : Verbosity, l ≠ .info → meantLevel M f = l.name →
    ∃ cfg ctx v, startProgram M f = some (cfg, ctx, v) ∧ ∀ lg, ctx.logger = some lg → ¬ hasVerbosity lg l := by
    intro M f hs l hl _
    obtain ⟨h1, h2⟩ := C151_exact_partial M f
    cases h : startProgram M f with
    | none => exact absurd (h1.1 h) hs
    | some x =>
      obtain ⟨cfg, ctx, v⟩ := x
      refine ⟨cfg, ctx, v, rfl, fun lg hlg hv => ?_⟩
      rw [(h2 cfg ctx v h).1] at hlg
      obtain rfl := Option.some.inj hlg
      exact hl hv
  refine ⟨fun h => ?_, key⟩
  let M : Machine := { search := .found { level := some (Verbosity.debug.name), format := none }, file := (fun _ => .missing), env := { level := none, format := none } }
  obtain ⟨cfg, ctx, v, h1, h2⟩ := key M ⟨none, none, none⟩ (by decide) .debug (by decide) rfl
  obtain ⟨lg, h3, h4⟩ := h M _ cfg ctx v h1 .debug rfl
  exact h2 lg h3 h4

/-- Nor does any format but color. -/
theorem C151_format_violated : ¬ FormatTakesEffect ∧ ∀ M f, M.search ≠ .unusable → ∀ e : ZapEncoder, e ≠ .color → meantFormat M f = formatName e →
    ∃ cfg ctx v, startProgram M f = some (cfg, ctx, v) ∧ ctx.logger ≠ some .nop ∧ ∀ l, ctx.logger ≠ some (.core l e) := by
  have key : ∀ M f, M.search ≠ .unusable → ∀ e : ZapEncoder, e ≠ .color → meantFormat M f = formatName e →
    ∃ cfg ctx v, startProgram M f = some (cfg, ctx, v) ∧ ctx.logger ≠ some .nop ∧ ∀ l, ctx.logger ≠ some (.core l e) := by
    intro M f hs e he _
    obtain ⟨h1, h2⟩ := C151_exact_partial M f
    cases h : startProgram M f with
    | none => exact absurd (h1.1 h) hs
    | some x =>
      obtain ⟨cfg, ctx, v⟩ := x
      refine ⟨cfg, ctx, v, rfl, ?_, fun l hl => ?_⟩
      · rw [(h2 cfg ctx v h).1]; decide
      · rw [(h2 cfg ctx v h).1] at hl
        simp only [Option.some.injEq, Logger.core.injEq] at hl
        exact he hl.2.symm
  refine ⟨fun h => ?_, key⟩
  let M : Machine := { search := .missing, file := (fun _ => .missing), env := { level := none, format := some (formatName .json) } }
  obtain ⟨cfg, ctx, v, h1, h2, h3⟩ := key M ⟨none, none, none⟩ (by decide) .json (by decide) rfl
  rcases h M _ cfg ctx v h1 .json rfl with g | ⟨l, g⟩
  · exact h2 g
  · exact h3 l g

/-- A configuration that is found but not usable stops every command before it looks at anything: nothing is opened and nothing is written.
On all other machines every command gets past this point. -/
theorem C151_commands_partial (M : Machine) (S : Setup) (hS : S.On M) (c : Command) (disk : Disk) :
    (M.search = .unusable → ∀ P, Proc.Reachable S c P → P.loc = .early ∨ P.loc = .between ∨ P.loc = .exited 1 ∨ P.loc = .killed) ∧
    (M.search ≠ .unusable → ∃ P, Proc.Reachable S c P ∧ P.loc = .ready ∧ P.disk = disk) := by
  have hi := (C71_init_partial M registerFlags.cfgPath).1
  rw [show registerFlags.cfgPath = [] from rfl] at hi
  unfold Setup.On at hS
  rw [show registerFlags.cfgPath = [] from rfl] at hS
  constructor
  · intro hu P h
    have hc : S.configOk ≠ true := by
      intro hc
      rcases hi.1 (hS.1 hc) with ⟨h, _⟩ | ⟨_, h⟩
      · exact h rfl
      · exact h hu
    induction h with
    | start => exact .inl rfl
    | step _ st ih =>
      cases st with
      | first => exact .inr (.inl rfl)
      | second _ h => exact absurd h hc
      | badConfig => exact .inr (.inr (.inl rfl))
      | kill => exact .inr (.inr (.inr rfl))
      | early h => exact .inr (.inl h)
      | notify h =>
        rcases h with h | h | ⟨d, h⟩ | ⟨d, h⟩ <;> rw [h] at ih <;> simp at ih
      | badDir h => rw [h] at ih; simp at ih
      | goodDir h => rw [h] at ih; simp at ih
      | openFails h => rw [h] at ih; simp at ih
      | openOk h => rw [h] at ih; simp at ih
      | chunk _ h => rw [h] at ih; simp at ih
      | eof h => rw [h] at ih; simp at ih
      | readFails h => rw [h] at ih; simp at ih
      | inspect h => rw [h] at ih; simp at ih
      | cannotStart h => rw [h] at ih; simp at ih
      | begins h => rw [h] at ih; simp at ih
      | run h => rw [h] at ih; simp at ih
      | ends h => rw [h] at ih; simp at ih
      | dies h => rw [h] at ih; simp at ih
      | crashes h => rw [h] at ih; simp at ih
      | interrupt h => rw [h] at ih; simp at ih
  · intro hu
    have hc := hS.2 (hi.2 (.inr ⟨rfl, hu⟩))
    exact ⟨_, ((Proc.Reachable.start disk).step (.first rfl)).step (.second rfl hc), rfl, rfl⟩

/-- A file that asks for errors only is found, read and forgotten. -/
example : ∃ cfg ctx v, startProgram { search := .found { level := some (ascii "error"), format := none }, file := (fun _ => .missing), env := { level := none, format := some (ascii "json") } } ⟨none, none, none⟩ = some (cfg, ctx, v) ∧
    ctx.logger = some (.core .info .color) ∧ v.get = { level := some (ascii "error"), format := some (ascii "json") } :=
  ⟨_, _, _, rfl, by decide, by decide⟩

/-- A file that is no YAML ends the program, although another one was named. -/
example : startProgram { search := .unusable, file := (fun _ => .found { level := none, format := none }), env := { level := none, format := none } }
    ⟨none, none, some (ascii "my.yaml")⟩ = none := rfl

/-- Non-vacuity of `C151_commands_partial`, both ways. -/
example (S : Setup) : Setup.On { S with configOk := false } { search := .unusable, file := (fun _ => .missing), env := { level := none, format := none } } ∧
    Setup.On { S with configOk := true } { search := .missing, file := (fun _ => .missing), env := { level := none, format := none } } := by
  constructor
  · simp [Setup.On, initConfig, readInConfig, registerFlags]
  · simp [Setup.On, initConfig, readInConfig, registerFlags]

end Gotit.Props
