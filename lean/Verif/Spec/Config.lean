import Verif.Model.Config
import Verif.Spec.Cli
/-
  C151: what the configuration says takes effect.
-/
namespace Gotit.Spec
open Gotit

/-- The file somebody means: the one named with `--config`, or else the one that is found. -/
def meantFile (M : Machine) (f : GlobalFlags) : Lookup :=
  match f.config with
  | some path => M.file path
  | none => M.search

/-- What a file says about the level, if it can be read. -/
def levelIn : Lookup → Option Bytes
  | .found s => s.level
  | _ => none

/-- The level somebody asks for: the flag goes before the environment and that before the file; `info` if nothing is said. -/
def meantLevel (M : Machine) (f : GlobalFlags) : Bytes :=
  match f.level, M.env.level, levelIn (meantFile M f) with
  | some l, _, _ => l
  | none, some l, _ => l
  | none, none, some l => l
  | none, none, none => ascii "info"

/-- The same for the format; `color` if nothing is said. -/
def formatIn : Lookup → Option Bytes
  | .found s => s.format
  | _ => none

def meantFormat (M : Machine) (f : GlobalFlags) : Bytes :=
  match f.format, M.env.format, formatIn (meantFile M f) with
  | some l, _, _ => l
  | none, some l, _ => l
  | none, none, some l => l
  | none, none, none => ascii "color"

/-- C151: if the program gets to the command, the logger has the level asked for. -/
def ConfigTakesEffect : Prop :=
  ∀ M f cfg ctx v, startProgram M f = some (cfg, ctx, v) → ∀ l : Verbosity, meantLevel M f = l.name →
    ∃ lg, ctx.logger = some lg ∧ hasVerbosity lg l

/-- C151 for the format, for loggers that say something. -/
def FormatTakesEffect : Prop :=
  ∀ M f cfg ctx v, startProgram M f = some (cfg, ctx, v) → ∀ e : ZapEncoder, meantFormat M f = formatName e →
    ctx.logger = some .nop ∨ ∃ l, ctx.logger = some (.core l e)

end Gotit.Spec
