import Verif.Model.Cli
import Verif.Model.Process
/-
  `initConfig` (pkg/cmd/app.go:66-93) and what becomes of the configuration.

  viper is not part of /repo. What is assumed of it is its documented behaviour: `SetConfigFile` names the file, otherwise `.gotit` is looked
  for in the two directories; `ConfigFileNotFoundError` is the error of a search that found nothing, a named file that cannot be
  opened gives the error of the operating system; a value of the environment goes before one of the file. Of the contents only
  the keys `log.level` and `log.format` of `AppConfig` (app.go:19-25) are kept.
-/
namespace Gotit

/-- The two settings in a file or in the environment. -/
structure Settings where
  level : Option Bytes
  format : Option Bytes
  deriving DecidableEq

/-- What is there under some name. -/
inductive Lookup where
  | found (s : Settings)
  /-- there is a file, but it cannot be read or is no YAML -/
  | unusable
  | missing
  deriving DecidableEq

/-- The machine the program is started on. -/
structure Machine where
  /-- looking for `.gotit` in `$HOME` and the working directory -/
  search : Lookup
  /-- the file of that name -/
  file : Bytes → Lookup
  /-- the environment variables with the prefix of the program -/
  env : Settings

/-- The errors of `ReadInConfig` that `errors.As` tells apart (app.go:79-82). -/
inductive ConfErr where
  | notFound
  | other
  deriving DecidableEq

/-- viper's global state after `initConfig`. -/
structure Viper where
  file : Settings
  env : Settings

/-- `viper.Get` of the two keys: no flag is bound to them (app.go:47-48 bind nil), so the environment and then the file. -/
def Viper.get (v : Viper) : Settings :=
  { level := v.env.level.or v.file.level, format := v.env.format.or v.file.format }

/-- `viper.ReadInConfig` after the calls of app.go:67-77. -/
def readInConfig (M : Machine) (cfgPath : Bytes) : Except ConfErr Settings :=
  if cfgPath ≠ [] then
    match M.file cfgPath with
    | .found s => .ok s
    | _ => .error .other
  else
    match M.search with
    | .found s => .ok s
    | .missing => .error .notFound
    | .unusable => .error .other

/-- `initConfig` (app.go:66-93). -/
def initConfig (M : Machine) (cfgPath : Bytes) : Except ConfErr Viper :=
  match readInConfig M cfgPath with
  | .ok s => .ok { file := s, env := M.env }
  | .error e =>
    if e = .notFound ∧ cfgPath ≠ [] then .error .notFound
    else if e ≠ .notFound then .error e
    else .ok { file := { level := none, format := none }, env := M.env }

/-- The program up to the body of a command, with the configuration (app.go:38-64, 95-118): as `startCommand`, but with `initConfig`
and viper's state. `none`: the program exits with status 1 because of the configuration. -/
def startProgram (M : Machine) (f : GlobalFlags) : Option (AppConfig × AppContext × Viper) :=
  let cfg := registerFlags
  match initConfig M cfg.cfgPath with
  | .error _ => none
  | .ok v =>
    let ctx : AppContext := { logger := newCommandLine cfg.level cfg.format, cfgPath := cfg.cfgPath }
    some (parseFlags cfg f, ctx, v)

/-- The process (Model/Process) finds that machine: what it sees of the configuration is whether `initConfig` succeeds (app.go:101-104). -/
def Setup.On (S : Setup) (M : Machine) : Prop := S.configOk = true ↔ ∃ v, initConfig M registerFlags.cfgPath = .ok v

end Gotit
