import Verif.Model.Go
import Verif.Model.Bencode
/-
  pkg/logger/logger.go and pkg/cmd/app.go: how the logger is chosen and when.

  Flag values are taken to be ASCII; `strings.ToLower` and `strings.TrimSpace` do more for other characters.
-/
namespace Gotit

/-- `strings.ToLower` on ASCII. -/
def toLower (s : Bytes) : Bytes := s.map fun c => if 65 ≤ c ∧ c ≤ 90 then c + 32 else c

/-- The ASCII white space of `strings.TrimSpace`. -/
def isSpace (c : UInt8) : Bool := c == 32 || (9 ≤ c && c ≤ 13)

/-- `strings.TrimSpace` on ASCII. -/
def trimSpace (s : Bytes) : Bytes := ((s.dropWhile isSpace).reverse.dropWhile isSpace).reverse

/-- `zapcore.Level` as far as it is used. -/
inductive ZapLevel where
  | debug | info | warn | error
  deriving DecidableEq

/-- `getZapLevel` (logger.go:12-26). -/
def getZapLevel (level : Bytes) : Option ZapLevel :=
  let l := trimSpace (toLower level)
  if l = ascii "debug" then some .debug
  else if l = ascii "info" ∨ l = [] then some .info
  else if l = ascii "warn" then some .warn
  else if l = ascii "error" then some .error
  else none

/-- The encoders. -/
inductive ZapEncoder where
  | text | color | json
  deriving DecidableEq

/-- `getZapEncoder` (logger.go:28-40). -/
def getZapEncoder (format : Bytes) : Option ZapEncoder :=
  let f := trimSpace (toLower format)
  if f = ascii "text" then some .text
  else if f = ascii "color" ∨ f = [] then some .color
  else if f = ascii "json" then some .json
  else none

/-- A logger: `zap.NewNop()` or one with a level and an encoder. -/
inductive Logger where
  | nop
  | core (level : ZapLevel) (encoder : ZapEncoder)
  deriving DecidableEq

/-- `NewCommandLine` (logger.go:103-118). `none`: the logger is nil and there is an error. -/
def newCommandLine (level format : Bytes) : Option Logger :=
  if level = ascii "silent" then some .nop
  else (getZapLevel level).bind fun l => (getZapEncoder format).bind fun e => some (.core l e)

/-- `AppConfig` (app.go:19-25). -/
structure AppConfig where
  level : Bytes
  format : Bytes
  cfgPath : Bytes

/-- The values given on the command line, if any. -/
structure GlobalFlags where
  level : Option Bytes
  format : Option Bytes
  config : Option Bytes

/-- What the flag definitions leave in `cfg` (app.go:43-46): `StringVarP` stores the default at once. (`BindPFlag` is given nil,
as persistent flags are not in `rootCmd.Flags()` yet; it fails and the failure is ignored, app.go:47-48. Nothing reads
those viper keys anyway.) -/
def registerFlags : AppConfig := { level := ascii "info", format := ascii "color", cfgPath := [] }

/-- What a command keeps from `NewCmdRun` (app.go:95-111): the logger, and the path of the configuration that was read. -/
structure AppContext where
  logger : Option Logger
  cfgPath : Bytes

/-- `NewCmdRun` (app.go:95-118) up to the `return`: runs when the command is constructed. `none`: the program exits because the
configuration cannot be read. -/
def newCmdRun (readConfig : Bytes → Bool) (cfg : AppConfig) : Option AppContext :=
  if readConfig cfg.cfgPath then some { logger := newCommandLine cfg.level cfg.format, cfgPath := cfg.cfgPath } else none

/-- Parsing the command line (`rootCmd.Execute`, app.go:62-64): the flags given are stored in `cfg`. -/
def parseFlags (cfg : AppConfig) (f : GlobalFlags) : AppConfig :=
  { level := f.level.getD cfg.level, format := f.format.getD cfg.format, cfgPath := f.config.getD cfg.cfgPath }

/-- The program up to the body of a command (cmd/gotit, app.go:38-64): `NewApp` registers the flags and constructs the commands,
which runs `NewCmdRun`; `Execute` parses the flags and calls the closure. The result is `cfg` as parsed and what the command
gets. -/
def startCommand (readConfig : Bytes → Bool) (f : GlobalFlags) : Option (AppConfig × AppContext) :=
  let cfg := registerFlags
  (newCmdRun readConfig cfg).bind fun ctx =>
    let cfg := parseFlags cfg f
    some (cfg, ctx)

end Gotit
