import Verif.Model.Cli
/-
  C67, C71: what the help text promises (app.go:43-45).
-/
namespace Gotit.Spec
open Gotit

/-- The documented levels, from loud to quiet. -/
inductive Verbosity where
  | trace | debug | info | warning | error | silent
  deriving DecidableEq

/-- Their names. -/
def Verbosity.name : Verbosity → Bytes
  | .trace => ascii "trace"
  | .debug => ascii "debug"
  | .info => ascii "info"
  | .warning => ascii "warning"
  | .error => ascii "error"
  | .silent => ascii "silent"

/-- A logger is of a level: it says what that level asks for and nothing below it. zap has no trace level; the most it can say
is debug. -/
def hasVerbosity : Logger → Verbosity → Prop
  | .nop, v => v = .silent
  | .core .debug _, v => v = .debug ∨ v = .trace
  | .core .info _, v => v = .info
  | .core .warn _, v => v = .warning
  | .core .error _, v => v = .error

/-- The documented formats. -/
def formatName : ZapEncoder → Bytes
  | .text => ascii "text"
  | .color => ascii "color"
  | .json => ascii "json"

/-- The white space of ASCII: tab, line feed, vertical tab, form feed, carriage return, space. -/
def whiteSpace : List UInt8 := [9, 10, 11, 12, 13, 32]

/-- Capital and small letters. -/
def letterPairs : List (UInt8 × UInt8) := (ascii "ABCDEFGHIJKLMNOPQRSTUVWXYZ").zip (ascii "abcdefghijklmnopqrstuvwxyz")

/-- Words that differ at most in capitals: `w` is in small letters. -/
inductive SameWord : Bytes → Bytes → Prop
  | nil : SameWord [] []
  | same {s w} (c : UInt8) : SameWord s w → SameWord (c :: s) (c :: w)
  | capital {s w c d} : (c, d) ∈ letterPairs → SameWord s w → SameWord (c :: s) (d :: w)

/-- A text is a word in small letters, up to capitals and white space around it. -/
def IsWord (s w : Bytes) : Prop :=
  ∃ before core after, s = before ++ core ++ after ∧ (∀ c ∈ before ++ after, c ∈ whiteSpace) ∧ SameWord core w

/-- The words the logger takes for its levels. -/
def levelWord : ZapLevel → Bytes
  | .debug => ascii "debug"
  | .info => ascii "info"
  | .warn => ascii "warn"
  | .error => ascii "error"

end Gotit.Spec
