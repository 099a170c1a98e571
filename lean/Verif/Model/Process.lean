import Verif.Model.Manager
import Verif.Model.Open
import Verif.Model.Describe
/-
  The program as a process (cmd/gotit/main.go, pkg/cmd/app.go, bencode.go, download.go): how it gets from its start to its end, and what signals
  (SIGINT, SIGTERM) do to it on the way.

  `NewApp` (app.go:38-60) constructs the commands one after the other, `bencode` first, and each construction runs `NewCmdRun` with its own
  `signal.NotifyContext` (app.go:98-99). From the first of these calls on a signal does not end the process any more; it cancels the contexts
  registered so far. `stop()` runs only when a command has returned (app.go:113).
-/
namespace Gotit

/-- The command given on the command line. (`version` prints three constants and ends.) -/
inductive Command where
  | bencode | download
  deriving DecidableEq

/-- What the process finds: whether the configuration can be read (app.go:101-104), what `os.Stat` says about the output directory, the file
system, the error with which the torrent file cannot be opened, if any, and the other oracles of `openTorrent`. -/
structure Setup where
  sha1 : Bytes → Bytes
  os : Os
  outDir : Bytes
  configOk : Bool
  stat : Except String Bool
  openError : Option String

/-- Where the process is. -/
inductive ProcLoc where
  /-- before the first `signal.NotifyContext` -/
  | early
  /-- after the one of `bencode` (app.go:55), before the one of `download` (app.go:56) -/
  | between
  /-- after both, before the torrent file is opened -/
  | ready
  /-- in `os.Open` (bencode.go:27, download.go:61) -/
  | opening
  /-- in `io.ReadAll` (bencode.go:32, download.go:66), with what has been read -/
  | reading (sofar : Bytes)
  /-- the file has been read -/
  | loaded (data : Bytes)
  /-- in `mng.Download` or `mng.Stop` (download.go:80-83) -/
  | running (σ : Mgr)
  | exited (code : Nat)
  /-- ended by a signal -/
  | killed

/-- The process. `cancelled`: the context of the command is cancelled, as long as the download has not begun. `signals`: how many signals have
arrived (not in the program). -/
structure Proc where
  loc : ProcLoc
  cancelled : Bool
  disk : Disk
  signals : Nat

/-- The process as it is started. -/
def Proc.start (disk : Disk) : Proc := ⟨.early, false, disk, 0⟩

/-- Who acts: the program (with peers and trackers, as in `Mgr.Step`), whoever provides the torrent file (the end of a pipe, a slow disk), or
whoever sends signals; or a peer's goroutine or the display, which are not part of `Mgr`, panics. -/
inductive ProcAct where
  | own | file | signal | crash
  deriving DecidableEq

/-- The steps. -/
inductive Proc.Step (S : Setup) (c : Command) : Proc → ProcAct → Proc → Prop
  /-- app.go:98-99 for `bencode` -/
  | first {P} : P.loc = .early → Step S c P .own { P with loc := .between }
  /-- app.go:98-99 for `download` -/
  | second {P} : P.loc = .between → S.configOk = true → Step S c P .own { P with loc := .ready }
  /-- app.go:101-104 -/
  | badConfig {P} : P.loc = .between → S.configOk = false → Step S c P .own { P with loc := .exited 1 }
  /-- download.go:52-59 and app.go:114-116 -/
  | badDir {P} : P.loc = .ready → c = .download → S.stat ≠ .ok true → Step S c P .own { P with loc := .exited 1 }
  | goodDir {P} : P.loc = .ready → (c = .download → S.stat = .ok true) → Step S c P .own { P with loc := .opening }
  /-- bencode.go:28-30, download.go:62-64 -/
  | openFails {P} : P.loc = .opening → S.openError ≠ none → Step S c P .file { P with loc := .exited 1 }
  | openOk {P} : P.loc = .opening → S.openError = none → Step S c P .file { P with loc := .reading [] }
  | chunk {P d} (bs : Bytes) : P.loc = .reading d → Step S c P .file { P with loc := .reading (d ++ bs) }
  | eof {P d} : P.loc = .reading d → Step S c P .file { P with loc := .loaded d }
  /-- bencode.go:33-35, download.go:67-69 -/
  | readFails {P d} : P.loc = .reading d → Step S c P .file { P with loc := .exited 1 }
  /-- bencode.go:37-47 -/
  | inspect {P d} : P.loc = .loaded d → c = .bencode → Step S c P .own { P with loc := .exited (inspectCommand (.ok (.ok d))).exit }
  /-- download.go:71-79 with an error or a panic -/
  | cannotStart {P d r disk out} : P.loc = .loaded d → c = .download → openTorrent S.sha1 S.os S.outDir S.stat (.ok d) P.disk = (r, disk) →
      downloadCommand r = some out → Step S c P .own { P with loc := .exited out.exit, disk := disk }
  /-- download.go:80-83: the download begins, perhaps with a cancelled context -/
  | begins {P d t disk} : P.loc = .loaded d → c = .download → openTorrent S.sha1 S.os S.outDir S.stat (.ok d) P.disk = (.ok t, disk) →
      Step S c P .own { P with loc := .running { Mgr.start t.trackers.length with cancelled := P.cancelled }, disk := disk }
  /-- a step of the download; the context is only cancelled by `Stop` here. (What is written to the disk is the matter of Model/Faults and
  Model/World.) -/
  | run {P σ σ'} : P.loc = .running σ → Mgr.Step σ σ' → (σ'.cancelled = σ.cancelled ∨ σ.main = .returned) →
      Step S c P .own { P with loc := .running σ' }
  /-- download.go:83: `Download` returns nil always; the command and `main` return -/
  | ends {P σ} : P.loc = .running σ → σ.panicked = none → σ.main = .stopped → Step S c P .own { P with loc := .exited 0 }
  /-- a goroutine has panicked -/
  | dies {P σ} : P.loc = .running σ → σ.panicked ≠ none → Step S c P .own { P with loc := .exited 2 }
  /-- a goroutine panics that is not in Model/Manager: a `Run` at a message of its peer (C74), the display (C137_print_violated) -/
  | crashes {P σ} : P.loc = .running σ → Step S c P .crash { P with loc := .exited 2 }
  /-- a signal nobody has registered for -/
  | kill {P} : P.loc = .early → Step S c P .signal { P with loc := .killed, signals := P.signals + 1 }
  /-- a signal when only the context of `bencode` is registered -/
  | early {P} : P.loc = .between → Step S c P .signal { P with cancelled := (c == .bencode) || P.cancelled, signals := P.signals + 1 }
  | notify {P} : P.loc = .ready ∨ P.loc = .opening ∨ (∃ d, P.loc = .reading d) ∨ (∃ d, P.loc = .loaded d) →
      Step S c P .signal { P with cancelled := true, signals := P.signals + 1 }
  | interrupt {P σ} : P.loc = .running σ → σ.panicked = none →
      Step S c P .signal { P with loc := .running { σ with cancelled := true }, signals := P.signals + 1 }

/-- The states a process can get into. -/
inductive Proc.Reachable (S : Setup) (c : Command) : Proc → Prop
  | start (disk : Disk) : Reachable S c (Proc.start disk)
  | step {P a P'} : Reachable S c P → Proc.Step S c P a P' → Reachable S c P'

end Gotit
