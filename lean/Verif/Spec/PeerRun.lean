import Verif.Model.PeerRun
/-
  What the log of a `Run` says, without looking at the program.
-/
namespace Gotit.Spec
open Gotit

/-- The remote peer's last word on choking, `init` before the first one. -/
def chokedBy (init : Bool) (log : List RunEv) : Bool :=
  log.foldl (fun c e => match e with
    | .received (0 :: _) => true
    | .received (1 :: _) => false
    | _ => c) init

/-- Book-keeping of requests: the one outstanding, those that have to go to the retry queue, and whether the last event was
that an interested message was sent. -/
structure Ledger where
  outstanding : Option PeerMessage := none
  due : List PeerMessage := []
  asked : Bool := false

/-- A request that is sent is outstanding until a read fails; then it is due for the retry queue, as is a request that could
not be sent. If `all` is false, a read error right after an interested message does not count. -/
def Ledger.add (all : Bool) (l : Ledger) : RunEv → Ledger
  | .sent m =>
    if m.type = 6 then { outstanding := some m, due := l.due, asked := false }
    else { l with asked := m.type == 2 }
  | .sendFailed m => { l with due := if m.type = 6 then l.due ++ [m] else l.due, asked := false }
  | .readFailed =>
    if all || !l.asked then { outstanding := none, due := l.due ++ l.outstanding.toList, asked := false }
    else { l with asked := false }
  | _ => { l with asked := false }

def ledger (all : Bool) (log : List RunEv) : Ledger := log.foldl (Ledger.add all) {}

/-- What was put in the retry queue. -/
def requeuedIn (log : List RunEv) : List (Option PeerMessage) := log.filterMap (fun | .requeued m => some m | _ => none)

/-- The requests written to the connection. -/
def requestsSent (log : List RunEv) : List PeerMessage :=
  log.filterMap (fun | .sent m => if m.type = 6 then some m else none | _ => none)

/-- A request was written, or writing it failed, or `Next` has nothing to ask for. -/
def Attempt : RunEv → Prop
  | .sent m => m.type = 6
  | .sendFailed m => m.type = 6
  | .req (.next none) => True
  | _ => False

end Gotit.Spec
