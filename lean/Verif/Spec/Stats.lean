import Verif.Model.Stats
/-
  What the counters should be, from the calls alone.
-/
namespace Gotit.Spec
open Gotit

/-- Bytes reported by `AddDownload` calls. -/
def downloadedBy (calls : List StatOp) : Nat := (calls.map (fun | .addDownload n => n | _ => 0)).sum
/-- Bytes reported by `AddUpload` calls. -/
def uploadedBy (calls : List StatOp) : Nat := (calls.map (fun | .addUpload n => n | _ => 0)).sum
/-- Peers added minus peers removed. -/
def peersBy (calls : List StatOp) : Int := (calls.map (fun | .addPeer => 1 | .removePeer => -1 | _ => 0)).sum
/-- Trackers added minus trackers removed. -/
def trackersBy (calls : List StatOp) : Int := (calls.map (fun | .addTracker => 1 | .removeTracker => -1 | _ => 0)).sum

/-- A bar with `k` of `n` cells filled, and the percentage. -/
def bar (k n : Nat) (percent : Int) : Bytes :=
  ascii "|" ++ (List.replicate k [0xE2, 0x96, 0x88]).flatten ++ List.replicate (n - k) 32 ++ ascii "|  " ++ itoa percent ++ ascii "%"

end Gotit.Spec
