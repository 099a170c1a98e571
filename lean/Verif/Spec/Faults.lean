import Verif.Model.World
import Verif.Spec.Files
/-
  What is on the disk.
-/
namespace Gotit.Spec
open Gotit

/-- The files hold the bytes `d` from position `pos` of the torrent on, as far as the torrent reaches. -/
def OnDisk (disk : Disk) (fs : List (Nat × Bytes)) (pos : Nat) (d : Bytes) : Prop :=
  ∀ j, j < d.length → pos + j < total fs → (layout disk fs)[pos + j]? = d[j]?

end Gotit.Spec
