import Verif.Model.Files
import Verif.Model.TrackerNew
/-
  pkg/download/manager.go:70-84: whom `getIps` has announced to.
-/
namespace Gotit

/-- The trackers of the goroutines that `getIps` starts (manager.go:75-77), one for every URL of the set, as far as `tracker.New`
makes one of the URL (manager.go:81-84); each of them announces (manager.go:86-106). The order is that of a Go map, any. -/
def announcedTo (rest : Bytes → Bytes → Bytes → Option Bytes) (dial : Bytes → Bool) (t : Torrent) : List NewTracker :=
  (t.trackers.map (trackerNew rest dial)).filter (· ≠ .err)

end Gotit
