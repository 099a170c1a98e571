import Verif.Model.Manager
import Verif.Model.Torrent
/-
  C126, C127: the trackers of a torrent file (BEP 3, BEP 12) and its web seeds (BEP 19).
-/
namespace Gotit.Spec
open Gotit

/-- `u` is named as a tracker: `announce`, or in a tier of `announce-list`. (`url-list` names web seeds: servers with the content
itself.) -/
def NamedTracker (m : Metainfo) (u : Bytes) : Prop := u = m.announce ∨ ∃ tier ∈ m.announceList, u ∈ tier

/-- Goroutine `i` of the download is that of `us[i]`. BEP 12: a tracker of a later tier is used only after those of the earlier tiers
have been tried. -/
def TierOrder (tiers : List (List Bytes)) (us : List Bytes) (σ : Mgr) : Prop :=
  ∀ (a b : Nat) (ta tb : List Bytes) (i j : Nat) (u v : Bytes), tiers[a]? = some ta → tiers[b]? = some tb → a < b →
    u ∈ ta → v ∈ tb → (∀ (c : Nat) (tc : List Bytes), tiers[c]? = some tc → c < b → v ∉ tc) → us[i]? = some u → us[j]? = some v →
    σ.trackers[j]? = some .announcing → σ.trackers[i]? ≠ some .start

/-- BEP 12: if there are tiers, `announce` is not used. -/
def AnnounceIgnored (m : Metainfo) (used : List Bytes) : Prop :=
  m.announceList ≠ [] → (∀ tier ∈ m.announceList, m.announce ∉ tier) → m.announce ∉ used

end Gotit.Spec
