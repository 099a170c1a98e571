import Verif.Spec.Manager
/-
  C98, C99: peers that are not connected any more.
-/
namespace Gotit.Spec
open Gotit

/-- The address was tried before, and is neither being tried nor connected. -/
def Gone (a : Bytes) (σ : Mgr) : Prop :=
  a ∈ wasAdded σ.adds ∧ a ∉ handshaking σ.trackers ∧ a ∉ σ.running.map PeerRef.addr

/-- A tracker names the address: it is the next one `initPeers` looks at. -/
def NamedAgain (a : Bytes) (σ : Mgr) : Prop := ∃ ips, .adding (a :: ips) ∈ σ.trackers

/-- The peers that were connected and are not any more. -/
def departed (σ : Mgr) : List Bytes :=
  (wasAdded σ.adds).filter fun a => !(handshaking σ.trackers).contains a && !(σ.running.map PeerRef.addr).contains a && !σ.failed.contains a

/-- C98: a peer that is named again by a tracker after its connection could not be made or has ended can be connected to again. -/
def TriedAgain : Prop :=
  ∀ n limit σ a, Mgr.Reachable n limit σ → σ.panicked = none → σ.cancelled = false → Gone a σ → NamedAgain a σ →
    ∃ σ', Later σ σ' ∧ (a ∈ handshaking σ'.trackers ∨ a ∈ σ'.running.map PeerRef.addr)

/-- C99: the number of peers shown is the number of connected peers. -/
def NumberRight : Prop := ∀ n limit σ, Mgr.Reachable n limit σ → σ.peerNum = σ.running.length

end Gotit.Spec
