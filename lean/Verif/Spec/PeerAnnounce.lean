import Verif.Model.PeerAnnounce
import Verif.Spec.Stream
/-
  C85, C86: which peers are talked to, and which connections stay open.
-/
namespace Gotit.Spec
open Gotit

/-- The 20 bytes with which every BitTorrent connection starts (BEP 3). -/
def torrentGreeting : Bytes := 19 :: "BitTorrent protocol".toList.map (fun c => UInt8.ofNat c.toNat)

/-- On the connection arrives, without an error in between and however cut into segments, the handshake of somebody who has the
torrent `hash`; after that, `more` and then whatever `rest` says. -/
def Introduces (hash : Bytes) (evs : List Ev) (more : Bytes) (rest : List Ev) : Prop :=
  ∃ segs reserved id, evs = deliver segs ++ rest ∧ reserved.length = 8 ∧ id.length = 20 ∧
    segs.flatten = torrentGreeting ++ reserved ++ hash ++ id ++ more

/-- In this attempt the connection is established, our handshake goes out, and the peer introduces itself. -/
def Reached (hash : Bytes) (a : Attempt) : Prop :=
  a.dial = none ∧ a.write = none ∧ ∃ more rest, Introduces hash a.evs more rest

/-- Attempt number `m` is the last one made: nobody was reached and nothing cancelled before it, and it reached the peer, was the
fifth, or was followed by a cancellation. -/
def LastAttempt (hash : Bytes) (tries : Nat → Attempt) (stop : Nat → Bool) (m : Nat) : Prop :=
  m < 5 ∧ (∀ k, k < m → ¬ Reached hash (tries k) ∧ stop k = false) ∧ (Reached hash (tries m) ∨ m = 4 ∨ stop m = true)

/-- A connection that was established and never closed. -/
def StillOpen (l : Link) (k : Nat) : Prop := k < l.opened ∧ k ∉ l.closed

/-- Number of attempts among the first `n` in which a connection was established. -/
def established (tries : Nat → Attempt) : Nat → Nat
  | 0 => 0
  | n + 1 => established tries n + (if (tries n).dial = none then 1 else 0)

end Gotit.Spec
