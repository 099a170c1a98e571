import Verif.Model.Net
import Verif.Model.Handshake
import Verif.Model.Retry
/-
  Contacting a peer: `Peer.connect`, `Peer.Announce`, `Peer.Close` (pkg/peer/peer.go:122-154, 305-307) and
  `Manager.startPeerDownload` (pkg/download/manager.go:148-179), over the sockets of `Model/Net.lean`.
-/
namespace Gotit

/-- What the network does in one attempt to contact a peer: whether `net.DialTimeout` (connection.go:28) fails and with what,
whether writing the 68 bytes fails, and what happens on the reading side of the new connection. -/
structure Attempt where
  dial : Option String
  write : Option String
  evs : List Ev

/-- The connections of one peer. They are numbered in the order in which they are established. -/
structure Link where
  /-- number of connections established so far -/
  opened : Nat
  /-- the connections `Close` was called on -/
  closed : List Nat
  /-- `p.conn`: its number and what still happens on it; `none` is nil -/
  conn : Option (Nat × List Ev)
  /-- what was handed to `Write`, with the number of the connection -/
  sent : List (Nat × Bytes)

/-- A peer made by `NewPeer` (peer.go:96-120): `conn: nil`. -/
def Link.new : Link := { opened := 0, closed := [], conn := none, sent := [] }

/-- `Peer.Announce` (peer.go:133-154) with `connect` (peer.go:122-131) in it. `connect` overwrites `p.conn` (with nil if dialling
fails, connection.go:29-31) and does not close the old connection. `lastMsgSent` is not part of this model. -/
def peerAnnounce (hash clientId : Bytes) (a : Attempt) (l : Link) : Link × Res Unit :=
  match a.dial with
  | some e => ({ l with conn := none }, .err ("peer connect: " ++ e))
  | none =>
    let k := l.opened
    let l1 : Link := { l with opened := k + 1, conn := some (k, a.evs), sent := l.sent ++ [(k, createHandshake hash clientId)] }
    match a.write with
    | some e => (l1, .err ("peer handshake: " ++ e))
    | none =>
      match readPeerHandshake a.evs with
      | (.err e, evs) => ({ l1 with conn := some (k, evs) }, .err e)
      | (.panic e, evs) => ({ l1 with conn := some (k, evs) }, .panic e)
      | (.ok response, evs) =>
        if isHandshakeValid response hash then ({ l1 with conn := some (k, evs) }, .ok ())
        else ({ l1 with conn := some (k, evs) }, .err "peer handshake invalid")

/-- `startPeerDownload` (manager.go:148-179): the connections afterwards, and whether the goroutine with `peer.Run` was started
(otherwise `RemovePeer` was called). `tries n` is what the network does in attempt number `n`. -/
def startPeerDownload (hash clientId : Bytes) (tries : Nat → Attempt) (before : Bool) (stop : Nat → Bool) (l : Link) : Link × Bool :=
  match announceToPeer (fun n l => peerAnnounce hash clientId (tries n) l) before stop l with
  | (l', _, .ok ()) => (l', true)
  | (l', _, _) => (l', false)

/-- `Peer.Close` (peer.go:305-307): panics if `p.conn` is nil (connection.go:106-108 reads `c.c` of a nil pointer). -/
def peerClose (l : Link) : Link × Res Unit :=
  match l.conn with
  | none => (l, .panic "nil pointer dereference")
  | some (k, _) => ({ l with closed := k :: l.closed }, .ok ())

end Gotit
