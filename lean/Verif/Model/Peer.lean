import Verif.Model.Files
import Verif.Model.PeerMessage
/-
  pkg/peer/peer.go: the state of a peer, message handling and request creation. `Run` is in Model/PeerRun.lean,
  the handshake in Model/Handshake.lean.
-/
namespace Gotit

/-- The fields of `Peer` and its two `Status` values (peer.go:35-62) that influence its behaviour. -/
structure Peer where
  bitset : BitSet
  peerChoked : Bool
  peerInterested : Bool
  clientChoked : Bool
  clientInterested : Bool
  blockIdx : Nat
  pieceIdx : Nat
  blockNum : Nat

/-- `NewPeer` (peer.go:96-120) with `newPeerStatus` (92-94) and `EmptyBitset` (torrent.go:260-262). -/
def newPeer (t : Torrent) : Peer :=
  { bitset := bitsetNew t.piecesNum, peerChoked := true, peerInterested := false, clientChoked := true,
    clientInterested := false, blockIdx := 0, pieceIdx := 0, blockNum := (t.pieceLength % 2 ^ 64).toNat / blockLength }

/-- `createPieceMessage` (peer.go:78-90). -/
def Peer.createPieceMessage (p : Peer) : PeerMessage × Peer :=
  (requestMessage (p.pieceIdx % 2 ^ 32) (p.blockIdx * blockLength % 2 ^ 64 % 2 ^ 32) blockLength,
   { p with blockIdx := (p.blockIdx + 1) % 2 ^ 64 })

/-- What `nextRequestMessage` does to the outside. -/
inductive ReqEv where
  /-- `FailedPieceMessage()` returned this request -/
  | popped (m : PeerMessage)
  /-- `Next()` returned this piece, or nothing -/
  | next (r : Option Nat)
  /-- `createPieceMessage` made this request -/
  | created (m : PeerMessage)

/-- `nextRequestMessage` (peer.go:284-303). `failed` is what `FailedPieceMessage()` returns and `next` what
`Next(p.Bitset)` returns if they are called. -/
def Peer.nextRequestMessage (p : Peer) (failed : Option PeerMessage) (next : Option Nat) :
    Option PeerMessage × Peer × List ReqEv :=
  if p.blockIdx ≥ p.blockNum then
    match failed with
    | some req => (some req, p, [.popped req])
    | none =>
      match next with
      | none => (none, p, [.next none])
      | some indx =>
        let (m, p) := Peer.createPieceMessage { p with blockIdx := 0, pieceIdx := indx }
        (some m, p, [.next (some indx), .created m])
  else
    let (m, p) := p.createPieceMessage
    (some m, p, [.created m])

/-- The part of `handlePieceMessage` (peer.go:393-402) before the channel send: the message to send, if any. -/
def acceptPiece (sha1 : Bytes → Bytes) (t : Torrent) (msg : PeerMessage) : Res (Option PeerMessage) :=
  msg.data.bind fun data => (checkPiece sha1 t data msg.index).bind fun ok => .ok (if ok then some msg else none)

/-- `handlePeerMessage` (peer.go:325-365). The result is the message given to the writer, if any, and the peer afterwards.
(The bit of an accepted piece is set after the channel send; nothing reads it in between.) -/
def Peer.handlePeerMessage (sha1 : Bytes → Bytes) (t : Torrent) (p : Peer) (msg : PeerMessage) : Res (Option PeerMessage × Peer) :=
  if msg.type = keepaliveType then .ok (none, p)
  else if msg.type = bitfieldType then .ok (none, { p with bitset := createBitset msg.payload })
  else if msg.type = haveType then .ok (none, { p with bitset := p.bitset.set msg.index })
  else if msg.type = interestedType then .ok (none, { p with peerInterested := true })
  else if msg.type = notInterestedType then .ok (none, { p with peerInterested := false })
  else if msg.type = chokeType then .ok (none, { p with clientChoked := true })
  else if msg.type = unchokeType then .ok (none, { p with clientChoked := false })
  else if msg.type = pieceType then
    (acceptPiece sha1 t msg).bind fun
      | some m => .ok (some m, { p with bitset := p.bitset.set msg.index })
      | none => .ok (none, p)
  else .ok (none, p)

/-- `SendUnchoke` (peer.go:375-386): the message sent, if any; `sendOk` tells whether the connection accepts it. -/
def Peer.sendUnchoke (p : Peer) (sendOk : Bool) : Option PeerMessage × Res Unit × Peer :=
  if ¬ p.peerInterested then (none, .ok (), p)
  else if sendOk then (some (signalMessage unchokeType), .ok (), { p with peerChoked := false })
  else (none, .err "write", p)

end Gotit
