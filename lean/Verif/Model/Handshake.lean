import Verif.Model.Go
/-
  pkg/peer/peer.go: the peer handshake.
-/
namespace Gotit

/-- `bittorrentProto` (peer.go:23). -/
def bittorrentProto : Bytes := ascii "BitTorrent protocol"

/-- `clientIdPrefix` (peer.go:24). -/
def clientIdPrefix : Bytes := ascii "-GO0100-"

/-- `isHandshakeValid` (peer.go:64-76). The `peerId` parameter is not used by the Go code. -/
def isHandshakeValid (handshake hash : Bytes) : Bool :=
  if handshake.length < 68 then false
  else
    let resCode := handshake.headD 0
    let protocolSignature := (handshake.drop 1).take 19
    let sentHash := (handshake.drop 28).take 20
    resCode == 19 && protocolSignature == bittorrentProto && sentHash == hash

/-- `createHandshake` (peer.go:404-415). -/
def createHandshake (hash clientId : Bytes) : Bytes :=
  UInt8.ofNat bittorrentProto.length :: (bittorrentProto ++ (putBE 8 0 ++ (hash ++ clientId)))

/-- `createClientId` (peer.go:420-426): 20 bytes, the prefix, then 12 random bytes (`r.Read` fills the rest). -/
def createClientId (random : Bytes) : Bytes :=
  clientIdPrefix ++ ((random ++ List.replicate 12 0).take (20 - clientIdPrefix.length))

end Gotit
