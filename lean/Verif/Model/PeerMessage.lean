import Verif.Model.BitSet
/-
  pkg/util/peer_message.go
-/
namespace Gotit

/-- `PeerMessage` (peer_message.go:29-37). The `uint32` fields are natural numbers below 2^32. -/
structure PeerMessage where
  len : Nat
  type : UInt8
  payload : Bytes
  index : Nat := 0
  offset : Nat := 0
  blockLength : Nat := 0
  deriving DecidableEq

/-- Message types (peer_message.go:13-27). -/
def chokeType : UInt8 := 0
def unchokeType : UInt8 := 1
def interestedType : UInt8 := 2
def notInterestedType : UInt8 := 3
def haveType : UInt8 := 4
def bitfieldType : UInt8 := 5
def requestType : UInt8 := 6
def pieceType : UInt8 := 7
def cancelType : UInt8 := 8
def keepaliveType : UInt8 := 99

/-- `KeepalivePeerMessage` (peer_message.go:46-49). -/
def keepaliveMessage : PeerMessage := { len := 0, type := keepaliveType, payload := [] }

/-- `binary.BigEndian.Uint32(b[i:i+4])`: panics if the slice is too short (its capacity equals its length here). -/
def uint32At (b : Bytes) (i : Nat) : Res Nat :=
  if b.length < i + 4 then .panic "slice bounds out of range" else .ok (getBE ((b.drop i).take 4))

/-- `NewPeerMessage` (peer_message.go:53-81). `data` comes from `readExactly`, whose slice has no spare capacity. -/
def newPeerMessage : Bytes → Res PeerMessage
  | [] => .ok keepaliveMessage
  | ty :: payload =>
    let msg : PeerMessage := { len := (payload.length + 1) % 2 ^ 32, type := ty, payload := payload }
    if ty = haveType then
      (uint32At payload 0).bind fun i => .ok { msg with index := i }
    else if ty = requestType ∨ ty = cancelType then
      (uint32At payload 0).bind fun i => (uint32At payload 4).bind fun o => (uint32At payload 8).bind fun l =>
        .ok { msg with index := i, offset := o, blockLength := l }
    else if ty = pieceType then
      (uint32At payload 0).bind fun i => (uint32At payload 4).bind fun o => .ok { msg with index := i, offset := o }
    else .ok msg

/-- The bytes `Send` writes in one `Write` call (peer_message.go:83-95). -/
def PeerMessage.wire (m : PeerMessage) : Bytes :=
  if m.type = keepaliveType then putBE 4 m.len
  else putBE 4 m.len ++ m.type :: m.payload

/-- `Data` (peer_message.go:109-115): nil unless a piece; `payload[8:]` panics on a short payload. -/
def PeerMessage.data (m : PeerMessage) : Res Bytes :=
  if m.type ≠ pieceType then .ok []
  else if m.payload.length < 8 then .panic "slice bounds out of range"
  else .ok (m.payload.drop 8)

/-- The 8-byte groups of a payload whose length is a multiple of 8 (peer_message.go:129-132). -/
def words64 : Nat → Bytes → List Nat
  | 0, _ => []
  | n + 1, bs => getBE (bs.take 8) :: words64 n (bs.drop 8)

/-- Padding of peer_message.go:126-128. -/
def pad8 (payload : Bytes) : Bytes :=
  if payload.length % 8 = 0 then payload else payload ++ List.replicate (8 - payload.length % 8) 0

/-- `createBitset` (peer_message.go:125-134). -/
def createBitset (payload : Bytes) : BitSet :=
  BitSet.fromWords (words64 ((pad8 payload).length / 8) (pad8 payload))

/-- `Bitfield` (peer_message.go:117-123): nil unless a bitfield message. -/
def PeerMessage.bitfield (m : PeerMessage) : Option BitSet :=
  if m.type ≠ bitfieldType then none else some (createBitset m.payload)

/-- `createSignalMessage` (peer_message.go:152-157) and its users (136-150). -/
def signalMessage (ty : UInt8) : PeerMessage := { len := 1, type := ty, payload := [] }
def interestedMessage : PeerMessage := signalMessage interestedType

/-- `PutUint32(payload, v)` overwrites the first four bytes. -/
def put32 (payload : Bytes) (v : Nat) : Bytes := putBE 4 v ++ payload.drop 4

/-- `createHaveMessage` (peer_message.go:174-185). -/
def haveMessage (index : Nat) : PeerMessage :=
  { len := 5, type := haveType, payload := put32 (List.replicate 4 0) index }

/-- `createCancelMessage` (peer_message.go:187-203): all three numbers are put at offset 0. -/
def cancelMessage (index offset blockLength : Nat) : PeerMessage :=
  { len := 13, type := cancelType,
    payload := put32 (put32 (put32 (List.replicate 12 0) index) offset) blockLength,
    index := index, offset := offset, blockLength := blockLength }

/-- `CreatePieceMessage` (peer_message.go:205-220): all three numbers are put at offset 0. -/
def requestMessage (index offset blockLength : Nat) : PeerMessage :=
  { len := 13, type := requestType,
    payload := put32 (put32 (put32 (List.replicate 12 0) index) offset) blockLength,
    index := index, offset := offset, blockLength := blockLength }

/-- `createBitfieldMessage` (peer_message.go:159-172): the payload repeats the header. -/
def bitfieldMessage (b : BitSet) : PeerMessage :=
  { len := (b.len + 1) % 2 ^ 32, type := bitfieldType,
    payload := putBE 4 (b.len + 1) ++ bitfieldType :: b.words.flatMap (putBE 8) }

end Gotit
