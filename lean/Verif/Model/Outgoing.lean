import Verif.Model.PeerRun
/-
  pkg/gotitnet/connection.go: WriteMsg, and what it leaves on the connection when it fails.

  `Run` (Model/PeerRun.lean) records which writes succeeded and which failed. A write that fails may have sent a part of the message.
-/
namespace Gotit

/-- The bytes that leave through the connection while the events happen (connection.go:72-77, `Send` in peer_message.go:83-95).
`net.Conn.Write` either writes everything or returns an error after fewer bytes, for example because the deadline of one second has passed:
`cut i` says how many bytes the write that failed as event number `i` had sent. -/
def outgoingFrom (cut : Nat → Nat) : Nat → List RunEv → Bytes
  | _, [] => []
  | i, .sent m :: es => m.wire ++ outgoingFrom cut (i + 1) es
  | i, .sendFailed m :: es => m.wire.take (min (cut i) (m.wire.length - 1)) ++ outgoingFrom cut (i + 1) es
  | i, .received _ :: es => outgoingFrom cut (i + 1) es
  | i, .readFailed :: es => outgoingFrom cut (i + 1) es
  | i, .req _ :: es => outgoingFrom cut (i + 1) es
  | i, .requeued _ :: es => outgoingFrom cut (i + 1) es
  | i, .accepted _ :: es => outgoingFrom cut (i + 1) es

/-- All that a call of `Run` has sent. -/
def outgoing (cut : Nat → Nat) (log : List RunEv) : Bytes := outgoingFrom cut 0 log

end Gotit
