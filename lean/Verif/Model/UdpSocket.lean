import Verif.Model.UdpTracker
/-
  The attempts to announce to a UDP tracker, one after the other on the tracker's one socket (udp_tracker.go:49-62: the socket is made
  once; manager.go:80-107: all announces use it). What one attempt leaves unread the next one reads.
-/
namespace Gotit

/-- What one call of `Announce` meets: its random transaction id, the result of the first write, what has arrived on the socket since the
last read and until the deadline of `ReadUdpHandshake`, and from then until the deadline of `ReadAll` (if it gets that far). A reply that
comes too late for its attempt is among what arrives for a later one. -/
structure UdpAttempt where
  tid : Nat
  writeErr : Option String
  arrives : List Ev
  arrivesAll : List Ev

/-- The results of `handshake` (udp_tracker.go:92-114) in the attempts, given what is on the socket. After a successful one `Announce` sends its
request and calls `ReadAll` (udp_tracker.go:80-83), which takes everything that comes until its deadline, and then fails (C25); after a
failed one `Announce` returns. -/
def udpAttempts : UdpTracker → List Ev → List UdpAttempt → List (UdpRes Nat)
  | _, _, [] => []
  | t, pending, a :: as =>
    match udpHandshake t a.tid a.writeErr (pending ++ a.arrives) with
    | (t', left, .ok c) => .ok c :: udpAttempts t' (readAll [] (left ++ a.arrivesAll)).2 as
    | (t', left, r) => r :: udpAttempts t' left as

end Gotit
