import Verif.Model.Net
/-
  pkg/gotitnet/connection.go once more, with clock times (in nanoseconds). Model/Net.lean has the same functions with a deadline that passes
  at some moment. Computing takes no time here; only waiting for the network does.
-/
namespace Gotit

/-- `PeerTimeout` (connection.go:14). -/
def peerLimit : Nat := 1000000000
/-- `TrackerTimeout` (connection.go:15). -/
def trackerLimit : Nat := 500000000

/-- `io.ReadFull` of `n` bytes from a socket with a read deadline, starting at time `now`; the socket is the list of what arrives and
when (an event `timeout` does not occur in it). A read at or after the deadline fails at once, even if there is something to read;
otherwise it waits for the next thing to arrive, until the deadline at most. Returns what is left on the socket and the time. -/
def timedReadFull (k : Kind) (deadline : Nat) : Nat → List (Nat × Ev) → Nat → Res Bytes × List (Nat × Ev) × Nat
  | 0, evs, now => (.ok [], evs, now)
  | _ + 1, [], now => (.err "i/o timeout", [], max now deadline)
  | n + 1, (t, e) :: evs, now =>
    if max t now < deadline then
      match e with
      | .data d =>
        if n + 1 ≤ d.length then (.ok (d.take (n + 1)), (putBack k (n + 1) d []).map (t, ·) ++ evs, max t now)
        else
          match timedReadFull k deadline (n + 1 - d.length) evs (max t now) with
          | (.ok r, x) => (.ok (d ++ r), x)
          | x => x
      | .timeout => (.err "i/o timeout", evs, max t now)
      | .fail e => (.err e, evs, max t now)
      | .eof => (.err "unexpected EOF", (t, .eof) :: evs, max t now)
    else (.err "i/o timeout", (t, e) :: evs, max now deadline)

/-- `TimeoutConn.ReadPeerMessage` (connection.go:42-63): the deadline is set once, at the beginning (connection.go:43, 118-120), for the length and the
message together. -/
def timedReadPeerMessage (evs : List (Nat × Ev)) (now : Nat) : Res Bytes × List (Nat × Ev) × Nat :=
  match timedReadFull .stream (now + peerLimit) 4 evs now with
  | (.ok hdr, evs', now') => timedReadFull .stream (now + peerLimit) (getBE hdr) evs' now'
  | x => x

/-- `TimeoutConn.ReadPeerHandshake` (connection.go:67-72). -/
def timedReadPeerHandshake (evs : List (Nat × Ev)) (now : Nat) : Res Bytes × List (Nat × Ev) × Nat :=
  timedReadFull .stream (now + peerLimit) 68 evs now

/-- `TimeoutConn.ReadUdpHandshake` (connection.go:99-104). -/
def timedReadUdpHandshake (evs : List (Nat × Ev)) (now : Nat) : Res Bytes × List (Nat × Ev) × Nat :=
  timedReadFull .dgram (now + trackerLimit) 16 evs now

/-- `io.ReadAll` with a deadline. -/
def timedReadAllFrom (deadline : Nat) (acc : Bytes) : List (Nat × Ev) → Nat → Res Bytes × List (Nat × Ev) × Nat
  | [], now => (.err "i/o timeout", [], max now deadline)
  | (t, e) :: evs, now =>
    if max t now < deadline then
      match e with
      | .data d => timedReadAllFrom deadline (acc ++ d) evs (max t now)
      | .timeout => (.err "i/o timeout", evs, max t now)
      | .fail e => (.err e, evs, max t now)
      | .eof => (.ok acc, (t, .eof) :: evs, max t now)
    else (.err "i/o timeout", (t, e) :: evs, max now deadline)

/-- `TimeoutConn.ReadAll` (connection.go:90-95); only used with `TrackerTimeout`. -/
def timedReadAll (evs : List (Nat × Ev)) (now : Nat) : Res Bytes × List (Nat × Ev) × Nat :=
  timedReadAllFrom (now + trackerLimit) [] evs now

end Gotit
