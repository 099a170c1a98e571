import Verif.Model.Go
/-
  pkg/gotitnet/connection.go over a model of sockets.

  A socket is the list of things that will happen on its reading side, in order. Deadlines are not modelled as clock
  values: a deadline that expires while waiting is the event `timeout`, and when nothing more happens every read times
  out. Theorems quantify over all event lists, so over all timings.
-/
namespace Gotit

/-- What happens on the reading side of a socket. -/
inductive Ev where
  /-- a TCP segment / a UDP datagram arrives -/
  | data (d : Bytes)
  /-- the read deadline of the current call passes -/
  | timeout
  /-- any other error of one read call -/
  | fail (e : String)
  /-- the remote side closed a TCP connection (stays so) -/
  | eof
  deriving DecidableEq

/-- TCP (a byte stream: what a read does not take stays) or UDP (a read takes a whole datagram; what does not fit
into the buffer is lost). -/
inductive Kind where
  | stream
  | dgram
  deriving DecidableEq

/-- The socket after a read that took `n` bytes of `d` (`n ≤ d.length`). -/
def putBack (k : Kind) (n : Nat) (d : Bytes) (evs : List Ev) : List Ev :=
  match k with
  | .stream => if n < d.length then .data (d.drop n) :: evs else evs
  | .dgram => evs

/-- `io.ReadFull(c, buf)` with `len(buf) = n` (used by `readExactly`, connection.go:110-116): reads until `n` bytes are
there; bytes already read are lost when an error occurs. `n = 0` does not read at all. -/
def readFull (k : Kind) : Nat → List Ev → Res Bytes × List Ev
  | 0, evs => (.ok [], evs)
  | _ + 1, [] => (.err "i/o timeout", [])
  | n + 1, .data d :: evs =>
    if n + 1 ≤ d.length then (.ok (d.take (n + 1)), putBack k (n + 1) d evs)
    else
      match readFull k (n + 1 - d.length) evs with
      | (.ok r, evs') => (.ok (d ++ r), evs')
      | x => x
  | _ + 1, .timeout :: evs => (.err "i/o timeout", evs)
  | _ + 1, .fail e :: evs => (.err e, evs)
  | _ + 1, .eof :: evs => (.err "unexpected EOF", .eof :: evs)

/-- `TimeoutConn.readExactly` (connection.go:110-116); `SetReadDeadline` is assumed not to fail. -/
def readExactly (k : Kind) (n : Nat) (evs : List Ev) : Res Bytes × List Ev := readFull k n evs

/-- `TimeoutConn.ReadPeerMessage` (connection.go:42-63): a 4-byte big-endian length, then that many bytes. -/
def readPeerMessage (evs : List Ev) : Res Bytes × List Ev :=
  match readExactly .stream 4 evs with
  | (.ok hdr, evs') => readExactly .stream (getBE hdr) evs'
  | x => x

/-- The bytes of the buffers one `ReadPeerMessage` call makes (`make([]byte, len)`, connection.go:111, called from lines 57 and
52): four for the length and, once that is read, as many as it says. -/
def readPeerMessageAlloc (evs : List Ev) : Nat :=
  match readExactly .stream 4 evs with
  | (.ok hdr, _) => 4 + getBE hdr
  | _ => 4

/-- `TimeoutConn.ReadPeerHandshake` (connection.go:67-72). -/
def readPeerHandshake (evs : List Ev) : Res Bytes × List Ev := readExactly .stream 68 evs

/-- `TimeoutConn.ReadUdpHandshake` (connection.go:99-104). -/
def readUdpHandshake (evs : List Ev) : Res Bytes × List Ev := readExactly .dgram 16 evs

/-- `TimeoutConn.ReadAll` (connection.go:90-95, `io.ReadAll`): reads until an error; only EOF counts as success. The
truncation of datagrams longer than the free part of ReadAll's buffer is not modelled (it does not change whether
the call succeeds). -/
def readAll (acc : Bytes) : List Ev → Res Bytes × List Ev
  | [] => (.err "i/o timeout", [])
  | .data d :: evs => readAll (acc ++ d) evs
  | .timeout :: evs => (.err "i/o timeout", evs)
  | .fail e :: evs => (.err e, evs)
  | .eof :: evs => (.ok acc, .eof :: evs)

end Gotit
