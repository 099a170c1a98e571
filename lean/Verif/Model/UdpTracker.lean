import Verif.Model.HttpTracker
import Verif.Model.Net
/-
  pkg/tracker/udp_tracker.go
-/
namespace Gotit

/-- The state of a `udpTracker` that matters (udp_tracker.go:37-47). `transactionId` is never used by the code. -/
structure UdpTracker where
  ips : List AddrPort
  connectionId : Nat
  /-- nanoseconds -/
  interval : Int
  deriving DecidableEq

/-- `newUdpTracker` once the socket is there (udp_tracker.go:55-60). -/
def newUdpTracker : UdpTracker := ⟨[], 0, 60 * 10 ^ 9⟩

/-- The errors of this file. -/
inductive UdpErr where
  | tooShort
  | badTransaction
  /-- "udp error response: " + message -/
  | tracker (message : Bytes)
  /-- "unrecognized udp tracker response action code" -/
  | unrecognized (code : Nat)
  /-- an error of the connection -/
  | conn (e : String)
  deriving DecidableEq

/-- The text of an error (udp_tracker.go:130,154,166,186,193,203). -/
def UdpErr.text : UdpErr → Bytes
  | .tooShort => ascii "udp tracker invalid announce response size"
  | .badTransaction => ascii "udp tracker response transaction_id not the same as sent"
  | .tracker m => ascii "udp error response: " ++ m
  | .unrecognized c => ascii "unrecognized udp tracker response action code: " ++ itoa c
  | .conn e => ascii e

/-- Result of a call that returns an error value, or panics. -/
inductive UdpRes (α : Type) where
  | ok (a : α)
  | err (e : UdpErr)
  | panic
  deriving DecidableEq

/-- `checkResponseTransactionId` (udp_tracker.go:200-207); only called with at least 8 bytes. -/
def checkTransactionId (data : Bytes) (tid : Nat) : Bool := getBE ((data.drop 4).take 4) = tid

/-- `readConnect` (udp_tracker.go:152-162). -/
def readConnect (data : Bytes) (tid : Nat) : UdpRes Nat :=
  if data.length < 16 then .err .tooShort
  else if !checkTransactionId data tid then .err .badTransaction
  else .ok (getBE ((data.drop 8).take 8))

/-- `readAnnounce` (udp_tracker.go:164-182). Seconds times 10^9 with a 32-bit number of seconds does not overflow. -/
def readAnnounce (t : UdpTracker) (data : Bytes) (tid : Nat) : UdpTracker × UdpRes (List AddrPort) :=
  if data.length < 20 then (t, .err .tooShort)
  else if !checkTransactionId data tid then (t, .err .badTransaction)
  else ({ t with interval := wrap64 (getBE ((data.drop 8).take 4) * 10 ^ 9) }, .ok (parseCompactPeers (data.drop 20)))

/-- `readError` (udp_tracker.go:184-194). -/
def readError (data : Bytes) (tid : Nat) : UdpErr :=
  if data.length < 8 then .tooShort
  else if !checkTransactionId data tid then .badTransaction
  else .tracker (data.drop 8)

/-- `parseTrackerResponse` (udp_tracker.go:116-132). The constants are connect = 0, announce = 1, conError = 2
(udp_tracker.go:23-27). `spare` is the part of the slice's capacity beyond its length: `response[:4]` may reslice
into it. A failing `readConnect`/`readAnnounce` still assigns its zero results to the fields (122, 125). -/
def parseTrackerResponse (t : UdpTracker) (response spare : Bytes) (tid : Nat) : UdpTracker × UdpRes Unit :=
  if response.length + spare.length < 4 then (t, .panic)
  else
    let action := getBE ((response ++ spare).take 4)
    if action = 0 then
      match readConnect response tid with
      | .ok c => ({ t with connectionId := c }, .ok ())
      | .err e => ({ t with connectionId := 0 }, .err e)
      | .panic => (t, .panic)
    else if action = 1 then
      match readAnnounce t response tid with
      | (t', .ok ips) => ({ t' with ips := ips }, .ok ())
      | (t', .err e) => ({ t' with ips := [] }, .err e)
      | (t', .panic) => (t', .panic)
    else if action = 2 then (t, .err (readError response tid))
    else (t, .err (.unrecognized action))

/-- `binary.Write(w, order, s)` for a `string`: strings are not fixed-size values, so it returns an error (ignored
here) and writes nothing. -/
def binaryWriteString (_ : Bytes) : Bytes := []

/-- The low 32 bits of an integer (`int32(data.Port)`, `int32(-1)`). -/
def low32 (n : Int) : Nat := (n % 2 ^ 32).toNat

/-- `createAnnounce` (udp_tracker.go:134-150); `key` is the random number of line 146. -/
def createAnnounce (clientId : Bytes) (connId tid : Nat) (hash : Bytes) (d : AnnounceData) (key : Nat) : Bytes :=
  putBE 8 connId ++ putBE 4 1 ++ putBE 4 tid ++ binaryWriteString hash ++ clientId ++
  putBE 8 d.downloaded ++ putBE 8 d.left ++ putBE 8 d.uploaded ++ putBE 4 0 ++ putBE 4 0 ++ putBE 4 key ++
  putBE 4 (low32 (-1)) ++ putBE 4 (low32 d.port)

/-- The connect request (udp_tracker.go:93-97). -/
def connectRequest (tid : Nat) : Bytes := putBE 8 0x41727101980 ++ putBE 4 0 ++ putBE 4 tid

/-- `handshake` (udp_tracker.go:92-114): `writeErr` is the result of the write. Returns the tracker, the remaining
socket events and the connection id. -/
def udpHandshake (t : UdpTracker) (tid : Nat) (writeErr : Option String) (evs : List Ev) :
    UdpTracker × List Ev × UdpRes Nat :=
  match writeErr with
  | some e => (t, evs, .err (.conn e))
  | none =>
    match readUdpHandshake evs with
    | (.err e, evs') => (t, evs', .err (.conn e))
    | (.panic _, evs') => (t, evs', .panic)
    | (.ok r, evs') =>
      match parseTrackerResponse t r [] tid with
      | (t', .ok _) => (t', evs', .ok t'.connectionId)
      | (t', .err e) => (t', evs', .err e)
      | (t', .panic) => (t', evs', .panic)

/-- The random numbers of one announce: two transaction ids and the key. -/
structure UdpRandom where
  tid1 : Nat
  tid2 : Nat
  key : Nat

/-- `udpTracker.Announce` (udp_tracker.go:72-90). Returns the datagrams sent, the tracker and the result.
`spare` is the unused capacity of the slice `io.ReadAll` returns. The result of the second write is ignored by
the code; the datagram is listed as sent. -/
def udpAnnounce (clientId : Bytes) (t : UdpTracker) (hash : Bytes) (d : AnnounceData) (r : UdpRandom)
    (writeErr : Option String) (evs : List Ev) (spare : Bytes) : List Bytes × UdpTracker × UdpRes (List AddrPort) :=
  match udpHandshake t r.tid1 writeErr evs with
  | (t, _, .err e) => ([connectRequest r.tid1], t, .err e)
  | (t, _, .panic) => ([connectRequest r.tid1], t, .panic)
  | (t, evs, .ok connId) =>
    let sent := [connectRequest r.tid1, createAnnounce clientId connId r.tid2 hash d r.key]
    match readAll [] evs with
    | (.err e, _) => (sent, t, .err (.conn e))
    | (.panic _, _) => (sent, t, .panic)
    | (.ok response, _) =>
      match parseTrackerResponse t response spare r.tid2 with
      | (t', .ok _) => (sent, t', .ok t'.ips)
      | (t', .err e) => (sent, t', .err e)
      | (t', .panic) => (sent, t', .panic)

/-- What one attempt to announce meets: the figures, the random numbers, the result of the first write, the socket, and the spare capacity of the
slice read. -/
structure UdpTry where
  data : AnnounceData
  random : UdpRandom
  writeErr : Option String
  evs : List Ev
  spare : Bytes

/-- The attempts of `announceToTracker` (manager.go:119-146) on a UDP tracker: until one does not fail. -/
def udpTries (clientId hash : Bytes) (t : UdpTracker) : List UdpTry → UdpTracker × UdpRes (List AddrPort)
  | [] => (t, .err (.conn "no attempt"))
  | x :: xs =>
    match udpAnnounce clientId t hash x.data x.random x.writeErr x.evs x.spare with
    | (_, t', .err e) => if xs = [] then (t', .err e) else udpTries clientId hash t' xs
    | (_, t', r) => (t', r)

/-- One round of `runTracker` for a UDP tracker. -/
structure UdpRound where
  tries : List UdpTry
  took : Nat
  slack : Nat

/-- `runTracker` (manager.go:80-107) without cancellation: for each round, the time it starts, the time its announce ends and its result. -/
def runUdpTracker (clientId hash : Bytes) : UdpTracker → Nat → List UdpRound → List (Nat × Nat × UdpRes (List AddrPort))
  | _, _, [] => []
  | t, now, r :: rs =>
    let out := udpTries clientId hash t r.tries
    let done := now + r.took
    (now, done, out.2) :: runUdpTracker clientId hash out.1 (waitInterval out.1.interval done r.slack) rs

end Gotit
