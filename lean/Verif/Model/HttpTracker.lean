import Verif.Model.Metainfo
/-
  pkg/tracker/http_tracker.go, pkg/tracker/tracker.go and the response types of gotit.go.
-/
namespace Gotit

/-- A valid `netip.Addr` (IPv4, or IPv6 with its zone). -/
inductive Addr where
  | v4 (a b c d : UInt8)
  | v6 (bytes : Bytes) (zone : Bytes)
  deriving Repr, DecidableEq

/-- `netip.AddrPort`; `addr = none` is the zero `Addr`, the only invalid one. -/
structure AddrPort where
  addr : Option Addr
  port : Nat
  deriving Repr, DecidableEq

/-- The zero `AddrPort`, as `make([]netip.AddrPort, n)` fills in. -/
def AddrPort.zero : AddrPort := ⟨none, 0⟩

/-- `AddrPort.IsValid` (net/netip). -/
def AddrPort.isValid (a : AddrPort) : Bool := a.addr.isSome

/-- `AnnouncePeer` (gotit.go:32-36). -/
def announcePeerFields : List ((Bytes × Bytes × Bool) × Ty) :=
  [fld "Ip" "ip" .string, fld "Port" "port" .string]

/-- `AnnounceResponse` (gotit.go:24-30). -/
def announceResponseFields : List ((Bytes × Bytes × Bool) × Ty) :=
  [fld "Failure" "failure reason,optional" .string,
   fld "Interval" "interval,optional" (.int 64),
   fld "Peers" "peers,optional" (.slice (.struct announcePeerFields)),
   fld "PeersCompact" "peers,optional" (.slice (.uint 8)),
   fld "PeersIpv6" "peers6,optional" (.slice (.uint 8))]

/-- Reading a string, int or slice field of a struct value. -/
def GoVal.asString : GoVal → Bytes
  | .string s => s
  | _ => []
def GoVal.asInt : GoVal → Int
  | .int n => n
  | _ => 0
/-- `none` is a nil slice. -/
def GoVal.asSlice? : GoVal → Option (List GoVal)
  | .slice vs => some vs
  | _ => none
def GoVal.asBytes? : GoVal → Option Bytes
  | .bytes b => some b
  | _ => none

/-- `strconv.ParseUint(s, 10, bits)`: like base 0 but without prefixes and underscores
(an underscore is not a digit). -/
def parseDigits10 (maxVal : Nat) : Bytes → Nat → Except NumErr Nat
  | [], n => .ok n
  | c :: cs, n =>
    match digitVal c with
    | none => .error .syntax
    | some d =>
      if d ≥ 10 then .error .syntax
      else if n * 10 + d > maxVal then .error .range
      else parseDigits10 maxVal cs (n * 10 + d)
def parseUint10 (s : Bytes) (bits : Nat) : Except NumErr Nat :=
  if s = [] then .error .syntax else parseDigits10 (2 ^ bits - 1) s 0

/-- The body of the loop of `parseBencodePeers` (http_tracker.go:141-170): the `continue`s leave the zero
`AddrPort` in place. `netip.ParseAddr` is an arbitrary function; logging is dropped. `AddrPortFrom` of a
parsed address is always valid, so line 165 never fires. -/
def parseBencodePeer (parseAddr : Bytes → Option Addr) (p : GoVal) : AddrPort :=
  match parseAddr (p.field 0).asString with
  | none => .zero
  | some ip =>
    match parseUint10 (p.field 1).asString 16 with
    | .error _ => .zero
    | .ok port => ⟨some ip, port⟩

/-- `parseBencodePeers` (http_tracker.go:139-173). -/
def parseBencodePeers (parseAddr : Bytes → Option Addr) (peers : List GoVal) : List AddrPort :=
  peers.map (parseBencodePeer parseAddr)

/-- Byte `i` of a slice; the model is only used below where the index is in range
(http_tracker.go:181-186, `read < len(peers)/6`). -/
def byteAt (bs : Bytes) (i : Nat) : UInt8 := bs.getD i 0

/-- One iteration of `parseCompactPeers` (http_tracker.go:179-193). -/
def compactPeer (peers : Bytes) (read : Nat) : AddrPort :=
  ⟨some (.v4 (byteAt peers (6 * read)) (byteAt peers (6 * read + 1)) (byteAt peers (6 * read + 2))
      (byteAt peers (6 * read + 3))),
   getBE ((peers.drop (6 * read + 4)).take 2)⟩

/-- `parseCompactPeers` (http_tracker.go:175-195). -/
def parseCompactPeers (peers : Bytes) : List AddrPort :=
  (List.range (peers.length / 6)).map (compactPeer peers)

/-- The part of `httpTracker` that matters: URL, tracker id, event and the interval in nanoseconds
(http_tracker.go:32-40). -/
structure HttpTracker where
  addr : Bytes
  trackerId : Bytes
  event : Bytes
  interval : Int
  deriving DecidableEq

/-- `newHttpTracker` (http_tracker.go:42-55) with `startedEvent` (line 27). -/
def newHttpTracker (addr trackerId : Bytes) : HttpTracker := ⟨addr, trackerId, ascii "started", 60 * 10 ^ 9⟩

/-- `readPeers` (http_tracker.go:114-137). Returns the tracker with its new interval, and the result. -/
def readPeers (parseAddr : Bytes → Option Addr) (t : HttpTracker) (res : Bytes) :
    HttpTracker × Res (List AddrPort) :=
  match unmarshal (.ptr (.struct announceResponseFields))
      (.ptr (some (.struct (zeros announceResponseFields)))) res with
  | (_, .err e) => (t, .err e)
  | (_, .panic w) => (t, .panic w)
  | (r, .ok) =>
    if (r.field 0).asString ≠ [] then (t, .err "tracker failure")
    else
      let t := { t with interval := wrap64 ((r.field 1).asInt * 10 ^ 9) }
      match (r.field 2).asSlice? with
      | some ps => (t, .ok (parseBencodePeers parseAddr ps))
      | none =>
        match (r.field 3).asBytes? with
        | some bs => (t, .ok (parseCompactPeers bs))
        | none => (t, .err "successful tracker response without ")

/-- What the HTTP client returns: an error building the request, sending it or reading the body, or a status
and a body. -/
inductive HttpReply where
  | fail (e : String)
  | reply (status : Int) (body : Bytes)
  deriving DecidableEq

/-- `httpTracker.Announce` (http_tracker.go:63-96) as a function of what the HTTP client returned. -/
def httpAnnounce (parseAddr : Bytes → Option Addr) (t : HttpTracker) (r : HttpReply) :
    HttpTracker × Res (List AddrPort) :=
  match r with
  | .fail e => (t, .err e)
  | .reply status body =>
    if status ≠ 200 then (t, .err "tracker error response") else readPeers parseAddr t body

/-- `AnnounceData` (gotit.go:17-22). -/
structure AnnounceData where
  downloaded : Nat
  uploaded : Nat
  left : Nat
  port : Int

/-- `buildQuery` (http_tracker.go:98-112): the keys are distinct, so `url.Values` is this list of pairs. -/
def buildQuery (clientId : Bytes) (t : HttpTracker) (hash : Bytes) (d : AnnounceData) : List (Bytes × Bytes) :=
  [(ascii "info_hash", hash),
   (ascii "peer_id", clientId),
   (ascii "port", itoa d.port),
   (ascii "downloaded", itoa d.downloaded),
   (ascii "uploaded", itoa d.uploaded),
   (ascii "left", itoa d.left),
   (ascii "numwant", ascii "50"),
   (ascii "event", t.event),
   (ascii "trackerid", t.trackerId),
   (ascii "no_peer_id", ascii "1"),
   (ascii "compact", ascii "1")]

/-- Letters, digits and `-_.~` are not escaped by `url.QueryEscape` (net/url `shouldEscape`,
`encodeQueryComponent`). -/
def unreserved (c : UInt8) : Bool :=
  (97 ≤ c && c ≤ 122) || (65 ≤ c && c ≤ 90) || (48 ≤ c && c ≤ 57) || c = 45 || c = 95 || c = 46 || c = 126

/-- `"0123456789ABCDEF"[d]`. -/
def upperHex (d : Nat) : UInt8 := if d < 10 then UInt8.ofNat (48 + d) else UInt8.ofNat (55 + d)

/-- `url.QueryEscape`. -/
def queryEscape : Bytes → Bytes
  | [] => []
  | c :: cs =>
    if unreserved c then c :: queryEscape cs
    else if c = 32 then 43 :: queryEscape cs
    else 37 :: upperHex (c.toNat / 16) :: upperHex (c.toNat % 16) :: queryEscape cs

/-- Byte-wise lexicographic order of Go strings. -/
def bytesLe : Bytes → Bytes → Bool
  | [], _ => true
  | _ :: _, [] => false
  | a :: as, b :: bs => if a < b then true else if b < a then false else bytesLe as bs

/-- Insertion into a list sorted by key. -/
def insertKey (e : Bytes × Bytes) : List (Bytes × Bytes) → List (Bytes × Bytes)
  | [] => [e]
  | x :: xs => if bytesLe e.1 x.1 then e :: x :: xs else x :: insertKey e xs

/-- The pairs in key order (`url.Values.Encode` sorts the keys). -/
def sortKeys : List (Bytes × Bytes) → List (Bytes × Bytes)
  | [] => []
  | e :: es => insertKey e (sortKeys es)

/-- `key=value` escaped. -/
def encodePair (e : Bytes × Bytes) : Bytes := queryEscape e.1 ++ 61 :: queryEscape e.2

/-- The pairs joined with `&`. -/
def joinPairs : List (Bytes × Bytes) → Bytes
  | [] => []
  | [e] => encodePair e
  | e :: e' :: es => encodePair e ++ 38 :: joinPairs (e' :: es)

/-- `url.Values.Encode` (one value per key). -/
def encodeValues (q : List (Bytes × Bytes)) : Bytes := joinPairs (sortKeys q)

/-- The URL of the announce request: `fmt.Sprintf("%s?%s", t.addr, q.Encode())` (http_tracker.go:65). -/
def announceUrl (clientId : Bytes) (t : HttpTracker) (hash : Bytes) (d : AnnounceData) : Bytes :=
  t.addr ++ 63 :: encodeValues (buildQuery clientId t hash d)

/-- `waitInterval.WaitInterval` without cancellation (tracker.go:19-26): `time.After(d)` fires `d` nanoseconds
later, or at once if `d ≤ 0`, plus a scheduling delay `slack`. Returns the time at which it returns. -/
def waitInterval (interval : Int) (now slack : Nat) : Nat := now + interval.toNat + slack

/-- The attempts of `announceToTracker` (manager.go:119-146, `retry.Do`) as far as the tracker object is concerned:
attempts until one succeeds (a panic ends it too). The retry policy itself is modelled in `Model/Retry.lean`; here
`replies` are the replies of the attempts that are made. -/
def announceTries (parseAddr : Bytes → Option Addr) (t : HttpTracker) :
    List HttpReply → HttpTracker × Res (List AddrPort)
  | [] => (t, .err "no attempt")
  | r :: rs =>
    match httpAnnounce parseAddr t r with
    | (t', .err e) => if rs = [] then (t', .err e) else announceTries parseAddr t' rs
    | x => x

/-- One round of `runTracker` for an HTTP tracker (manager.go:86-106): the announce takes `took` nanoseconds and
gets `replies`, then the loop waits. -/
structure Round where
  replies : List HttpReply
  took : Nat
  slack : Nat

/-- `runTracker` (manager.go:80-107) without cancellation: for each round, the time it starts, the time its announce
ends and its result. -/
def runHttpTracker (parseAddr : Bytes → Option Addr) :
    HttpTracker → Nat → List Round → List (Nat × Nat × Res (List AddrPort))
  | _, _, [] => []
  | t, now, r :: rs =>
    let out := announceTries parseAddr t r.replies
    let done := now + r.took
    (now, done, out.2) :: runHttpTracker parseAddr out.1 (waitInterval out.1.interval done r.slack) rs

/-- The URLs requested by the attempts of `announceToTracker` (manager.go:119-146): each attempt has its own figures and its own reply,
and there is no further attempt after one that does not fail. -/
def announceUrls (parseAddr : Bytes → Option Addr) (clientId hash : Bytes) (t : HttpTracker) : List (AnnounceData × HttpReply) → List Bytes
  | [] => []
  | (d, r) :: rest =>
    announceUrl clientId t hash d ::
      match httpAnnounce parseAddr t r with
      | (t', .err _) => announceUrls parseAddr clientId hash t' rest
      | _ => []

/-- The URLs requested in the rounds of `runTracker` (manager.go:86-106). -/
def runHttpUrls (parseAddr : Bytes → Option Addr) (clientId hash : Bytes) : HttpTracker → List (List (AnnounceData × HttpReply)) → List (List Bytes)
  | _, [] => []
  | t, r :: rs => announceUrls parseAddr clientId hash t r ::
      runHttpUrls parseAddr clientId hash (announceTries parseAddr t (r.map Prod.snd)).1 rs

end Gotit
