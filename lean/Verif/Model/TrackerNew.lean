import Verif.Model.Go
/-
  `tracker.New` (pkg/tracker/tracker.go:28-42): which kind of tracker a URL stands for. `url.Parse` of net/url is modelled as far as
  the scheme goes (its functions `stringContainsCTLByte`, `getScheme`, `strings.Cut(_, "#")`); what it makes of the rest is a
  parameter.
-/
namespace Gotit

/-- The bytes `url.Parse` refuses anywhere before the first `#` (`stringContainsCTLByte`). -/
def isCtl (b : UInt8) : Bool := b < 0x20 || b == 0x7f

/-- Letters of a scheme. -/
def isLetter (b : UInt8) : Bool := (97 ≤ b && b ≤ 122) || (65 ≤ b && b ≤ 90)

/-- What else may be in a scheme but not begin it. -/
def isSchemeRest (b : UInt8) : Bool := (48 ≤ b && b ≤ 57) || b == 43 || b == 45 || b == 46

/-- `getScheme` of net/url: reads `s` from position `i` on (`seen` are the bytes before). `none` is the error "missing protocol
scheme", an empty scheme means there is none. -/
def getScheme (whole : Bytes) : (seen s : Bytes) → Option (Bytes × Bytes)
  | _, [] => some ([], whole)
  | seen, c :: s =>
    if isLetter c then getScheme whole (seen ++ [c]) s
    else if isSchemeRest c then (if seen.isEmpty then some ([], whole) else getScheme whole (seen ++ [c]) s)
    else if c == 58 then (if seen.isEmpty then none else some (seen, s))
    else some ([], whole)

/-- `strings.ToLower` on the letters of a scheme, which are ASCII. -/
def schemeLower (b : UInt8) : UInt8 := if 65 ≤ b && b ≤ 90 then b + 32 else b

/-- A parsed URL: the scheme and `Host`. -/
structure ParsedUrl where
  scheme : Bytes
  host : Bytes

/-- `url.Parse`. `rest scheme r frag` is what the parser makes of what follows the scheme: the host, or `none` for an error. -/
def urlParse (rest : Bytes → Bytes → Bytes → Option Bytes) (addr : Bytes) : Option ParsedUrl :=
  let u := addr.takeWhile (· != 35)
  let frag := (addr.dropWhile (· != 35)).drop 1
  if u.any isCtl then none
  else
    match getScheme u [] u with
    | none => none
    | some (s, r) => (rest (s.map schemeLower) r frag).map (fun h => { scheme := s.map schemeLower, host := h })

/-- What `tracker.New` returns. -/
inductive NewTracker where
  /-- an HTTP tracker for this address -/
  | http (addr : Bytes)
  /-- a UDP tracker with a socket to this host -/
  | udp (host : Bytes)
  | err
  deriving DecidableEq

/-- `tracker.New` (tracker.go:28-42) with `newUdpTracker` (udp_tracker.go:49-62) and `newHttpTracker` (http_tracker.go:42-55). `dial h`:
whether a UDP socket to `h` can be had. -/
def trackerNew (rest : Bytes → Bytes → Bytes → Option Bytes) (dial : Bytes → Bool) (addr : Bytes) : NewTracker :=
  match urlParse rest addr with
  | none => .err
  | some p =>
    if p.scheme = ascii "udp" then (if dial p.host then .udp p.host else .err)
    else if p.scheme = ascii "http" ∨ p.scheme = ascii "https" then .http addr
    else .err

end Gotit
