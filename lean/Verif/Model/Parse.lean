import Verif.Model.Bencode
/-
  pkg/bencode/parse.go
-/
namespace Gotit

/-- Outcome of the fuelled parser: `Res` plus "ran out of fuel". `outOfFuel` is not a Go outcome; it is
proved unreachable for the fuel `Parse` uses (property C05). -/
inductive PRes (α : Type) where
  | ok (a : α)
  | err (msg : String)
  | panic (why : String)
  | outOfFuel
  deriving Repr, DecidableEq

def PRes.bind {α β : Type} : PRes α → (α → PRes β) → PRes β
  | .ok a, f => f a
  | .err e, _ => .err e
  | .panic w, _ => .panic w
  | .outOfFuel, _ => .outOfFuel

/-- `scanner` (parse.go:19-23). Both offsets are Go ints; they only become negative in the instant before
`read` panics, which `readString` models directly, so `Nat` suffices. -/
structure Scanner where
  start : Nat
  current : Nat
  bencode : Bytes

namespace Scanner

/-- `newScanner` (parse.go:25-31). -/
def new (data : Bytes) : Scanner := { start := 0, current := 0, bencode := data }

/-- `IsFinished` (parse.go:54-56). -/
def isFinished (s : Scanner) : Bool := s.current ≥ s.bencode.length

/-- `peek` (parse.go:63-68): 0 at the end of input. -/
def peek (s : Scanner) : UInt8 :=
  if s.isFinished then 0 else s.bencode.getD s.current 0

/-- `advance` (parse.go:58-61). The returned rune is never used. The out-of-range panic of the index
expression cannot happen: every caller has just seen a non-zero byte with `peek`. -/
def advance (s : Scanner) : Scanner := { s with current := s.current + 1 }

/-- `position` (parse.go:84-86). -/
def position (s : Scanner) : Scanner := { s with start := s.current }

/-- `match` (parse.go:70-78). -/
def matchByte (s : Scanner) (r : UInt8) : Bool × Scanner :=
  if s.peek = r then (true, s.advance.position) else (false, s)

/-- `isDigit` (parse.go:88-90). -/
def isDigit (s : Scanner) : Bool := 48 ≤ s.peek && s.peek ≤ 57

/-- The loop of `number` (parse.go:93-99), including the 64-bit wrap-around of `n += d; n *= 10`. -/
def numberLoop (s : Scanner) (n : Int) : Int × Scanner :=
  if s.current < s.bencode.length ∧ s.isDigit then
    let d : Int := (s.peek - 48).toNat
    let n := wrap64 (n + d)
    let n := wrap64 (n * 10)
    numberLoop s.advance n
  else (n, s)
termination_by s.bencode.length - s.current
decreasing_by simp_all [advance]; omega

/-- `number` (parse.go:92-104). `n /= 10` truncates toward zero. -/
def number (s : Scanner) : Int × Scanner :=
  let (n, s) := numberLoop s 0
  (n.tdiv 10, s.position)

/-- `read` (parse.go:80-82): the slice `bencode[start:current]`. -/
def read (s : Scanner) : Bytes := (s.bencode.take s.current).drop s.start

/-- `readInt` (parse.go:106-119). -/
def readInt (s : Scanner) : PRes (Bencode × Scanner) :=
  let s := s.advance.position
  let (n, s) := s.number
  let (m, s) := s.matchByte 101
  if !m then .err "element not ended with 'e'" else .ok (.int n, s)

/-- `readString` (parse.go:121-140). The slice expression in `read` panics when `current < start`, i.e. when
the parsed length is negative. `s.current + length` cannot overflow (|length| ≤ 2^63/10). -/
def readString (s : Scanner) : PRes (Bytes × Scanner) :=
  let (length, s) := s.number
  let (m, s) := s.matchByte 58
  if !m then .err "missing ':' in string element" else
  let cur : Int := (s.current : Int) + length
  if cur > s.bencode.length then .err "string length invalid" else
  if cur < s.start then .panic "slice bounds out of range" else
  let s := { s with current := cur.toNat }
  .ok (s.read, s.position)

mutual
/-- `Next` (parse.go:40-52). -/
def next : Nat → Scanner → PRes (Bencode × Scanner)
  | 0, _ => .outOfFuel
  | f + 1, s =>
    if s.peek = 108 then readList f s
    else if s.peek = 100 then readDict f s
    else if s.peek = 105 then s.readInt
    else s.readString.bind fun (v, s) => .ok (.str v, s)

/-- `readList` (parse.go:142-163). -/
def readList : Nat → Scanner → PRes (Bencode × Scanner)
  | 0, _ => .outOfFuel
  | f + 1, s =>
    let start := s.start
    let s := s.advance.position
    (listLoop f s).bind fun (vs, s) =>
      let (m, s) := s.matchByte 101
      if !m then .err "element not ended with 'e'" else
      .ok (.list true vs ((s.bencode.take s.start).drop start), s)

/-- The loop of `readList` (parse.go:148-155); returns the elements appended from here on. -/
def listLoop : Nat → Scanner → PRes (List Bencode × Scanner)
  | 0, _ => .outOfFuel
  | f + 1, s =>
    if s.peek ≠ 101 ∧ !s.isFinished then
      let s := s.position
      (next f s).bind fun (v, s) =>
      (listLoop f s).bind fun (vs, s) => .ok (v :: vs, s)
    else .ok ([], s)

/-- `readDict` (parse.go:165-190). -/
def readDict : Nat → Scanner → PRes (Bencode × Scanner)
  | 0, _ => .outOfFuel
  | f + 1, s =>
    let start := s.start
    let s := s.advance.position
    (dictLoop f [] s).bind fun (kvs, s) =>
      let (m, s) := s.matchByte 101
      if !m then .err "element not ended with 'e'" else
      .ok (.dict true kvs ((s.bencode.take s.start).drop start), s)

/-- The loop of `readDict` (parse.go:171-182); `dict` is the map built so far. -/
def dictLoop : Nat → List (Bytes × Bencode) → Scanner → PRes (List (Bytes × Bencode) × Scanner)
  | 0, _, _ => .outOfFuel
  | f + 1, dict, s =>
    if s.peek ≠ 101 ∧ !s.isFinished then
      s.readString.bind fun (k, s) =>
      (next f s).bind fun (v, s) =>
      dictLoop f (upsert k v dict) s
    else .ok (dict, s)
end

end Scanner

/-- Recursion budget given to the parser: enough for every input (theorem C05). -/
def parseFuel (data : Bytes) : Nat := 3 * data.length + 4

/-- `scanner.Parse` + `Parse` (parse.go:14-17, 33-38), also returning the final scanner so that
"how much was consumed" can be talked about. -/
def parseWith (fuel : Nat) (data : Bytes) : PRes (Bencode × Scanner) :=
  let s := Scanner.new data
  if s.isFinished then .err "bencode: no data" else s.next fuel

/-- `Parse` (parse.go:14-17). -/
def parse (data : Bytes) : PRes Bencode :=
  (parseWith (parseFuel data) data).bind fun (v, _) => .ok v

end Gotit
