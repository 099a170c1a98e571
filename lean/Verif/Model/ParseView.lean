import Verif.Model.Parse
/-
  The same parser with Go's actual memory layout: `b2s` (parse.go:192-194) reinterprets the slice header, so
  strings, keys and raw bytes of the result are (offset, length) views into the caller's buffer.
  Structure, order of operations and error messages are those of `Model/Parse.lean`.
-/
namespace Gotit

/-- A parsed value as it is in memory: strings are windows on the input buffer. -/
inductive View where
  | int (n : Int)
  | str (off len : Nat)
  | list (vs : List View) (roff rlen : Nat)
  | dict (kvs : List ((Nat × Nat) × View)) (roff rlen : Nat)

/-- The bytes seen through a window on a buffer. -/
def window (buf : Bytes) (off len : Nat) : Bytes := (buf.drop off).take len

mutual
/-- What the program sees when it looks at the value while the buffer contains `buf`. -/
def View.resolve (buf : Bytes) : View → Bencode
  | .int n => .int n
  | .str o l => .str (window buf o l)
  | .list vs o l => .list true (resolveList buf vs) (window buf o l)
  | .dict kvs o l => .dict true (resolveEntries buf kvs) (window buf o l)
def resolveList (buf : Bytes) : List View → List Bencode
  | [] => []
  | v :: vs => v.resolve buf :: resolveList buf vs
def resolveEntries (buf : Bytes) : List ((Nat × Nat) × View) → List (Bytes × Bencode)
  | [] => []
  | ((o, l), v) :: kvs => (window buf o l, v.resolve buf) :: resolveEntries buf kvs
end

/-- Map assignment (parse.go:181); keys are compared by their current contents. Assigning to an existing string key
also replaces the stored key (the Go runtime updates string keys so as not to retain the older backing store). -/
def upsertV (buf : Bytes) (k : Nat × Nat) (v : View) :
    List ((Nat × Nat) × View) → List ((Nat × Nat) × View)
  | [] => [(k, v)]
  | (k', v') :: kvs =>
    if window buf k'.1 k'.2 = window buf k.1 k.2 then (k, v) :: kvs else (k', v') :: upsertV buf k v kvs

namespace Scanner

/-- `readInt` (parse.go:106-119). -/
def readIntV (s : Scanner) : PRes (View × Scanner) :=
  let s := s.advance.position
  let (n, s) := s.number
  let (m, s) := s.matchByte 101
  if !m then .err "element not ended with 'e'" else .ok (.int n, s)

/-- `readString` (parse.go:121-140); the result is the window `[start, current)`. -/
def readStringV (s : Scanner) : PRes ((Nat × Nat) × Scanner) :=
  let (length, s) := s.number
  let (m, s) := s.matchByte 58
  if !m then .err "missing ':' in string element" else
  let cur : Int := (s.current : Int) + length
  if cur > s.bencode.length then .err "string length invalid" else
  if cur < s.start then .panic "slice bounds out of range" else
  let s := { s with current := cur.toNat }
  .ok ((s.start, s.current - s.start), s.position)

mutual
/-- `Next` (parse.go:40-52). -/
def nextV : Nat → Scanner → PRes (View × Scanner)
  | 0, _ => .outOfFuel
  | f + 1, s =>
    if s.peek = 108 then readListV f s
    else if s.peek = 100 then readDictV f s
    else if s.peek = 105 then s.readIntV
    else s.readStringV.bind fun (v, s) => .ok (.str v.1 v.2, s)
/-- `readList` (parse.go:142-163). -/
def readListV : Nat → Scanner → PRes (View × Scanner)
  | 0, _ => .outOfFuel
  | f + 1, s =>
    let start := s.start
    let s := s.advance.position
    (listLoopV f s).bind fun (vs, s) =>
      let (m, s) := s.matchByte 101
      if !m then .err "element not ended with 'e'" else
      .ok (.list vs start (s.start - start), s)
/-- parse.go:148-155 -/
def listLoopV : Nat → Scanner → PRes (List View × Scanner)
  | 0, _ => .outOfFuel
  | f + 1, s =>
    if s.peek ≠ 101 ∧ !s.isFinished then
      let s := s.position
      (nextV f s).bind fun (v, s) =>
      (listLoopV f s).bind fun (vs, s) => .ok (v :: vs, s)
    else .ok ([], s)
/-- `readDict` (parse.go:165-190). -/
def readDictV : Nat → Scanner → PRes (View × Scanner)
  | 0, _ => .outOfFuel
  | f + 1, s =>
    let start := s.start
    let s := s.advance.position
    (dictLoopV f [] s).bind fun (kvs, s) =>
      let (m, s) := s.matchByte 101
      if !m then .err "element not ended with 'e'" else
      .ok (.dict kvs start (s.start - start), s)
/-- parse.go:171-182 -/
def dictLoopV : Nat → List ((Nat × Nat) × View) → Scanner → PRes (List ((Nat × Nat) × View) × Scanner)
  | 0, _, _ => .outOfFuel
  | f + 1, dict, s =>
    if s.peek ≠ 101 ∧ !s.isFinished then
      s.readStringV.bind fun (k, s) =>
      (nextV f s).bind fun (v, s) =>
      dictLoopV f (upsertV s.bencode k v dict) s
    else .ok (dict, s)
end

end Scanner

/-- `Parse` (parse.go:14-17). -/
def parseView (data : Bytes) : PRes View :=
  let s := Scanner.new data
  if s.isFinished then .err "bencode: no data" else
  (s.nextV (parseFuel data)).bind fun (v, _) => .ok v

end Gotit
