import Verif.Model.Parse
/-
  pkg/bencode/parse.go once more, with the stack. `Next` calls `readList` and `readDict`, which call `Next` for every
  element (parse.go:40-52, 150, 176), so the depth of the calls is the nesting of the input. A goroutine's stack is
  limited (1 GB on 64-bit systems, runtime/debug.SetMaxStack); going beyond it is a fatal error that no `recover` catches.
  How many nested calls of `Next` fit is the parameter `k`. Model/Parse.lean is the same parser without the limit.
-/
namespace Gotit

/-- The program dies: `fatal error: stack overflow`. -/
def stackOverflow : String := "stack overflow"

namespace Scanner
mutual
/-- `Next` (parse.go:40-52) with room for `k` nested calls of it, this one included. -/
def nextK : Nat → Nat → Scanner → PRes (Bencode × Scanner)
  | 0, _, _ => .outOfFuel
  | _ + 1, 0, _ => .panic stackOverflow
  | f + 1, k + 1, s =>
    if s.peek = 108 then readListK f k s
    else if s.peek = 100 then readDictK f k s
    else if s.peek = 105 then s.readInt
    else s.readString.bind fun (v, s) => .ok (.str v, s)

/-- `readList` (parse.go:142-163). -/
def readListK : Nat → Nat → Scanner → PRes (Bencode × Scanner)
  | 0, _, _ => .outOfFuel
  | f + 1, k, s =>
    let start := s.start
    let s := s.advance.position
    (listLoopK f k s).bind fun (vs, s) =>
      let (m, s) := s.matchByte 101
      if !m then .err "element not ended with 'e'" else
      .ok (.list true vs ((s.bencode.take s.start).drop start), s)

/-- The loop of `readList` (parse.go:148-155). -/
def listLoopK : Nat → Nat → Scanner → PRes (List Bencode × Scanner)
  | 0, _, _ => .outOfFuel
  | f + 1, k, s =>
    if s.peek ≠ 101 ∧ !s.isFinished then
      let s := s.position
      (nextK f k s).bind fun (v, s) =>
      (listLoopK f k s).bind fun (vs, s) => .ok (v :: vs, s)
    else .ok ([], s)

/-- `readDict` (parse.go:165-190). -/
def readDictK : Nat → Nat → Scanner → PRes (Bencode × Scanner)
  | 0, _, _ => .outOfFuel
  | f + 1, k, s =>
    let start := s.start
    let s := s.advance.position
    (dictLoopK f k [] s).bind fun (kvs, s) =>
      let (m, s) := s.matchByte 101
      if !m then .err "element not ended with 'e'" else
      .ok (.dict true kvs ((s.bencode.take s.start).drop start), s)

/-- The loop of `readDict` (parse.go:171-182). -/
def dictLoopK : Nat → Nat → List (Bytes × Bencode) → Scanner → PRes (List (Bytes × Bencode) × Scanner)
  | 0, _, _, _ => .outOfFuel
  | f + 1, k, dict, s =>
    if s.peek ≠ 101 ∧ !s.isFinished then
      s.readString.bind fun (key, s) =>
      (nextK f k s).bind fun (v, s) =>
      dictLoopK f k (upsert key v dict) s
    else .ok (dict, s)
end
end Scanner

/-- `Parse` (parse.go:14-17, 33-38) on a stack with room for `k` nested calls of `Next`. -/
def parseStack (k : Nat) (data : Bytes) : PRes Bencode :=
  let s := Scanner.new data
  if s.isFinished then .err "bencode: no data"
  else (s.nextK (parseFuel data) k).bind fun (v, _) => .ok v

end Gotit
