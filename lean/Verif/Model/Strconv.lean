import Verif.Model.Bencode
/-
  `strconv.ParseUint` / `ParseInt` with base 0, as called in tag_parser.go:107,117.
  (Go standard library, strconv/atoi.go. Its source was not at hand: modelled from general knowledge of it, unchecked against the code.)
-/
namespace Gotit

/-- `lower(c) = c | ('x' - 'X')`. -/
def lowerByte (c : UInt8) : UInt8 := c ||| 32

/-- Error kinds of strconv. -/
inductive NumErr where
  | syntax | range
  deriving Repr, DecidableEq

/-- The digit value of a byte, as in the switch of `ParseUint`. -/
def digitVal (c : UInt8) : Option Nat :=
  if 48 ≤ c ∧ c ≤ 57 then some (c - 48).toNat
  else if 97 ≤ lowerByte c ∧ lowerByte c ≤ 122 then some ((lowerByte c - 97).toNat + 10)
  else none

/-- The digit loop of `ParseUint`: `n` so far, whether an underscore was seen. `n >= cutoff` means
`n * base` overflows 64 bits; the overflow tests are stated on unbounded numbers, which is equivalent. -/
def parseDigits (base maxVal : Nat) : Bytes → Nat → Bool → Except NumErr (Nat × Bool)
  | [], n, u => .ok (n, u)
  | c :: cs, n, u =>
    if c = 95 then parseDigits base maxVal cs n true
    else match digitVal c with
      | none => .error .syntax
      | some d =>
        if d ≥ base then .error .syntax
        else if n * base ≥ 2 ^ 64 then .error .range
        else if n * base + d > maxVal then .error .range
        else parseDigits base maxVal cs (n * base + d) u

/-- The loop of `underscoreOK` over the number proper; `saw` is '^', '0', '_' or '!'. -/
def underscoreLoop (hex : Bool) : Bytes → UInt8 → Bool
  | [], saw => saw ≠ 95
  | c :: cs, saw =>
    if (48 ≤ c ∧ c ≤ 57) ∨ (hex ∧ 97 ≤ lowerByte c ∧ lowerByte c ≤ 102) then underscoreLoop hex cs 48
    else if c = 95 then (if saw ≠ 48 then false else underscoreLoop hex cs 95)
    else if saw = 95 then false
    else underscoreLoop hex cs 33

/-- Is `c` one of b/o/x in either case. -/
def isPrefixLetter (c : UInt8) : Bool := lowerByte c = 98 || lowerByte c = 111 || lowerByte c = 120

/-- `underscoreOK`. -/
def underscoreOK (s : Bytes) : Bool :=
  let s := match s with
    | c :: cs => if c = 45 ∨ c = 43 then cs else c :: cs
    | [] => []
  match s with
  | 48 :: c :: cs =>
    if isPrefixLetter c then underscoreLoop (lowerByte c = 120) cs 48 else underscoreLoop false (48 :: c :: cs) 94
  | s => underscoreLoop false s 94

/-- Base and digits selected by the base-0 prefix rules. -/
def base0 (s : Bytes) : Nat × Bytes :=
  match s with
  | 48 :: c :: d :: cs =>
    if lowerByte c = 98 then (2, d :: cs)
    else if lowerByte c = 111 then (8, d :: cs)
    else if lowerByte c = 120 then (16, d :: cs)
    else (8, c :: d :: cs)
  | 48 :: cs => (8, cs)
  | s => (10, s)

/-- `strconv.ParseUint(s, 0, bits)`. -/
def parseUint0 (s : Bytes) (bits : Nat) : Except NumErr Nat :=
  if s = [] then .error .syntax else
  match parseDigits (base0 s).1 (2 ^ bits - 1) (base0 s).2 0 false with
  | .error e => .error e
  | .ok (n, u) => if u && !underscoreOK s then .error .syntax else .ok n

/-- `strconv.ParseInt(s, 0, bits)`. A range error of `ParseUint` leaves `un = 2^bits - 1`, which is again out of
range here, so it stays a range error. -/
def parseInt0 (s : Bytes) (bits : Nat) : Except NumErr Int :=
  if s = [] then .error .syntax else
  let neg := s.head? = some 45
  let digits := if s.head? = some 43 ∨ s.head? = some 45 then s.tail else s
  match parseUint0 digits bits with
  | .error e => .error e
  | .ok un =>
    if ¬ neg ∧ un ≥ 2 ^ (bits - 1) then .error .range
    else if neg ∧ un > 2 ^ (bits - 1) then .error .range
    else .ok (if neg then -(un : Int) else un)

end Gotit
