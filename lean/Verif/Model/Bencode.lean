import Verif.Model.Go
/-
  pkg/bencode/elements.go
-/
namespace Gotit

/-- Values of the Go interface type `Bencode` (elements.go:7-24), plus the nil interface.

* `ptr` records whether a list/dict is held as `*ListElement`/`*DictElement` (what `Parse` returns,
  parse.go:162,189) or as a plain `ListElement`/`DictElement` (what the builders return,
  elements.go:155-157,171-173). The difference is visible in `prettyPrint`.
* `raw` is the unexported `raw` field.
* A Go map is a list of entries in the order in which this particular iteration visits them; theorems
  quantify over all lists, so over all iteration orders. -/
inductive Bencode where
  | nil
  | int (n : Int)
  | str (s : Bytes)
  | list (ptr : Bool) (vs : List Bencode) (raw : Bytes)
  | dict (ptr : Bool) (kvs : List (Bytes × Bencode)) (raw : Bytes)
  deriving Repr

/-- Digits of a natural number in base 10, most significant first, prepended to `acc`. -/
def natDigits (n : Nat) : Bytes :=
  if n < 10 then [UInt8.ofNat (48 + n)]
  else natDigits (n / 10) ++ [UInt8.ofNat (48 + n % 10)]
termination_by n

/-- `strconv.Itoa`. -/
def itoa (n : Int) : Bytes :=
  if n < 0 then 45 :: natDigits n.natAbs else natDigits n.natAbs

/-- `StringElement.Encode` (elements.go:30-32): length, ':' and the bytes. -/
def encodeStr (s : Bytes) : Bytes := itoa s.length ++ 58 :: s

mutual
/-- `Encode` (elements.go:30-32, 42-44, 54-63, 73-84). Calling `Encode` on a nil interface would panic;
the code never does (it skips nil elements), so the `nil` case is the empty string and only reached
through the skipping branches. -/
def Bencode.encode : Bencode → Bytes
  | .nil => []
  | .int n => 105 :: itoa n ++ [101]
  | .str s => encodeStr s
  | .list _ vs _ => 108 :: encodeList vs ++ [101]
  | .dict _ kvs _ => 100 :: encodeEntries kvs ++ [101]
/-- The loop of `ListElement.Encode` (elements.go:56-61): nil elements are skipped. -/
def encodeList : List Bencode → Bytes
  | [] => []
  | .nil :: vs => encodeList vs
  | v :: vs => v.encode ++ encodeList vs
/-- The loop of `DictElement.Encode` (elements.go:75-81): nil values are skipped. -/
def encodeEntries : List (Bytes × Bencode) → Bytes
  | [] => []
  | (_, .nil) :: kvs => encodeEntries kvs
  | (k, v) :: kvs => encodeStr k ++ v.encode ++ encodeEntries kvs
end

/-- `DictElement.Value` / a Go map read (elements.go:86-88): nil when absent. -/
def lookupKey (k : Bytes) : List (Bytes × Bencode) → Bencode
  | [] => .nil
  | (k', v) :: kvs => if k' = k then v else lookupKey k kvs

/-- Go map assignment `m[k] = v` (parse.go:181, elements.go:150-153): replaces the entry of `k` or adds one. -/
def upsert (k : Bytes) (v : Bencode) : List (Bytes × Bencode) → List (Bytes × Bencode)
  | [] => [(k, v)]
  | (k', v') :: kvs => if k' = k then (k, v) :: kvs else (k', v') :: upsert k v kvs

/-- `value == nil` (tag_parser.go:77,80). -/
def Bencode.isNil : Bencode → Bool
  | .nil => true
  | _ => false

/-- `Raw()` (elements.go:34-36, 46-48, 65-67, 90-92). -/
def Bencode.rawBytes : Bencode → Bytes
  | .nil => []
  | .int n => itoa n
  | .str s => s
  | .list _ _ raw => raw
  | .dict _ _ raw => raw

/-- `newLine` (elements.go:136-138). -/
def newLine (tabs : Bytes) : Bytes := 10 :: tabs

mutual
/-- `prettyPrint` (elements.go:94-130). The type switch only matches the *value* types `DictElement` and
`ListElement`; a pointer falls into `default`, whose `value.String()` restarts with empty indentation. -/
def prettyPrint : Bencode → Bytes → Bytes
  | .nil, _ => []          -- never called on nil (elements.go:101,116); kept total
  | .int n, _ => itoa n
  | .str s, _ => s
  | .list ptr vs _, tabs =>
      let tabs := (if ptr then [] else tabs) ++ [9]
      let data := 91 :: newLine tabs ++ prettyList vs tabs
      if data.length = 2 + tabs.length then [91, 93]
      else data.take (data.length - 1) ++ [93]
  | .dict ptr kvs _, tabs =>
      let tabs := (if ptr then [] else tabs) ++ [9]
      let data := 123 :: newLine tabs ++ prettyEntries kvs tabs
      if data.length = 2 + tabs.length then [123, 125]
      else data.take (data.length - 1) ++ [125]
/-- elements.go:115-120 -/
def prettyList : List Bencode → Bytes → Bytes
  | [], _ => []
  | .nil :: vs, tabs => prettyList vs tabs
  | v :: vs, tabs => prettyPrint v tabs ++ 44 :: newLine tabs ++ prettyList vs tabs
/-- elements.go:100-105 -/
def prettyEntries : List (Bytes × Bencode) → Bytes → Bytes
  | [], _ => []
  | (_, .nil) :: kvs, tabs => prettyEntries kvs tabs
  | (k, v) :: kvs, tabs => k ++ [58, 32] ++ prettyPrint v tabs ++ 44 :: newLine tabs ++ prettyEntries kvs tabs
end

/-- `String()` (elements.go:26-28, 38-40, 50-52, 69-71). -/
def Bencode.toText (v : Bencode) : Bytes := prettyPrint v []

end Gotit
