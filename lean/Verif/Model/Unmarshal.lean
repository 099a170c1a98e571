import Verif.Model.Parse
import Verif.Model.Strconv
/-
  `Unmarshal` (tag_parser.go:35-187). Go's reflection is modelled by a type description `Ty` and a value tree
  `GoVal`; since a failing call may leave a partially modified target, every function returns the new value
  together with the outcome.
-/
namespace Gotit

/-- Go types as far as `setField` distinguishes them (tag_parser.go:103-184). Named types with these underlying
kinds behave the same, except `[]T` with T a *named* byte type, which is outside the model. -/
inductive Ty where
  | string
  /-- `int8 … int64`, `int` (64) -/
  | int (bits : Nat)
  /-- `uint8 … uint64`, `uint` (64) -/
  | uint (bits : Nat)
  | slice (t : Ty)
  /-- fields: name, the `ben` tag ("" if none), exported (`CanSet`), type -/
  | struct (fields : List ((Bytes × Bytes × Bool) × Ty))
  /-- `stringKey`: the key type is `string` -/
  | map (stringKey : Bool) (t : Ty)
  | ptr (t : Ty)
  /-- any other kind (bool, float, array, interface, chan, func, complex) -/
  | other

/-- Go values; `nilSlice` is a nil slice of any element type (the zero value), `bytes` is a non-nil `[]byte`, `slice` a
non-nil slice of another type. -/
inductive GoVal where
  | string (s : Bytes)
  | int (n : Int)
  | uint (n : Nat)
  | nilSlice
  | bytes (b : Bytes)
  | slice (vs : List GoVal)
  | struct (fs : List GoVal)
  | map (kvs : List (Bytes × GoVal))
  | ptr (v : Option GoVal)
  | other

/-- How a call ended. -/
inductive Outcome where
  | ok
  | err (e : String)
  | panic (why : String)
  deriving Repr, DecidableEq

mutual
/-- The zero value of a type (`reflect.New`, `reflect.MakeSlice`). -/
def zero : Ty → GoVal
  | .string => .string []
  | .int _ => .int 0
  | .uint _ => .uint 0
  | .slice _ => .nilSlice
  | .struct fs => .struct (zeros fs)
  | .map _ _ => .map []
  | .ptr _ => .ptr none
  | .other => .other
def zeros : List ((Bytes × Bytes × Bool) × Ty) → List GoVal
  | [] => []
  | (_, t) :: fs => zero t :: zeros fs
end

/-- `strings.Split(s, ",")`. -/
def splitComma : Bytes → List Bytes
  | [] => [[]]
  | c :: cs =>
    if c = 44 then [] :: splitComma cs
    else match splitComma cs with
      | [] => [[c]]
      | w :: ws => (c :: w) :: ws

/-- The dictionary key of a tag (tag_parser.go:64-65). -/
def tagKey (tag : Bytes) : Bytes := (splitComma tag).headD []

/-- Whether a tag says optional (tag_parser.go:63, 66-70). -/
def tagOptional (tag : Bytes) : Bool := (splitComma tag).tail.any (fun o => o = ascii "optional")

/-- The loop over list elements (tag_parser.go:139-144): stops at the first failure. -/
def setEach (g : Bencode → GoVal × Outcome) : List Bencode → List GoVal × Outcome
  | [] => ([], .ok)
  | v :: vs =>
    match g v with
    | (x, .ok) => let (xs, o) := setEach g vs; (x :: xs, o)
    | (_, o) => ([], o)

/-- Go map assignment on the map under construction. -/
def putMap (k : Bytes) (x : GoVal) : List (Bytes × GoVal) → List (Bytes × GoVal)
  | [] => [(k, x)]
  | (k', x') :: m => if k' = k then (k, x) :: m else (k', x') :: putMap k x m

/-- The loop over dictionary entries (tag_parser.go:171-180). `SetMapIndex` panics when the key type of the map
is not `string`. -/
def setEntries (stringKey : Bool) (g : Bencode → GoVal × Outcome) :
    List (Bytes × Bencode) → List (Bytes × GoVal) → List (Bytes × GoVal) × Outcome
  | [], m => (m, .ok)
  | (k, v) :: kvs, m =>
    match g v with
    | (x, .ok) =>
      if !stringKey then (m, .panic "reflect.Value.SetMapIndex: string is not assignable to key type")
      else setEntries stringKey g kvs (putMap k x m)
    | (_, o) => (m, o)

mutual
/-- The part of `setField` after the pointer was followed (tag_parser.go:103-186). -/
def setValue : Ty → GoVal → Bencode → GoVal × Outcome
  | .string, _, v => (.string v.toText, .ok)
  | .int bits, old, v =>
    match parseInt0 v.toText bits with
    | .ok n => (.int n, .ok)
    | .error _ => (old, .err "could not assign bencode value to target")
  | .uint bits, old, v =>
    match parseUint0 v.toText bits with
    | .ok n => (.uint n, .ok)
    | .error _ => (old, .err "strconv.ParseUint")
  | .slice t, old, v =>
    match t with
    | .uint 8 => (.bytes v.rawBytes, .ok)
    | t =>
      match v with
      | .list _ vs _ =>
        match setEach (fun x => setField t (zero t) x) vs with
        | (xs, .ok) => (.slice xs, .ok)
        | (_, o) => (old, o)
      | _ => (old, .err "could not assign bencode value to target")
  | .struct fs, old, v =>
    match v with
    | .dict p kvs raw =>
      let olds := match old with | .struct os => os | _ => zeros fs
      let (xs, o) := setFields fs olds (.dict p kvs raw)
      (.struct xs, o)
    | _ => (old, .err "could not assign bencode value to target")
  | .map stringKey t, old, v =>
    match v with
    | .dict _ kvs _ =>
      match setEntries stringKey (fun x => setField t (zero t) x) kvs [] with
      | (m, .ok) => (.map m, .ok)
      | (_, o) => (old, o)
    | _ => (old, .err "could not assign bencode value to target")
  | .ptr _, old, _ => (old, .err "unsupported bencode type")
  | .other, old, _ => (old, .err "unsupported bencode type")

/-- `setField` (tag_parser.go:91-187): one level of pointer is followed, allocating if nil. -/
def setField : Ty → GoVal → Bencode → GoVal × Outcome
  | .ptr t, old, v =>
    let target := match old with | .ptr (some o) => o | _ => zero t
    let (x, o) := setValue t target v
    (.ptr (some x), o)
  | .string, old, v => setValue .string old v
  | .int b, old, v => setValue (.int b) old v
  | .uint b, old, v => setValue (.uint b) old v
  | .slice t, old, v => setValue (.slice t) old v
  | .struct fs, old, v => setValue (.struct fs) old v
  | .map k t, old, v => setValue (.map k t) old v
  | .other, old, v => setValue .other old v

/-- The field loop of `processTarget` (tag_parser.go:55-88). -/
def setFields : List ((Bytes × Bytes × Bool) × Ty) → List GoVal → Bencode → List GoVal × Outcome
  | [], _, _ => ([], .ok)
  | ((_, tag, canSet), t) :: fs, olds, v =>
    let old := olds.headD (zero t)
    let rest := olds.tail
    if !canSet || tag = [] then
      let (xs, o) := setFields fs rest v; (old :: xs, o)
    else match v with
      | .dict p kvs raw =>
        let value := lookupKey (tagKey tag) kvs
        if value.isNil then
          if tagOptional tag then
            let (xs, o) := setFields fs rest (.dict p kvs raw); (old :: xs, o)
          else (old :: rest, .err "Required ben field not found")
        else
          match setField t old value with
          | (x, .ok) => let (xs, o) := setFields fs rest (.dict p kvs raw); (x :: xs, o)
          | (x, o) => (x :: rest, o)
      | _ => (old :: rest, .panic "bencode internal: bencode element not *DictElement")
end

/-- `processTarget` (tag_parser.go:44-53 and the loop): the target must be a non-nil pointer to a struct. -/
def processTarget : Ty → GoVal → Bencode → GoVal × Outcome
  | .ptr (.struct fs), .ptr (some (.struct olds)), v =>
    let (xs, o) := setFields fs olds v
    (.ptr (some (.struct xs)), o)
  | _, old, _ => (old, .err "bencode: pointer to struct expected as target")

/-- `Unmarshal` (tag_parser.go:35-42). -/
def unmarshal (t : Ty) (old : GoVal) (data : Bytes) : GoVal × Outcome :=
  match parse data with
  | .ok v => processTarget t old v
  | .err e => (old, .err e)
  | .panic w => (old, .panic w)
  | .outOfFuel => (old, .panic "out of fuel")  -- never: C05

end Gotit
