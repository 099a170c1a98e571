import Verif.Model.Bencode
/-
  Independent specification of the bencode format accepted by gotit.
  Nothing here mentions scanners, positions or fuel.
-/
namespace Gotit.Spec
open Gotit

/-- Only the bytes '0'..'9'. (The empty string qualifies: gotit accepts `ie` as 0 and `:` as "".) -/
def IsDigits (ds : Bytes) : Prop := ∀ d ∈ ds, 48 ≤ d.toNat ∧ d.toNat ≤ 57

/-- The number a digit string denotes in ordinary decimal notation. -/
def decimal (ds : Bytes) : Nat := ds.foldl (fun a d => a * 10 + (d.toNat - 48)) 0

/-- Largest number gotit reads correctly: `(2^63 - 1) / 10`. -/
def maxNumber : Nat := 922337203685477580

/-- The number gotit reads from a digit string: the decimal value computed through a 64-bit intermediate that
is ten times too large. -/
def machineNumber (ds : Bytes) : Int := (wrap64 (10 * decimal ds)).tdiv 10

/-- The value of the last occurrence of `k` in a sequence of pairs; `nil` if there is none. -/
def lastValue (k : Bytes) (es : List (Bytes × Bencode)) : Bencode :=
  match es.reverse.find? (fun e => e.1 = k) with
  | some e => e.2
  | none => .nil

/-- The distinct members of a list, in the order of their first occurrence. -/
def distinct : List Bytes → List Bytes
  | [] => []
  | k :: ks => k :: (distinct ks).filter (fun k' => k' ≠ k)

/-- The map obtained from a sequence of key/value pairs: every key with the value of its last occurrence. -/
def mapOf (es : List (Bytes × Bencode)) : List (Bytes × Bencode) :=
  (distinct (es.map Prod.fst)).map fun k => (k, lastValue k es)

mutual
/-- `Denotes b v`: the byte string `b` is, as a whole, the text of the element `v`. -/
inductive Denotes : Bytes → Bencode → Prop where
  | int (ds : Bytes) : IsDigits ds → Denotes (105 :: ds ++ [101]) (.int (machineNumber ds))
  | str (ds s : Bytes) : IsDigits ds → machineNumber ds = s.length → Denotes (ds ++ 58 :: s) (.str s)
  | list (body : Bytes) (vs : List Bencode) : DenotesSeq body vs →
      Denotes (108 :: body ++ [101]) (.list true vs (108 :: body ++ [101]))
  | dict (body : Bytes) (es : List (Bytes × Bencode)) : DenotesEntries body es →
      Denotes (100 :: body ++ [101]) (.dict true (mapOf es) (100 :: body ++ [101]))
/-- `b` is the concatenation of the texts of `vs`. -/
inductive DenotesSeq : Bytes → List Bencode → Prop where
  | nil : DenotesSeq [] []
  | cons (b bs : Bytes) (v : Bencode) (vs : List Bencode) :
      Denotes b v → DenotesSeq bs vs → DenotesSeq (b ++ bs) (v :: vs)
/-- `b` is the concatenation of the texts of the keys and values of `es`. -/
inductive DenotesEntries : Bytes → List (Bytes × Bencode) → Prop where
  | nil : DenotesEntries [] []
  | cons (kb vb bs k : Bytes) (v : Bencode) (es : List (Bytes × Bencode)) :
      Denotes kb (.str k) → Denotes vb v → DenotesEntries bs es →
      DenotesEntries (kb ++ (vb ++ bs)) ((k, v) :: es)
end

/-- A string length (a digit run before ':') that gotit reads as a negative number. -/
def BadLength (x : Bytes) : Prop :=
  ∃ ds rest, x = ds ++ 58 :: rest ∧ IsDigits ds ∧ machineNumber ds < 0

/-- `Crashes x`: reading `x` from the left reaches, after well-formed elements only, a string (list element, key,
value or the document itself) whose length gotit reads as a negative number. -/
inductive Crashes : Bytes → Prop where
  | len {x : Bytes} : BadLength x → Crashes x
  | list (p : Bytes) (vs : List Bencode) (x : Bytes) : DenotesSeq p vs → Crashes x → Crashes (108 :: (p ++ x))
  | key (p : Bytes) (es : List (Bytes × Bencode)) (x : Bytes) :
      DenotesEntries p es → BadLength x → Crashes (100 :: (p ++ x))
  | val (p : Bytes) (es : List (Bytes × Bencode)) (kb k x : Bytes) :
      DenotesEntries p es → Denotes kb (.str k) → Crashes x → Crashes (100 :: (p ++ (kb ++ x)))

/-- `Sub x v`: `x` is `v` itself or an element somewhere inside it. -/
inductive Sub : Bencode → Bencode → Prop where
  | refl (v : Bencode) : Sub v v
  | list {x v : Bencode} {vs : List Bencode} (ptr : Bool) (raw : Bytes) :
      v ∈ vs → Sub x v → Sub x (.list ptr vs raw)
  | dict {x v : Bencode} {kvs : List (Bytes × Bencode)} {k : Bytes} (ptr : Bool) (raw : Bytes) :
      (k, v) ∈ kvs → Sub x v → Sub x (.dict ptr kvs raw)

mutual
/-- `Same v w`: the same value, once nil list elements and nil dictionary values are left out; `Raw()` bytes and
the pointer/value representation do not matter. -/
inductive Same : Bencode → Bencode → Prop where
  | int (n : Int) : Same (.int n) (.int n)
  | str (s : Bytes) : Same (.str s) (.str s)
  | list {p q : Bool} {r r' : Bytes} {vs ws : List Bencode} : SameSeq vs ws → Same (.list p vs r) (.list q ws r')
  | dict {p q : Bool} {r r' : Bytes} {vs ws : List (Bytes × Bencode)} :
      SameEntries vs ws → Same (.dict p vs r) (.dict q ws r')
inductive SameSeq : List Bencode → List Bencode → Prop where
  | nil : SameSeq [] []
  | skip {vs ws : List Bencode} : SameSeq vs ws → SameSeq (.nil :: vs) ws
  | cons {v w : Bencode} {vs ws : List Bencode} : Same v w → SameSeq vs ws → SameSeq (v :: vs) (w :: ws)
inductive SameEntries : List (Bytes × Bencode) → List (Bytes × Bencode) → Prop where
  | nil : SameEntries [] []
  | skip {k : Bytes} {vs ws : List (Bytes × Bencode)} : SameEntries vs ws → SameEntries ((k, .nil) :: vs) ws
  | cons {k : Bytes} {v w : Bencode} {vs ws : List (Bytes × Bencode)} :
      Same v w → SameEntries vs ws → SameEntries ((k, v) :: vs) ((k, w) :: ws)
end

/-- What gotit can represent on the wire: integers between 0 and `maxNumber`, strings and keys not longer than
`maxNumber` bytes (no machine has that much memory), dictionaries with one entry per key (as in a Go map). -/
def EncodableHead : Bencode → Prop
  | .nil => True
  | .int n => 0 ≤ n ∧ n ≤ maxNumber
  | .str s => s.length ≤ maxNumber
  | .list _ _ _ => True
  | .dict _ kvs _ => (kvs.map Prod.fst).Nodup ∧ ∀ e ∈ kvs, e.1.length ≤ maxNumber

def Encodable (v : Bencode) : Prop := ∀ x, Sub x v → EncodableHead x

/-- A list or dictionary. -/
def IsContainer : Bencode → Prop
  | .list _ _ _ => True
  | .dict _ _ _ => True
  | _ => False

/-- No list or dictionary inside a list or dictionary. -/
def Flat : Bencode → Prop
  | .list _ vs _ => ∀ v ∈ vs, ¬ IsContainer v
  | .dict _ kvs _ => ∀ e ∈ kvs, ¬ IsContainer e.2
  | _ => True

end Gotit.Spec
