import Verif.Model.HttpTracker
import Verif.Spec.Text
/-
  What the tracker and the user of the client see: peer entries, the compact wire form, query strings.
-/
namespace Gotit.Spec
open Gotit

/-- The `ip` and `port` texts of one entry of a dictionary-form peer list; `none` if the entry is not a dictionary
or lacks one of them. -/
def peerText : Bencode → Option (Bytes × Bytes)
  | .dict _ kvs _ =>
    match lookupKey (ascii "ip") kvs, lookupKey (ascii "port") kvs with
    | .nil, _ => none
    | _, .nil => none
    | a, b => some (a.toText, b.toText)
  | _ => none

/-- The texts of a whole list, if every entry has them. -/
def peerTexts : List Bencode → Option (List (Bytes × Bytes))
  | [] => some []
  | v :: vs =>
    match peerText v, peerTexts vs with
    | some p, some ps => some (p :: ps)
    | _, _ => none

/-- The value of an optional text key: empty if absent. -/
def optText (v : Bencode) : Bytes := if v.isNil then [] else v.toText

/-- The value of an optional integer key. -/
def optInt (v : Bencode) : Except NumErr Int := if v.isNil then .ok 0 else parseInt0 v.toText 64

/-- A port number in decimal: only digits, at least one, value below 65536. -/
def portNumber (s : Bytes) : Option Nat :=
  if s ≠ [] ∧ s.all (fun c => 48 ≤ c && c ≤ 57) ∧
      s.foldl (fun a c => a * 10 + (c.toNat - 48)) 0 < 65536
  then some (s.foldl (fun a c => a * 10 + (c.toNat - 48)) 0) else none

/-- The compact form of an IPv4 peer (BEP 23): 4 address bytes, 2 port bytes, most significant first. -/
def compactEntry (a b c d : UInt8) (port : Nat) : Bytes :=
  [a, b, c, d, UInt8.ofNat (port / 256), UInt8.ofNat (port % 256)]

/-- The query part of a URL: after the first `?`, up to the first `#`. -/
def queryOf (url : Bytes) : Option Bytes :=
  let noFragment := url.takeWhile (· ≠ 35)
  match noFragment.dropWhile (· ≠ 63) with
  | [] => none
  | _ :: q => some q

/-- Value of a hexadecimal digit. -/
def hexVal (c : UInt8) : Option Nat :=
  if 48 ≤ c ∧ c ≤ 57 then some (c.toNat - 48)
  else if 65 ≤ c ∧ c ≤ 70 then some (c.toNat - 55)
  else if 97 ≤ c ∧ c ≤ 102 then some (c.toNat - 87)
  else none

/-- Decoding of `application/x-www-form-urlencoded` text. -/
def formDecode : Bytes → Option Bytes
  | [] => some []
  | 37 :: h :: l :: cs =>
    match hexVal h, hexVal l, formDecode cs with
    | some a, some b, some r => some (UInt8.ofNat (16 * a + b) :: r)
    | _, _, _ => none
  | c :: cs =>
    if c = 37 then none
    else match formDecode cs with
      | some r => some ((if c = 43 then 32 else c) :: r)
      | none => none

/-- One `key=value`. -/
def formPair (w : Bytes) : Option (Bytes × Bytes) :=
  match formDecode (w.takeWhile (· ≠ 61)), formDecode ((w.dropWhile (· ≠ 61)).drop 1) with
  | some k, some v => some (k, v)
  | _, _ => none

/-- The parameters of a query string, in order, as a tracker decodes them. -/
def formParams (q : Bytes) : Option (List (Bytes × Bytes)) := (splitAt 38 q).mapM formPair

/-- The characters of a query: those RFC 3986 calls unreserved, and `%`, `+`, `=`, `&`, which have a meaning in it. -/
def queryCharacters : Bytes := ascii "ABCDEFGHIJKLMNOPQRSTUVWXYZabcdefghijklmnopqrstuvwxyz0123456789-_.~%+=&"

end Gotit.Spec
