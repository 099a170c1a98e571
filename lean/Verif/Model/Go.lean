/-
  Go basics shared by all models.
-/
namespace Gotit

/-- A Go `[]byte` or `string`. Aliasing between slices is ignored here; the one place where it is
observable (strings made by `b2s`, pkg/bencode/parse.go:192-194) has its own model (`Model/ParseView.lean`). -/
abbrev Bytes := List UInt8

/-- Outcome of a Go call that may return an error or panic.
Error and panic texts are kept as strings; theorems that only care about the kind ignore them. -/
inductive Res (α : Type) where
  | ok (a : α)
  | err (msg : String)
  | panic (why : String)
  deriving Repr, DecidableEq

namespace Res
/-- `x, err := f(); if err != nil { return ..., err }` (and panics propagate). -/
@[inline] def bind {α β : Type} : Res α → (α → Res β) → Res β
  | ok a, f => f a
  | err e, _ => err e
  | panic w, _ => panic w
@[inline] def map {α β : Type} (f : α → β) : Res α → Res β
  | ok a => ok (f a)
  | err e => err e
  | panic w => panic w
def isPanic {α : Type} : Res α → Bool | panic _ => true | _ => false
instance : Monad Res where
  pure := ok
  bind := bind
end Res

/-- Two's-complement wrap-around of a mathematical integer to Go's 64-bit `int`/`int64`. -/
def wrap64 (x : Int) : Int := Int.bmod x (2 ^ 64)

/-- ASCII text as bytes; used for the literals in the source. -/
def ascii (s : String) : Bytes := s.toList.map (fun c => UInt8.ofNat c.toNat)

/-- encoding/binary.BigEndian encoding of `n` in `k` bytes (`PutUint16/32/64`, `binary.Write` of
fixed-size integers): most significant byte first, value taken modulo `256^k`. -/
def putBE : Nat → Nat → Bytes
  | 0, _ => []
  | k + 1, n => UInt8.ofNat (n / 256 ^ k) :: putBE k n

/-- encoding/binary.BigEndian decoding (`Uint16/32/64`) of a slice that has the right length. -/
def getBE (bs : Bytes) : Nat := bs.foldl (fun a b => a * 256 + b.toNat) 0

end Gotit
