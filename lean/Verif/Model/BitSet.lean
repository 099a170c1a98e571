import Verif.Model.Go
/-
  github.com/bits-and-blooms/bitset v1.2.2, the operations gotit uses. The vendored source is not in /repo; the
  model follows the library's documented and published behaviour.

  A bit set is its length and the content of its words as a function from bit numbers.
-/
namespace Gotit

/-- `BitSet`: `length` and the bits of the `[]uint64`. -/
structure BitSet where
  len : Nat
  bit : Nat → Bool

namespace BitSet

/-- `New(n)`: all bits clear. -/
def new (n : Nat) : BitSet := ⟨n, fun _ => false⟩

/-- `Test(i)`: false beyond the length. -/
def test (b : BitSet) (i : Nat) : Bool := if i ≥ b.len then false else b.bit i

/-- `Set(i)`: extends the set if needed. New words are zero. -/
def set (b : BitSet) (i : Nat) : BitSet :=
  ⟨if i ≥ b.len then i + 1 else b.len, fun j => if j = i then true else b.bit j⟩

/-- `NextClear(i)`: the least clear bit `j ≥ i` with `j < length`. -/
def nextClear (b : BitSet) (i : Nat) : Option Nat :=
  (List.range' i (b.len - i)).find? (fun j => !b.bit j)

/-- `Count()`: number of set bits (bits beyond the length are never set by the operations used). -/
def count (b : BitSet) : Nat := ((List.range b.len).filter b.bit).length

/-- `All()`: every bit below the length is set (`Count() == Len()`). -/
def all (b : BitSet) : Bool := b.count = b.len

/-- Number of 64-bit words. -/
def wordsNeeded (n : Nat) : Nat := (n + 63) / 64

/-- Word `w`: bit `t` has weight `2^t`. -/
def word (b : BitSet) (w : Nat) : Nat :=
  (List.range 64).foldl (fun a t => a + if b.bit (64 * w + t) then 2 ^ t else 0) 0

/-- `Bytes()`: the words. -/
def words (b : BitSet) : List Nat := (List.range (wordsNeeded b.len)).map b.word

/-- `From(words)`. -/
def fromWords (ws : List Nat) : BitSet :=
  ⟨64 * ws.length, fun i => (ws.getD (i / 64) 0).testBit (i % 64)⟩

end BitSet
end Gotit
