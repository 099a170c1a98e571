import Verif.Model.BitSet
/-
  github.com/bits-and-blooms/bitset v1.2.2 on its words, the operations gotit uses (torrent.go:103-139, 260-262, peer.go:338, 401,
  peer_message.go:133). The library's source is not in /repo; the definitions follow its published code. Model/BitSet.lean describes the
  same operations without words.
-/
namespace Gotit

/-- `BitSet`: `length`, the slice `set`, and the words between its length and its capacity. -/
structure WordSet where
  length : Nat
  set : List (BitVec 64)
  spare : List (BitVec 64)
  deriving DecidableEq

namespace WordSet

/-- `New(length)`: `make([]uint64, wordsNeeded(length))`. (That `make` may fail is in `bitsetNew`, Model/Torrent.lean.) -/
def new (length : Nat) : WordSet := ⟨length, List.replicate (BitSet.wordsNeeded length) 0, []⟩

/-- `From(buf)`, of a slice without spare capacity (`make`, peer_message.go:129). -/
def fromBuf (buf : List (BitVec 64)) : WordSet := ⟨64 * buf.length, buf, []⟩

/-- Word number `w`; in range wherever it is used. -/
def wordAt (b : WordSet) (w : Nat) : BitVec 64 := b.set.getD w 0

/-- `Test(i)`: `b.set[i>>6] & (1 << (i&63)) != 0`. -/
def test (b : WordSet) (i : Nat) : Bool :=
  if i ≥ b.length then false else (b.wordAt (i / 64) &&& ((1#64) <<< (i % 64))) ≠ 0

/-- `extendSetMaybe(i)`. -/
def extendMaybe (b : WordSet) (i : Nat) : WordSet :=
  if i ≥ b.length then
    let nsize := BitSet.wordsNeeded (i + 1)
    if b.set.length + b.spare.length ≥ nsize then
      ⟨i + 1, (b.set ++ b.spare).take nsize, (b.set ++ b.spare).drop nsize⟩
    else if b.set.length < nsize then
      ⟨i + 1, b.set ++ List.replicate (nsize - b.set.length) 0, List.replicate nsize 0⟩
    else { b with length := i + 1 }
  else b

/-- `Set(i)`: `b.set[i>>6] |= 1 << (i&63)` after the extension. -/
def insert (b : WordSet) (i : Nat) : WordSet :=
  let b := b.extendMaybe i
  { b with set := b.set.set (i / 64) (b.wordAt (i / 64) ||| ((1#64) <<< (i % 64))) }

/-- `trailingZeroes64`: 64 for zero. -/
def trailingZeros (w : BitVec 64) : Nat := ((List.range 64).find? (fun t => w.getLsbD t)).getD 64

/-- The loop of `NextClear`, from word `x` on; `n` is the number of words left. -/
def nextClearLoop (b : WordSet) : (n x : Nat) → Option Nat
  | 0, _ => none
  | n + 1, x =>
    let index := x * 64 + trailingZeros (~~~ b.wordAt x)
    if b.wordAt x ≠ BitVec.allOnes 64 ∧ index < b.length then some index else nextClearLoop b n (x + 1)

/-- `NextClear(i)`. -/
def nextClear (b : WordSet) (i : Nat) : Option Nat :=
  let x := i / 64
  if x ≥ b.set.length then none
  else
    let w := b.wordAt x >>> (i % 64)
    let wA := BitVec.allOnes 64 >>> (i % 64)
    let index := i + trailingZeros (~~~ w)
    if w ≠ wA ∧ index < b.length then some index
    else nextClearLoop b (b.set.length - (x + 1)) (x + 1)

/-- The number of bits set in a word. -/
def popcount (w : BitVec 64) : Nat := ((List.range 64).filter (fun t => w.getLsbD t)).length

/-- `Count()`: `popcntSlice(b.set)`. -/
def count (b : WordSet) : Nat := b.set.foldl (fun n w => n + popcount w) 0

/-- `All()`: `Count() == length`. -/
def all (b : WordSet) : Bool := b.count = b.length

end WordSet

/-- A call of one of the operations. -/
inductive BitOp
  | set (i : Nat)
  | test (i : Nat)
  | nextClear (i : Nat)
  | all
  deriving DecidableEq

/-- What a call returns. -/
inductive BitResult
  | done
  | bool (b : Bool)
  | index (i : Option Nat)
  deriving DecidableEq

/-- A call on words. -/
def WordSet.call (b : WordSet) : BitOp → WordSet × BitResult
  | .set i => (b.insert i, .done)
  | .test i => (b, .bool (b.test i))
  | .nextClear i => (b, .index (b.nextClear i))
  | .all => (b, .bool b.all)

/-- The results of a sequence of calls. -/
def WordSet.calls (b : WordSet) : List BitOp → List BitResult
  | [] => []
  | op :: ops => (b.call op).2 :: (b.call op).1.calls ops

/-- The same calls on the sets of Model/BitSet.lean. -/
def BitSet.call (b : BitSet) : BitOp → BitSet × BitResult
  | .set i => (b.set i, .done)
  | .test i => (b, .bool (b.test i))
  | .nextClear i => (b, .index (b.nextClear i))
  | .all => (b, .bool b.all)

def BitSet.calls (b : BitSet) : List BitOp → List BitResult
  | [] => []
  | op :: ops => (b.call op).2 :: (b.call op).1.calls ops

end Gotit
