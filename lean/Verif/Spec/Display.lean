import Verif.Model.Display
/-
  What a line of the display can show.
-/
namespace Gotit.Spec
open Gotit

/-- All messages the writer has taken out of the channel, in order. -/
def taken (P : Prog) : List PeerMessage := P.world.written ++ P.world.inHand.toList

/-- The number of bytes of the block in a piece message. -/
def blockBytes (m : PeerMessage) : Nat := match m.data with | .ok d => d.length | _ => 0

/-- The bytes of the first `n` blocks. -/
def firstBytes (ms : List PeerMessage) (n : Nat) : Nat := ((ms.take n).map blockBytes).sum

/-- The size the display computes with. -/
def shownSize (t : Torrent) : Nat := (t.length % 2 ^ 64).toNat

/-- A line made of figures read one after the other while the blocks `ms` are counted one after the other: the percentage when `i` blocks had
been counted, the bytes downloaded when `j` had been, the bytes left when `k` had been subtracted, the speed when `r` had been counted.
Counting comes before subtracting. -/
def LineOf (size : Nat) (ms : List PeerMessage) (l : ShownLine) : Prop :=
  ∃ i j k r, i ≤ j ∧ j ≤ r ∧ r ≤ ms.length ∧ j ≤ k + 1 ∧ k ≤ r ∧
    l.percent = percentCompleted size (firstBytes ms i % 2 ^ 64) ∧ l.downloaded = firstBytes ms j % 2 ^ 64 ∧
    (l.left : Int) = ((size : Int) - firstBytes ms k) % 2 ^ 64 ∧ l.speedOf = firstBytes ms r % 2 ^ 64

/-- A line that shows the state of one moment: `n` blocks are there. -/
def OneMoment (size : Nat) (ms : List PeerMessage) (l : ShownLine) : Prop :=
  ∃ n, n ≤ ms.length ∧ l.percent = percentCompleted size (firstBytes ms n % 2 ^ 64) ∧ l.downloaded = firstBytes ms n % 2 ^ 64 ∧
    (l.left : Int) = ((size : Int) - firstBytes ms n) % 2 ^ 64 ∧ l.speedOf = firstBytes ms n % 2 ^ 64

end Gotit.Spec
