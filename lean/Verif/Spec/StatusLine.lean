import Verif.Spec.Bencode
import Verif.Model.Manager
import Verif.Model.StatusLine
/-
  C101, C102, C103: the line printed every second.
-/
namespace Gotit.Spec

/-- A decimal number with at most one digit after the point, in tenths. -/
inductive TenthsText : Bytes → Nat → Prop
  | whole (ds : Bytes) : IsDigits ds → ds ≠ [] → TenthsText ds (10 * decimal ds)
  | tenth (ds : Bytes) (d : UInt8) : IsDigits ds → ds ≠ [] → IsDigits [d] → TenthsText (ds ++ [46, d]) (10 * decimal ds + decimal [d])

/-- The units: B, K, M, G, T, P, E. -/
def unitPower : List (UInt8 × Nat) := [(66, 0), (75, 10), (77, 20), (71, 30), (84, 40), (80, 50), (69, 60)]

/-- A size: `tenths / 10` units of `2 ^ power` bytes. -/
def SizeText (s : Bytes) (tenths power : Nat) : Prop := ∃ num letter, s = num ++ [letter] ∧ TenthsText num tenths ∧ (letter, power) ∈ unitPower

/-- C101: the text says the number `n` of bytes to the nearest tenth of its unit (`slack` thousandths of a tenth more). The unit is the
largest one that is not larger than the number. -/
def SaysSize (slack n : Nat) (s : Bytes) : Prop :=
  ∃ m k, SizeText s m k ∧ 1000 * (m * 2 ^ k) ≤ 1000 * (10 * n) + (500 + slack) * 2 ^ k ∧ 1000 * (10 * n) ≤ 1000 * (m * 2 ^ k) + (500 + slack) * 2 ^ k ∧
    (2 ^ k ≤ n ∨ k = 0) ∧ ∀ l k', (l, k') ∈ unitPower → 2 ^ k' ≤ n → k' ≤ k

/-- C102: the text says `bytes` in `ns` nanoseconds as megabytes (of 2^20 bytes) per second, to the nearest tenth; the value may be off by
one part in 2^49 besides. -/
def SaysSpeed (bytes ns : Nat) (s : Bytes) : Prop :=
  ∃ m, TenthsText s m ∧
    2 * (m * (ns * 2 ^ 20) * 2 ^ 49) ≤ ns * 2 ^ 20 * 2 ^ 49 + 20 * (bytes * 10 ^ 9 * (2 ^ 49 + 1)) ∧
    20 * (bytes * 10 ^ 9 * 2 ^ 49) ≤ 2 * (m * (ns * 2 ^ 20) * (2 ^ 49 + 1)) + ns * 2 ^ 20 * (2 ^ 49 + 1)

/-- The line, field by field. -/
def statusFields (downloaded left speed peers trackers : Bytes) : Bytes :=
  ascii " downloaded (" ++ downloaded ++ ascii "), left (" ++ left ++ ascii "), speed (" ++ speed ++ ascii " MB/s), peers (" ++ peers ++
    ascii "), trackers (" ++ trackers ++ ascii ")\n"

/-- The trackers that are still used. -/
def trackersInUse (σ : Mgr) : Nat := (σ.trackers.filter (· ≠ .ended)).length

/-- The number in the last field of the line. -/
def SaysTrackers (n : Nat) (line : Bytes) : Prop := ∃ pre ds, line = pre ++ ascii "trackers (" ++ ds ++ ascii ")\n" ∧ IsDigits ds ∧ ds ≠ [] ∧ decimal ds = n

/-- C103: the number of trackers shown is the number of trackers in use. -/
def TrackersShown : Prop :=
  ∀ n limit σ size τ ns, Mgr.Reachable n limit σ → StatSys.InProgram size τ → SaysTrackers (trackersInUse σ) (statusLine τ.stats ns)

end Gotit.Spec
