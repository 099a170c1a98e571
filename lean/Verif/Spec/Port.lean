import Verif.Model.Port
import Verif.Spec.HttpTracker
import Verif.Spec.Literal
/-
  C150: the port trackers are told.
-/
namespace Gotit.Spec

/-- The port somebody asks for on the command line: 6666 if nothing is said (download.go:43), or else the number they wrote, as Go writes
numbers, with an optional sign. -/
def PortGiven : Option Bytes → Int → Prop
  | none, p => p = 6666
  | some s, p => SignedLiteral s p ∧ -2 ^ 63 ≤ p ∧ p < 2 ^ 63

/-- The ports a tracker reads from an HTTP announce: the values of all parameters called `port`. -/
def portsTold (url : Bytes) : Option (List (Option Nat)) :=
  match queryOf url with
  | none => none
  | some q => (formParams q).map fun ps => (ps.filter fun x => x.1 == ascii "port").map fun x => portNumber x.2

/-- The port a tracker reads from a UDP announce (BEP 15): two bytes at offset 96; `none` if the datagram ends before. -/
def udpPort (p : Bytes) : Option Nat :=
  match p.drop 96 with
  | a :: b :: _ => some (a.toNat * 256 + b.toNat)
  | _ => none

/-- C150 for HTTP trackers without query: whatever was given with `--port`, if the program announces itself, then with one port, which
is the one given, and others can connect to it: it is between 1 and 65535. -/
def PortTold : Prop :=
  ∀ arg size d clientId (t : HttpTracker) hash, Announces arg size d → (∀ c ∈ t.addr, c ≠ 63 ∧ c ≠ 35) →
    ∃ p : Nat, PortGiven arg (p : Int) ∧ 1 ≤ p ∧ p ≤ 65535 ∧ portsTold (announceUrl clientId t hash d) = some [some p]

end Gotit.Spec
