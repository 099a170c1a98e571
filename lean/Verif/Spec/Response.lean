import Verif.Model.TrackerClock
import Verif.Spec.HttpTracker
/-
  C120–C122: what a tracker says besides the IPv4 peers and the interval.
-/
namespace Gotit.Spec
open Gotit

/-- The compact form of an IPv6 peer (BEP 7): 16 address bytes, 2 port bytes, most significant first. -/
def compactEntry6 (addr : Bytes) (port : Nat) : Bytes := addr ++ [UInt8.ofNat (port / 256), UInt8.ofNat (port % 256)]

/-- A response that names an IPv6 peer under `peers6`. -/
def Names6 (body : Bytes) (addr : Bytes) (port : Nat) : Prop :=
  ∃ p kvs raw before after, parse body = .ok (.dict p kvs raw) ∧ addr.length = 16 ∧ port < 65536 ∧ before.length % 18 = 0 ∧ after.length % 18 = 0 ∧
    lookupKey (ascii "peers6") kvs = .str (before ++ compactEntry6 addr port ++ after)

/-- C120 for one response: an announce that receives it succeeds, and the IPv6 peers it names are among those found. -/
def Uses6 (parseAddr : Bytes → Option Addr) (t : HttpTracker) (body : Bytes) : Prop :=
  ∀ addr port, Names6 body addr port → ∃ t' ips, readPeers parseAddr t body = (t', .ok ips) ∧ ⟨some (.v6 addr []), port⟩ ∈ ips

/-- A response that sets the tracker id (BEP 3). -/
def SetsId (r : HttpReply) (id : Bytes) : Prop :=
  ∃ body p kvs raw, r = .reply 200 body ∧ parse body = .ok (.dict p kvs raw) ∧ lookupKey (ascii "tracker id") kvs = .str id

/-- The values of a parameter that a tracker finds in a URL; `none` if the query cannot be decoded. -/
def valuesIn (key url : Bytes) : Option (List Bytes) :=
  match queryOf url with
  | none => none
  | some q => (formParams q).map fun ps => (ps.filter fun e => e.1 == key).map Prod.snd

/-- C121 for two rounds of one request each: the id that the first reply sets is in the second request. -/
def SendsBack (urls : List (List Bytes)) (r : HttpReply) : Prop :=
  ∀ id, SetsId r id → ∀ u, urls[1]? = some [u] → valuesIn (ascii "trackerid") u = some [id]

/-- A response that asks for at least `m` seconds between announces. -/
def MinInterval (r : HttpReply) (m : Nat) : Prop :=
  ∃ body p kvs raw, r = .reply 200 body ∧ parse body = .ok (.dict p kvs raw) ∧ lookupKey (ascii "min interval") kvs = .int m

/-- C122 for one reply: the next request comes no earlier than that. -/
def KeepsMin (parseAddr : Bytes → Option Addr) (s : TrackerClock) (r : TimedReply) : Prop :=
  ∀ m b, MinInterval r.reply m → s.next parseAddr r = some b → s.now + r.took + m * 1000000000 ≤ b.now

end Gotit.Spec
