import Verif.Model.HttpTracker
/-
  What the text of an address means: dotted quads, and the three forms of RFC 4291, section 2.2, with the zones of RFC 4007.
  (From the model only the type of addresses is used.)
-/
namespace Gotit.Spec
open Gotit

/-- `s` is the number `n` in decimal without leading zeros, and at most 255. -/
def Octet (s : Bytes) (n : UInt8) : Prop :=
  s ≠ [] ∧ (∀ c ∈ s, 48 ≤ c ∧ c ≤ 57) ∧ (s.head? = some 48 → s = [48]) ∧ s.foldl (fun v c => v * 10 + (c.toNat - 48)) 0 = n.toNat

/-- Four octets separated by dots. -/
def Quad (s : Bytes) (q : Bytes) : Prop :=
  ∃ s1 s2 s3 s4 a b c d, s = s1 ++ [46] ++ s2 ++ [46] ++ s3 ++ [46] ++ s4 ∧ q = [a, b, c, d] ∧
    Octet s1 a ∧ Octet s2 b ∧ Octet s3 c ∧ Octet s4 d

/-- The value of a hexadecimal digit. -/
inductive HexVal : UInt8 → Nat → Prop
  | digit {n : Nat} : n < 10 → HexVal (UInt8.ofNat (48 + n)) n
  | lower {n : Nat} : 10 ≤ n → n < 16 → HexVal (UInt8.ofNat (87 + n)) n
  | upper {n : Nat} : 10 ≤ n → n < 16 → HexVal (UInt8.ofNat (55 + n)) n

/-- The value of a sequence of hexadecimal digits. -/
inductive HexNumber : Bytes → Nat → Prop
  | nil : HexNumber [] 0
  | snoc {s v c d} : HexNumber s v → HexVal c d → HexNumber (s ++ [c]) (v * 16 + d)

/-- One to four hexadecimal digits, and the two bytes they stand for. -/
def Group (s : Bytes) (b : Bytes) : Prop :=
  1 ≤ s.length ∧ s.length ≤ 4 ∧ ∃ hi lo : UInt8, b = [hi, lo] ∧ HexNumber s (hi.toNat * 256 + lo.toNat)

/-- Groups separated by colons. -/
inductive Groups : Bytes → Bytes → Prop
  | one {s b} : Group s b → Groups s b
  | more {s b s' b'} : Group s b → Groups s' b' → Groups (s ++ [58] ++ s') (b ++ b')

/-- The same, but the last two groups may be written as a dotted quad. -/
inductive Tail : Bytes → Bytes → Prop
  | group {s b} : Group s b → Tail s b
  | quad {s b} : Quad s b → Tail s b
  | more {s b s' b'} : Group s b → Tail s' b' → Tail (s ++ [58] ++ s') (b ++ b')

/-- The 16 bytes of an IPv6 address: all groups, or a double colon in place of one or more zero groups. -/
inductive Six : Bytes → Bytes → Prop
  | full {s b} : Tail s b → b.length = 16 → Six s b
  | short {s b s' b' z} : (s = [] ∧ b = [] ∨ Groups s b) → (s' = [] ∧ b' = [] ∨ Tail s' b') → 2 ≤ z →
      b.length + z + b'.length = 16 → Six (s ++ [58, 58] ++ s') (b ++ List.replicate z 0 ++ b')

/-- The address a text means. -/
inductive AddrText : Bytes → Addr → Prop
  | v4 {s a b c d} : Quad s [a, b, c, d] → AddrText s (.v4 a b c d)
  | v6 {s b} : Six s b → AddrText s (.v6 b [])
  | zone {s b z} : Six s b → z ≠ [] → AddrText (s ++ [37] ++ z) (.v6 b z)

/-- The entry of a peer in the dictionary form of BEP 3: `d2:ip…4:porti…ee`. -/
def peerEntry (p : Bytes × Nat) : Bytes :=
  ascii "d2:ip" ++ (natDigits p.1.length ++ 58 :: p.1) ++ ascii "4:port" ++ (105 :: natDigits p.2 ++ [101]) ++ [101]

/-- A response that consists of these peers. -/
def peersResponse (ps : List (Bytes × Nat)) : Bytes := ascii "d5:peersl" ++ ps.flatMap peerEntry ++ ascii "ee"

/-- A host name that is no address: without colon, and with a character that is neither a digit nor a dot. -/
def HostName (s : Bytes) : Prop := 58 ∉ s ∧ ∃ c ∈ s, c ≠ 46 ∧ ¬ (48 ≤ c ∧ c ≤ 57)

/-- The 16 bytes of the IPv4-mapped form of an IPv4 address (RFC 4291, section 2.5.5.2). -/
def mapped (a b c d : UInt8) : Bytes := List.replicate 10 0 ++ [255, 255, a, b, c, d]

/-- The remote end of a TCP connection to an address. To an IPv4-mapped address one connects by IPv4, without a zone. -/
inductive EndpointOf : AddrPort → Bytes → Bytes → Nat → Prop
  | v4 {a b c d n} : EndpointOf ⟨some (.v4 a b c d), n⟩ (mapped a b c d) [] n
  | v6mapped {a b c d z n} : EndpointOf ⟨some (.v6 (mapped a b c d) z), n⟩ (mapped a b c d) [] n
  | v6 {s z n} : (∀ a b c d, s ≠ mapped a b c d) → EndpointOf ⟨some (.v6 s z), n⟩ s z n

/-- Connections to `x` and `y` have the same remote end. -/
def SameEndpoint (x y : AddrPort) : Prop := ∃ s z n, EndpointOf x s z n ∧ EndpointOf y s z n

end Gotit.Spec
