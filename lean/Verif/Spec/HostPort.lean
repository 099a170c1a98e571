import Verif.Model.Go
/-
  Specification for C138: what `net.Dial` takes for host and port. (Documentation of package net: the address has the form host:port; if
  the host is a literal IPv6 address it must be enclosed in square brackets, as in "[2001:db8::1]:80" or "[fe80::1%zone]:80".)
-/
namespace Gotit.Spec
open Gotit

/-- No brackets. -/
def NoBracket (s : Bytes) : Prop := (91 : UInt8) ∉ s ∧ (93 : UInt8) ∉ s

/-- The host and the port that an address to be dialled consists of. -/
inductive HostPort : Bytes → Bytes → Bytes → Prop
  | plain {host port : Bytes} : (58 : UInt8) ∉ host → NoBracket host → (58 : UInt8) ∉ port → NoBracket port → HostPort (host ++ 58 :: port) host port
  | bracketed {host port : Bytes} : NoBracket host → (58 : UInt8) ∉ port → NoBracket port → HostPort (91 :: host ++ 93 :: 58 :: port) host port

end Gotit.Spec
