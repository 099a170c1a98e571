import Verif.Model.Net
/-
  C117: what arrives before a moment.
-/
namespace Gotit.Spec
open Gotit

/-- The bytes that arrive, in order, before time `limit`, and before the connection breaks or ends. -/
def arrivedBefore (limit : Nat) : List (Nat × Ev) → Bytes
  | (t, .data d) :: evs => if t < limit then d ++ arrivedBefore limit evs else []
  | _ => []

/-- The byte string a peer sends for a message: its length in four bytes, then the message. -/
def framed (m : Bytes) : Bytes := putBE 4 m.length ++ m

end Gotit.Spec
