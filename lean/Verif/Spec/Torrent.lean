import Verif.Model.BitSet
/-
  What the bookkeeping of a download promises.
-/
namespace Gotit.Spec
open Gotit

/-- `r` is a correct answer to "give me the next piece" for a torrent of `n` pieces, for a peer that has the pieces
`has`, when the pieces in `taken` were handed out before: the lowest piece that the peer has and nobody got, and
not-found only if there is none. -/
def NextAnswer (n : Nat) (has : Nat → Bool) (taken : List Nat) : Option Nat → Prop
  | some i => i < n ∧ has i = true ∧ i ∉ taken ∧ ∀ j, j < i → has j = true → j ∈ taken
  | none => ∀ j, j < n → has j = true → j ∈ taken

/-- The pieces handed out in a list of answered calls. -/
def handedOut {α : Type} (h : List (α × Option Nat)) : List Nat := h.filterMap (·.2)

end Gotit.Spec
