import Verif.Model.TrackerNew
/-
  C88: the scheme of a URL, as RFC 3986 defines it.
-/
namespace Gotit.Spec
open Gotit

/-- `ALPHA *( ALPHA / DIGIT / "+" / "-" / "." )` -/
def IsScheme (s : Bytes) : Prop :=
  ∃ a t, s = a :: t ∧ (97 ≤ a.toNat ∧ a.toNat ≤ 122 ∨ 65 ≤ a.toNat ∧ a.toNat ≤ 90) ∧
    ∀ b ∈ t, 97 ≤ b.toNat ∧ b.toNat ≤ 122 ∨ 65 ≤ b.toNat ∧ b.toNat ≤ 90 ∨ 48 ≤ b.toNat ∧ b.toNat ≤ 57 ∨
      b.toNat = 43 ∨ b.toNat = 45 ∨ b.toNat = 46

/-- Equal except for upper and lower case of ASCII letters. -/
def SameLetters : Bytes → Bytes → Prop
  | [], [] => True
  | a :: s, b :: t =>
    (a = b ∨ 65 ≤ a.toNat ∧ a.toNat ≤ 90 ∧ b.toNat = a.toNat + 32 ∨ 65 ≤ b.toNat ∧ b.toNat ≤ 90 ∧ a.toNat = b.toNat + 32) ∧
      SameLetters s t
  | _, _ => False

/-- `addr` is `scheme : r`, possibly followed by `#` and a fragment, without control characters before that, and `scheme` is `name`
in any letter case. -/
def UrlOf (addr name r frag : Bytes) : Prop :=
  ∃ s, IsScheme s ∧ SameLetters s name ∧ (∀ b ∈ s ++ 58 :: r, b ≠ 35 ∧ 32 ≤ b.toNat ∧ b.toNat ≠ 127) ∧
    (addr = s ++ 58 :: r ∧ frag = [] ∨ addr = s ++ 58 :: r ++ 35 :: frag)

end Gotit.Spec
