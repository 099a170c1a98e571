/-
  Non-negative IEEE-754 arithmetic as Go uses it for float64 (precision 53) and float32 (precision 24): every result is
  the exact result rounded to the nearest representable number, ties to even.

  A number is a fraction of naturals. Simplification: the exponent range is unbounded; overflow and subnormal numbers
  cannot occur for the arguments gotit uses (quotients of two 64-bit integers).
-/
namespace Gotit

/-- A non-negative rational number `num / den`. -/
structure Frac where
  num : Nat
  den : Nat
  deriving DecidableEq

/-- `n / d` rounded to the nearest integer, ties to even. -/
def rne (n d : Nat) : Nat :=
  let q := n / d
  let r := n % d
  if 2 * r < d then q else if d < 2 * r then q + 1 else if q % 2 = 0 then q else q + 1

/-- The exponent `e` for which `n / d / 2^e` lies in `[2^(p-1), 2^p)`. -/
def normExp (p n d : Nat) : Int :=
  let e : Int := (n.log2 : Int) - d.log2 - p
  if (n * 2 ^ (-e).toNat) / (d * 2 ^ e.toNat) ≥ 2 ^ p then e + 1 else e

/-- `n / d` rounded to `p` significant bits. -/
def roundBits (p n d : Nat) : Frac :=
  if n = 0 then ⟨0, 1⟩
  else
    let e := normExp p n d
    let m := rne (n * 2 ^ (-e).toNat) (d * 2 ^ e.toNat)
    ⟨m * 2 ^ e.toNat, 2 ^ (-e).toNat⟩

/-- Conversion of an integer, `float64(n)` / `float32(n)`. -/
def toFloat (p n : Nat) : Frac := roundBits p n 1

/-- Conversion between precisions, `float32(x)`. -/
def convert (p : Nat) (x : Frac) : Frac := roundBits p x.num x.den

/-- `x / y`, `y ≠ 0`. -/
def fdiv (p : Nat) (x y : Frac) : Frac := roundBits p (x.num * y.den) (x.den * y.num)

/-- `x * y`. -/
def fmul (p : Nat) (x y : Frac) : Frac := roundBits p (x.num * y.num) (x.den * y.den)

/-- `math.Ceil`. -/
def Frac.ceil (x : Frac) : Nat := (x.num + x.den - 1) / x.den

/-- `math.Floor`, also the truncating conversion to an integer type. -/
def Frac.floor (x : Frac) : Nat := x.num / x.den

/-- `math.Round`: half away from zero. -/
def Frac.round (x : Frac) : Nat := (2 * x.num + x.den) / (2 * x.den)

end Gotit
