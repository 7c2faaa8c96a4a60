import Mathlib.Algebra.Order.Floor.Ring
import Mathlib.Data.Rat.Floor
import Mathlib.Data.Int.Log
import Mathlib.Tactic.Linarith
import Mathlib.Tactic.Ring
import Mathlib.Tactic.FieldSimp
import Mathlib.Tactic.NormNum
import Mathlib.Tactic.Positivity

/-!
# Numbers of the Python runtime

Python floats are modelled as elements of an ordered field `K`; every float operation is the exact
field operation followed by the rounding function `R.fl` of the runtime `R : Rt K`.  Two families of
runtimes matter:

* `Rt.IsRounding R` : what IEEE-754 binary64 guarantees as long as nothing overflows, underflows or
  is NaN.  `Rt.b64` (below) is an executable binary64 arithmetic on `ℚ` and is proved to satisfy it
  (`Lemmas/Num.lean`).
* `Rt.IsExact R` : idealised real arithmetic (`Rt.real` in `Lemmas/Real.lean` satisfies it).

Not modelled: NaN, infinities, overflow, subnormals, the sign of zero.
-/

namespace Srep

/-- Transcendental functions of Python's `math` used by the code (opaque; in radians like `math`). -/
structure Trig (K : Type) where
  atan2 : K → K → K
  acos : K → K
  cos : K → K
  sin : K → K
  degrees : K → K
  radians : K → K

/-- The part of the Python runtime the geometry code depends on.
`fl` is the rounding after each `+ - * /`; `sq x` is `x ** 2`; `sqrt` is `math.sqrt`;
`hash x y` is `hash((x, y))` of a tuple of two floats (an arbitrary function of the values). -/
structure Rt (K : Type) where
  fl : K → K
  sq : K → K
  sqrt : K → K
  trig : Trig K
  hash : K → K → Int

section
variable {K : Type} [Field K] [LinearOrder K] [IsStrictOrderedRing K] [FloorRing K]

namespace Rt
variable (R : Rt K)
/-- float `+` -/
def add (x y : K) : K := R.fl (x + y)
/-- float `-` -/
def sub (x y : K) : K := R.fl (x - y)
/-- float `*` -/
def mul (x y : K) : K := R.fl (x * y)
/-- float `/` (callers model `ZeroDivisionError` themselves) -/
def div (x y : K) : K := R.fl (x / y)
end Rt

/-- Round half to even, the rule used by Python's `round` and by IEEE-754. -/
def rhe (x : K) : ℤ :=
  if x - ⌊x⌋ < 1 / 2 then ⌊x⌋
  else if 1 / 2 < x - ⌊x⌋ then ⌊x⌋ + 1
  else if ⌊x⌋ % 2 = 0 then ⌊x⌋ else ⌊x⌋ + 1

/-- Correctly rounded decimal rounding to 8 places (`PRECISION = 8`, geometry/SR_point.py:8). -/
def rhe8 (x : K) : K := (rhe (x * 10 ^ 8) : K) / 10 ^ 8

namespace Rt
variable (R : Rt K)

/-- `round(x, PRECISION)` on a float: the decimal value nearest to `x`, then the float nearest to
that (CPython `float.__round__`).  geometry/SR_point.py:8,92. -/
def round8 (x : K) : K := R.fl (rhe8 x)

/-- `round(float(x), PRECISION)`: how every coordinate is stored, geometry/SR_point.py:88-94. -/
def coord (x : K) : K := R.round8 (R.fl x)

/-- `EPS = 1. / (10 ** PRECISION)`, geometry/SR_point.py:10. -/
def eps : K := R.div 1 (10 ^ 8)

/-- `EPS * 1e3`, the tolerance of `Point.__eq__`, geometry/SR_point.py:64. -/
def tol : K := R.mul R.eps 1000

/-- What binary64 guarantees (no overflow, no underflow, no NaN). -/
structure IsRounding : Prop where
  /-- `fl x` is a representable number closest to `x`. -/
  nearest : ∀ x y, |R.fl x - x| ≤ |R.fl y - x|
  /-- rounding is symmetric about zero -/
  neg : ∀ x, R.fl (-x) = -R.fl x
  /-- relative error at most 2⁻⁵³ -/
  rel : ∀ x, |R.fl x - x| ≤ |x| / 2 ^ 53
  sq_neg : ∀ x, R.sq (-x) = R.sq x
  sq_nonneg : ∀ x, 0 ≤ R.sq x
  sq_zero : R.sq 0 = 0
  sqrt_nonneg : ∀ x, 0 ≤ R.sqrt x
  sqrt_zero : R.sqrt 0 = 0

/-- Idealised exact arithmetic. -/
structure IsExact : Prop where
  fl : ∀ x, R.fl x = x
  sq : ∀ x, R.sq x = x * x
  sqrt_nonneg : ∀ x, 0 ≤ R.sqrt x
  sqrt_sq : ∀ x, 0 ≤ x → R.sqrt x * R.sqrt x = x
  sqrt_zero : R.sqrt 0 = 0

end Rt

/-- Round to nearest even with a 53 bit significand and unbounded exponent. -/
def fl64 (x : K) : K :=
  if x = 0 then 0
  else (rhe (x / (2 : K) ^ (Int.log 2 |x| - 52)) : K) * (2 : K) ^ (Int.log 2 |x| - 52)
end

/-- Correctly rounded square root on `ℚ` (integer square root of the scaled operand with at least
55 significant bits, a sticky half for inexact results, then `fl64`). -/
def sqrt64 (q : ℚ) : ℚ :=
  if q ≤ 0 then 0
  else
    let k : ℤ := 56 - Int.log 2 q / 2
    let n : ℚ := q * 4 ^ k
    let s : ℕ := Nat.sqrt ⌊n⌋.toNat
    let v : ℚ := if ((s : ℚ) * s = n) then s else s + 1 / 2
    fl64 (v / 2 ^ k)

/-- Executable IEEE-754 binary64 runtime (unbounded exponent) for given `math` functions and hash. -/
def Rt.b64 (t : Trig ℚ) (h : ℚ → ℚ → Int) : Rt ℚ where
  fl := fl64
  sq x := fl64 (x * x)
  sqrt := sqrt64
  trig := t
  hash := h

end Srep
