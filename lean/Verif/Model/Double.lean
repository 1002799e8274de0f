/-
Double precision numbers: rounding of real numbers to 53 significant binary digits, to nearest, ties to even (IEEE 754, the arithmetic of Python floats and
of numpy arrays of dtype float64). Exponents are not bounded: overflow, subnormal numbers, infinities, NaN and the sign of zero are not modelled.
-/
import Mathlib.Data.Int.Log
import Mathlib.Data.Real.Basic
import Mathlib.Data.Real.Archimedean
import Mathlib.Algebra.Order.Floor.Ring
import Mathlib.Algebra.Order.Round

namespace SeismoStats
namespace Double
noncomputable section
open Classical

/-- The nearest integer, the even one of two. -/
def rne (t : ℝ) : ℤ :=
  if Int.fract t < 1 / 2 then ⌊t⌋ else if 1 / 2 < Int.fract t then ⌊t⌋ + 1 else if Even ⌊t⌋ then ⌊t⌋ else ⌊t⌋ + 1

/-- The distance of neighbouring doubles at `x`: `2 ^ (e - 52)` for `2 ^ e ≤ |x| < 2 ^ (e + 1)`. -/
def ulp (x : ℝ) : ℝ := (2 : ℝ) ^ (Int.log 2 |x| - 52)

/-- Rounding to the nearest double. -/
def rnd (x : ℝ) : ℝ := if x = 0 then 0 else rne (x / ulp x) * ulp x

/-- `x + y`, `x - y`, `x * y`, `x / y` in double precision. -/
def add (x y : ℝ) : ℝ := rnd (x + y)
/-- Difference. -/
def sub (x y : ℝ) : ℝ := rnd (x - y)
/-- Product. -/
def mul (x y : ℝ) : ℝ := rnd (x * y)
/-- Quotient. -/
def div (x y : ℝ) : ℝ := rnd (x / y)

end
end Double
end SeismoStats
