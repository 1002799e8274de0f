/-
Model of seismostats/analysis/magnitudes.py in exact arithmetic.
-/
import Verif.Model.Base

namespace SeismoStats
namespace Edwards

variable {K : Type} [Field K]

/-- `"c" in s.lower()` for a lower case ASCII letter `c`. Lower case letters of other alphabets are not modelled: none of them becomes `l` or `w`. -/
def hasLetter (c : Char) (s : String) : Bool := s.toList.any fun d => decide (d.toLower = c)

/-- analysis/magnitudes.py:51. -/
def convert (m : K) : K := 102 / 100 + 472 / 1000 * m + 491 / 10000 * m ^ 2

/-- analysis/magnitudes.py:4-53 `apply_edwards`: a type and a magnitude, or `None`. -/
def applyEdwards (ty : String) (m : K) : Option (String × K) :=
  if hasLetter 'l' ty then some ("Mw_converted", convert m)
  else if hasLetter 'w' ty then some (ty, m)
  else none

end Edwards
end SeismoStats
