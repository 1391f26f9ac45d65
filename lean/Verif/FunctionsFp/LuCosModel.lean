import Verif.Ieee.Fmod
import Verif.FunctionsFp.Model

/-!
Model of `findLUCos` (common/src/functions.cpp) in `double` arithmetic. The function `cos` of the C library is a parameter.
-/
namespace Verif.FunctionsFp
open Ieee Fp Float.Model

/-- `2.0 * M_PI`, functions.cpp:353. -/
def turn : Dbl := d 20 1 * mPi

/-- `fmod(a, 2.0 * M_PI)` and the correction, functions.cpp:358-361. -/
def normMod (a : Dbl) : Dbl :=
  let m := fmod a turn
  if m < d 0 1 then m + turn else m

/-- `std::min`, functions.cpp:366. -/
def minD (a b : Dbl) : Dbl := if b < a then b else a

/-- `std::max`, functions.cpp:378. -/
def maxD (a b : Dbl) : Dbl := if a < b then b else a

/-- `findLUCos` for ordered arguments, functions.cpp:353-384: (cmin, cmax). -/
def findLUCosOrd (cos : Dbl → Dbl) (a b : Dbl) : Dbl × Dbl :=
  if turn ≤ b - a then (-d 10 1, d 10 1)
  else
    let amod := normMod a
    let bmod := normMod b
    if bmod < amod then
      (if bmod < mPi ∧ mPi < amod then minD (cos amod) (cos bmod) else -d 10 1, d 10 1)
    else
      (if amod < mPi ∧ mPi < bmod then -d 10 1 else minD (cos amod) (cos bmod), maxD (cos amod) (cos bmod))

/-- `findLUCos`, functions.cpp:348-385: (cmin, cmax). -/
def findLUCos (cos : Dbl → Dbl) (a b : Dbl) : Dbl × Dbl := if b < a then findLUCosOrd cos b a else findLUCosOrd cos a b

end Verif.FunctionsFp
