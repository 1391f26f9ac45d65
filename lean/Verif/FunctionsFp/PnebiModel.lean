import Verif.FunctionsFp.Model
import Verif.Ieee.Sqrt
import Verif.Ieee.Cast

/-!
Model of `evaluatePnebi0Polynom` (common/src/functions.cpp) in `double` arithmetic. The function `exp` of the C library is a parameter; `sqrt` is correctly rounded.
-/
namespace Verif.FunctionsFp
open Ieee Fp Float.Model

/-- The polynomial of the small arguments, functions.cpp:150. -/
def pnebiSmall (t2 : Dbl) : Dbl :=
  d 10 1 + t2 * (d 35156229 7 + t2 * (d 30899424 7 + t2 * (d 12067492 7 + t2 * (d 2659732 7 + t2 * (d 360768 7 + t2 * d 45813 7)))))

/-- The polynomial of the large arguments, functions.cpp:154-155. -/
def pnebiBig (u : Dbl) : Dbl :=
  d 39894228 8 + u * (d 1328592 8 + u * (d 225319 8 + u * (-d 157565 8 + u *
    (d 916281 8 + u * (-d 2057706 8 + u * (d 2635537 8 + u * (-d 1647633 8 + u * d 392377 8)))))))

/-- `evaluatePnebi0Polynom`, functions.cpp:143-161; the int `1` of line 153 is converted to `double`. -/
def evaluatePnebi0Polynom (exp : Dbl → Dbl) (x : Dbl) : Dbl :=
  let x := if x < d 0 1 then -x else x
  let t := x / d 375 2
  if t < d 10 1 then
    let t2 := t * t
    d 20 1 * exp (-x) * pnebiSmall t2
  else
    let tinv := d 10 1 / t
    d 20 1 * pnebiBig tinv / Fp.sqrt x

end Verif.FunctionsFp
