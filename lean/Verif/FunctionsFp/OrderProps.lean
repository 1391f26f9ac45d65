import Verif.FunctionsFp.Model

/-! C169 in floating point arithmetic: a vector farther to the left gets the smaller angle (common/src/functions.cpp:82-104). -/
namespace Verif.FunctionsFp
open Ieee Fp Float.Model

/-- The vector (1, 1) and the vector (1 - 2^-17, 1), which is farther to the left, in `double` and in `float`. -/
theorem C169_double_violated : fastAtan2 (d 99999237060546875 17) (d 10 1) < fastAtan2 (d 10 1) (d 10 1) ∧ d 99999237060546875 17 < d 10 1 ∧
    fastAtan2f (f 99999237060546875 17) (f 10 1) < fastAtan2f (f 10 1) (f 10 1) ∧ f 99999237060546875 17 < f 10 1 := by decide +kernel

end Verif.FunctionsFp
