import Verif.FunctionsFp.LuCosModel
import Verif.Functions.Model
import Verif.Ieee.Sqrt

/-!
Model of `evaluateFourier` and `findLUFourier` (common/src/functions.cpp) in `double` arithmetic. The functions `cos`, `sin` and `atan2` of the C library are
parameters; `sqrt` is correctly rounded. The messages about odd sizes and exchanged ends are not modelled.
-/
namespace Verif.FunctionsFp
open Verif Ieee Fp Float.Model

/-- Loop of `evaluateFourier`, functions.cpp:129-135: iterations `k, k + 1, …`, `m` of them. -/
def fourierLoop (cth2 sth2 : Dbl) (coeffs : Vec Dbl) : (m : ℕ) → (k : ℤ) → (cth sth sum : Dbl) → Outcome Dbl
  | 0, _, _, _, sum => .ok sum
  | m + 1, k, cth, sth, sum => do
    let i ← Cxx.int (2 * k)
    let a ← coeffs.get i
    let j ← Cxx.int (i + 1)
    let b ← coeffs.get j
    let sum := sum + (a * cth + b * sth)
    let ctmp := cth2 * cth - sth2 * sth
    let stmp := sth2 * cth + cth2 * sth
    fourierLoop cth2 sth2 coeffs m (k + 1) ctmp stmp sum

/-- `evaluateFourier`, functions.cpp:114-137; the number of iterations is `n + 1`, with `n` as in the model over the reals. -/
def evaluateFourier (cos sin : Dbl → Dbl) (coeffs : Vec Dbl) (theta : Dbl) : Outcome Dbl :=
  fourierLoop (cos theta) (sin theta) coeffs (Functions.fourierOrder coeffs.len + 1).toNat 0 (d 10 1) (d 0 1) (d 0 1)

/-- Loop of `findLUFourier`, functions.cpp:405-416: iterations `k, k + 1, …`, `m` of them; the result is (fourierMin, fourierMax). `2 * k` is converted to `double`. -/
def luFourierLoop (cos : Dbl → Dbl) (atan2 : Dbl → Dbl → Dbl) (coeffs : Vec Dbl) (theta0 theta1 : Dbl) : (m : ℕ) → (k : ℤ) → (lo hi : Dbl) → Outcome (Dbl × Dbl)
  | 0, _, lo, hi => .ok (lo, hi)
  | m + 1, k, lo, hi => do
    let i ← Cxx.int (2 * k)
    let a ← coeffs.get i
    let j ← Cxx.int (i + 1)
    let b ← coeffs.get j
    let amplitude := Fp.sqrt (a * a + b * b)
    let phase := atan2 b a
    let f : Dbl := ofU .binary64 (UnpackedFloat.normalize .binary64 i 0 .positive)
    let r := findLUCos cos (f * theta0 - phase) (f * theta1 - phase)
    luFourierLoop cos atan2 coeffs theta0 theta1 m (k + 1) (lo + amplitude * r.1) (hi + amplitude * r.2)

/-- `findLUFourier`, functions.cpp:387-417: (fourierMin, fourierMax). -/
def findLUFourier (cos : Dbl → Dbl) (atan2 : Dbl → Dbl → Dbl) (coeffs : Vec Dbl) (theta0 theta1 : Dbl) : Outcome (Dbl × Dbl) := do
  let n := Functions.fourierOrder coeffs.len
  let c0 ← coeffs.get 0
  let t := if theta1 < theta0 then (theta1, theta0) else (theta0, theta1)
  luFourierLoop cos atan2 coeffs t.1 t.2 n.toNat 1 c0 c0

end Verif.FunctionsFp
