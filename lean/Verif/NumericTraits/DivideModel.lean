import Verif.NumericTraits.Model

/-! Model of `FloatTraits<F>::dividePow2`, common/include/rofl/common/numeric_traits.h. -/
namespace Verif.NumericTraits
open Verif.BitManip

/-- The result `z` of an operation on `FloatTraits<F>::IntegerType` (32 or 64 bits), numeric_traits.h:384, 435: undefined behaviour if it is not representable. -/
def FTy.int (t : FTy) (z : Int) : Outcome Int := if -2 ^ (t.w - 1) ≤ z ∧ z ≤ 2 ^ (t.w - 1) - 1 then .ok z else .error (.ub .overflow)

/-- `FloatTraits<F>::dividePow2`, numeric_traits.h:416-426, 467-477. -/
def dividePow2 (t : FTy) (f : BitVec t.w) (exp2 : Int) : Outcome (BitVec t.w) :=
  let (mantissa, exponent, sign) := decompose t f
  if exponent < exp2 then .ok 0#t.w
  else do
    let k ← t.int (t.mantissaBits - exponent)
    let k ← t.int (k + exp2)
    if k < 0 ∨ (t.w : Int) ≤ k then .error (.ub .shift)
    else compose t (BitVec.ofInt t.w mantissa &&& (BitVec.ofInt t.w t.mantissaMask).sshiftRight k.toNat).toInt exponent sign

end Verif.NumericTraits
