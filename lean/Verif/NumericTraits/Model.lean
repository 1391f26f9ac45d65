import Verif.BitManip.Model

/-!
Model of `IntegerTraits<I>` and `FloatTraits<F>`, common/include/rofl/common/numeric_traits.h.
The values of the eight integer types are bit patterns `BitVec w`; `ITy.val` reads them as C++ values.
-/
namespace Verif.NumericTraits
open Verif.BitManip

/-- The eight integer types with an `IntegerTraits` specialisation, numeric_traits.h:34-312. -/
inductive ITy
  | i8 | u8 | i16 | u16 | i32 | u32 | i64 | u64
  deriving DecidableEq, Repr

/-- `IntegerTraits<I>::BIT_NUM`, numeric_traits.h:39, 78, 109, 148, 179, 218, 249, 288. -/
@[reducible] def ITy.w : ITy → Nat
  | .i8 | .u8 => 8
  | .i16 | .u16 => 16
  | .i32 | .u32 => 32
  | .i64 | .u64 => 64

/-- Signedness of the C++ type, numeric_traits.h:36-291. -/
def ITy.signed : ITy → Bool
  | .i8 | .i16 | .i32 | .i64 => true
  | .u8 | .u16 | .u32 | .u64 => false

/-- The C++ value of a bit pattern of type `t` (two's complement), numeric_traits.h:36-291. -/
def ITy.val (t : ITy) (x : BitVec t.w) : Int := if t.signed then x.toInt else x.toNat

/-- Comparison `a < b` of two C++ values of type `t`, numeric_traits.h:36-291. -/
def ITy.lt (t : ITy) (a b : BitVec t.w) : Bool := decide (t.val a < t.val b)

/-- `IntegerTraits<I>::removeSign`, numeric_traits.h:41-43, 80-82, 111-113, 150-152, 181-183, 220-222, 251-253, 290-292.
The signed versions flip bit 0 (not the sign bit). -/
def removeSign (t : ITy) (i : BitVec t.w) : BitVec t.w :=
  if t.signed then i ^^^ 1#t.w else i

/-- `IntegerTraits<I>::nlz`, numeric_traits.h:45-47, 84-86, 115-117, 154-156, 185-187, 224-226, 255-257, 294-296. -/
def nlz : (t : ITy) → BitVec t.w → Int
  | .i8, i => nlz8 i
  | .u8, i => nlz8 i
  | .i16, i => nlz16 i
  | .u16, i => nlz16 i
  | .i32, i => nlz32 i
  | .u32, i => nlz32 i
  | .i64, i => nlz64 i
  | .u64, i => nlz64 i

/-- `IntegerTraits<I>::log2Mod`, numeric_traits.h:49-56, 88-93, 119-126, 158-163, 189-196, 228-233, 259-266, 298-303.
`-i` is computed in `int` for 8 and 16 bits (no overflow) and overflows for the most negative 32/64-bit value.
The `int64_t` version calls `nlz8`, i.e. its argument is first converted to 8 bits. -/
def log2Mod : (t : ITy) → BitVec t.w → Outcome Int
  | .i8, i =>
    if i.toInt > 0 then .ok (8 - 1 - nlz8 i) else if i.toInt < 0 then .ok (8 - 1 - nlz8 (-i)) else .ok 0
  | .u8, i => if i ≠ 0#8 then .ok (8 - nlz8 i - 1) else .ok 0
  | .i16, i =>
    if i.toInt > 0 then .ok (16 - 1 - nlz16 i) else if i.toInt < 0 then .ok (16 - 1 - nlz16 (-i)) else .ok 0
  | .u16, i => if i ≠ 0#16 then .ok (16 - nlz16 i - 1) else .ok 0
  | .i32, i =>
    if i.toInt > 0 then .ok (32 - 1 - nlz32 i)
    else if i.toInt < 0 then
      if i.toInt = -2147483648 then .error (.ub .overflow) else .ok (32 - 1 - nlz32 (-i))
    else .ok 0
  | .u32, i => if i ≠ 0#32 then .ok (32 - nlz32 i - 1) else .ok 0
  | .i64, i =>
    if i.toInt > 0 then .ok (64 - 1 - nlz8 (i.setWidth 8))
    else if i.toInt < 0 then
      if i.toInt = -9223372036854775808 then .error (.ub .overflow) else .ok (64 - 1 - nlz8 ((-i).setWidth 8))
    else .ok 0
  | .u64, i => if i ≠ 0#64 then .ok (64 - nlz64 i - 1) else .ok 0

/-- `IntegerTraits<I>::floorPow2`, numeric_traits.h:58-63, 95-97, 128-133, 165-167, 198-203, 235-237, 268-273, 305-307.
The conversion of the unsigned result to the signed type is modular (two's complement). -/
def floorPow2 : (t : ITy) → BitVec t.w → Outcome (BitVec t.w)
  | .i8, i => if i.toInt ≥ 0 then .ok (flp2u8 i) else .ok (-(clp2u8 (-i)))
  | .u8, i => .ok (flp2u8 i)
  | .i16, i => if i.toInt ≥ 0 then .ok (flp2u16 i) else .ok (-(clp2u16 (-i)))
  | .u16, i => .ok (flp2u16 i)
  | .i32, i =>
    if i.toInt ≥ 0 then .ok (flp2u32 i)
    else if i.toInt = -2147483648 then .error (.ub .overflow) else .ok (-(clp2u32 (-i)))
  | .u32, i => .ok (flp2u32 i)
  | .i64, i =>
    if i.toInt ≥ 0 then .ok (flp2u64 i)
    else if i.toInt = -9223372036854775808 then .error (.ub .overflow) else .ok (-(clp2u64 (-i)))
  | .u64, i => .ok (flp2u64 i)

/-- `IntegerTraits<I>::ceilPow2`, numeric_traits.h:65-70, 99-101, 135-140, 169-171, 205-210, 239-241, 275-280, 309-311. -/
def ceilPow2 : (t : ITy) → BitVec t.w → Outcome (BitVec t.w)
  | .i8, i => if i.toInt ≥ 0 then .ok (clp2u8 i) else .ok (-(flp2u8 (-i)))
  | .u8, i => .ok (clp2u8 i)
  | .i16, i => if i.toInt ≥ 0 then .ok (clp2u16 i) else .ok (-(flp2u16 (-i)))
  | .u16, i => .ok (clp2u16 i)
  | .i32, i =>
    if i.toInt ≥ 0 then .ok (clp2u32 i)
    else if i.toInt = -2147483648 then .error (.ub .overflow) else .ok (-(flp2u32 (-i)))
  | .u32, i => .ok (clp2u32 i)
  | .i64, i =>
    if i.toInt ≥ 0 then .ok (clp2u64 i)
    else if i.toInt = -9223372036854775808 then .error (.ub .overflow) else .ok (-(flp2u64 (-i)))
  | .u64, i => .ok (clp2u64 i)

/-- The two floating point types with a `FloatTraits` specialisation, numeric_traits.h:381-478. -/
inductive FTy
  | f32 | f64
  deriving DecidableEq, Repr

/-- `FloatTraits<F>::BIT_NUM`, numeric_traits.h:387, 438. -/
@[reducible] def FTy.w : FTy → Nat
  | .f32 => 32
  | .f64 => 64

/-- `FloatTraits<F>::MANTISSA_BITS`, numeric_traits.h:388, 439. -/
def FTy.mantissaBits : FTy → Nat
  | .f32 => 23
  | .f64 => 52

/-- `FloatTraits<F>::EXPONENT_BITS`, numeric_traits.h:389, 440 (8 for both types in the code). -/
def FTy.exponentBits : FTy → Nat
  | .f32 => 8
  | .f64 => 8

/-- `FloatTraits<F>::EXPONENT_BIAS`, numeric_traits.h:390, 441. -/
def FTy.exponentBias : FTy → Int
  | .f32 => 127
  | .f64 => 1023

/-- `FloatTraits<F>::MANTISSA_IMPLICIT_BIT`, numeric_traits.h:392, 443. -/
def FTy.mantissaImplicitBit (t : FTy) : Int := 2 ^ t.mantissaBits

/-- `FloatTraits<F>::MANTISSA_MASK`, numeric_traits.h:393, 444. -/
def FTy.mantissaMask (t : FTy) : Int := 2 ^ t.mantissaBits - 1

/-- `FloatTraits<F>::EXPONENT_MASK`, numeric_traits.h:394, 445. -/
def FTy.exponentMask (t : FTy) : Int := (2 ^ t.exponentBits - 1) * 2 ^ t.mantissaBits

/-- `FloatTraits<F>::EXPONENT_MIN`, numeric_traits.h:395, 446. -/
def FTy.exponentMin (t : FTy) : Int := -t.exponentBias

/-- `FloatTraits<F>::EXPONENT_MAX`, numeric_traits.h:396, 447. -/
def FTy.exponentMax (t : FTy) : Int := (2 ^ t.exponentBits - 1) - t.exponentBias

/-- `FloatTraits<F>::SIGN_MASK` as a bit pattern, numeric_traits.h:397, 448. -/
def FTy.signMask (t : FTy) : BitVec t.w := 1#t.w <<< (t.mantissaBits + t.exponentBits)

/-- `FloatTraits<F>::decompose`, numeric_traits.h:403-405, 454-456. -/
def decompose : (t : FTy) → BitVec t.w → Int × Int × Bool
  | .f32, f => getMantissaExpSignF f
  | .f64, f => getMantissaExpSignD f

/-- `FloatTraits<F>::compose`, numeric_traits.h:399-401, 450-452 (arguments are values of the integer type). -/
def compose : (t : FTy) → Int → Int → Bool → Outcome (BitVec t.w)
  | .f32, m, e, s => setMantissaExpSignF (BitVec.ofInt 32 m) (BitVec.ofInt 32 e) s
  | .f64, m, e, s => setMantissaExpSignD (BitVec.ofInt 64 m) (BitVec.ofInt 64 e) s

end Verif.NumericTraits
