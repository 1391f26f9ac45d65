import Verif.Cxx.Basic

/-!
Model of common/src/bit_manip.cpp. Unsigned integers are `BitVec w`; `int` counters are `Int` (their values stay
in `[0, 64]`). A `float`/`double` is its bit pattern (`BitVec 32`/`BitVec 64`), the `union` used for type punning
being read as the identity on bit patterns.
-/
namespace Verif.BitManip

/-- The block `y = x >> k; if (y != 0) { n = n - k; x = y; }` repeated in nlz8..nlz64, common/src/bit_manip.cpp:31-35
(and 36-40, 52-66, 78-97, 109-133). The state is the pair `(n, x)`. -/
def nlzStep {w : Nat} (k : Nat) (s : Int × BitVec w) : Int × BitVec w :=
  let y := s.2 >>> k
  if y ≠ 0#w then (s.1 - (k : Int), y) else s

/-- The tail `y = x >> 1; if (y != 0) return n - 2; return n - x;`, common/src/bit_manip.cpp:41-44
(and 67-70, 98-101, 134-137). -/
def nlzTail {w : Nat} (s : Int × BitVec w) : Int :=
  let y := s.2 >>> 1
  if y ≠ 0#w then s.1 - 2 else s.1 - (s.2.toNat : Int)

/-- `nlz8`, common/src/bit_manip.cpp:26-45. -/
def nlz8 (x : BitVec 8) : Int := nlzTail (nlzStep 2 (nlzStep 4 (8, x)))

/-- `nlz16`, common/src/bit_manip.cpp:47-71. -/
def nlz16 (x : BitVec 16) : Int := nlzTail (nlzStep 2 (nlzStep 4 (nlzStep 8 (16, x))))

/-- `nlz32`, common/src/bit_manip.cpp:73-102. -/
def nlz32 (x : BitVec 32) : Int := nlzTail (nlzStep 2 (nlzStep 4 (nlzStep 8 (nlzStep 16 (32, x)))))

/-- `nlz64`, common/src/bit_manip.cpp:104-138. -/
def nlz64 (x : BitVec 64) : Int :=
  nlzTail (nlzStep 2 (nlzStep 4 (nlzStep 8 (nlzStep 16 (nlzStep 32 (64, x))))))

/-- `flp2u8`, common/src/bit_manip.cpp:149-154. The arithmetic on promoted `int`s and the conversion back to
`uint8_t` are arithmetic modulo 2^8 (likewise for 16 bits). -/
def flp2u8 (x : BitVec 8) : BitVec 8 :=
  let x := x ||| (x >>> 1)
  let x := x ||| (x >>> 2)
  let x := x ||| (x >>> 4)
  x - (x >>> 1)

/-- `flp2u16`, common/src/bit_manip.cpp:161-167. -/
def flp2u16 (x : BitVec 16) : BitVec 16 :=
  let x := x ||| (x >>> 1)
  let x := x ||| (x >>> 2)
  let x := x ||| (x >>> 4)
  let x := x ||| (x >>> 8)
  x - (x >>> 1)

/-- `flp2u32`, common/src/bit_manip.cpp:174-194. -/
def flp2u32 (x : BitVec 32) : BitVec 32 :=
  let x := x ||| (x >>> 1)
  let x := x ||| (x >>> 2)
  let x := x ||| (x >>> 4)
  let x := x ||| (x >>> 8)
  let x := x ||| (x >>> 16)
  x - (x >>> 1)

/-- `flp2u64`, common/src/bit_manip.cpp:201-209. -/
def flp2u64 (x : BitVec 64) : BitVec 64 :=
  let x := x ||| (x >>> 1)
  let x := x ||| (x >>> 2)
  let x := x ||| (x >>> 4)
  let x := x ||| (x >>> 8)
  let x := x ||| (x >>> 16)
  let x := x ||| (x >>> 32)
  x - (x >>> 1)

/-- `clp2u8`, common/src/bit_manip.cpp:216-222. -/
def clp2u8 (x : BitVec 8) : BitVec 8 :=
  let x := x - 1#8
  let x := x ||| (x >>> 1)
  let x := x ||| (x >>> 2)
  let x := x ||| (x >>> 4)
  x + 1#8

/-- `clp2u16`, common/src/bit_manip.cpp:229-236. -/
def clp2u16 (x : BitVec 16) : BitVec 16 :=
  let x := x - 1#16
  let x := x ||| (x >>> 1)
  let x := x ||| (x >>> 2)
  let x := x ||| (x >>> 4)
  let x := x ||| (x >>> 8)
  x + 1#16

/-- `clp2u32`, common/src/bit_manip.cpp:243-251. -/
def clp2u32 (x : BitVec 32) : BitVec 32 :=
  let x := x - 1#32
  let x := x ||| (x >>> 1)
  let x := x ||| (x >>> 2)
  let x := x ||| (x >>> 4)
  let x := x ||| (x >>> 8)
  let x := x ||| (x >>> 16)
  x + 1#32

/-- `clp2u64`, common/src/bit_manip.cpp:258-267. -/
def clp2u64 (x : BitVec 64) : BitVec 64 :=
  let x := x - 1#64
  let x := x ||| (x >>> 1)
  let x := x ||| (x >>> 2)
  let x := x ||| (x >>> 4)
  let x := x ||| (x >>> 8)
  let x := x ||| (x >>> 16)
  let x := x ||| (x >>> 32)
  x + 1#64

/-- `getMantissaExpSignF`, common/src/bit_manip.cpp:273-284: mantissa, exponent and sign.
The subtraction `- 127` is done in `uint32_t` and the result converted to `int32_t` (two's complement). -/
def getMantissaExpSignF (f : BitVec 32) : Int × Int × Bool :=
  let m := (0x007FFFFF#32 &&& f).toInt
  let e := (((0x7F800000#32 &&& f) >>> 23) - 127#32).toInt
  let s := (0x80000000#32 &&& f) ≠ 0#32
  (m, e, s)

/-- `setMantissaExpSignF`, common/src/bit_manip.cpp:286-294, for `int32_t` arguments `m`, `e`.
C++17 left shift of a signed value is undefined for a negative value and when the result does not fit the
corresponding unsigned type. -/
def setMantissaExpSignF (m e : BitVec 32) (s : Bool) : Outcome (BitVec 32) :=
  if e.toInt + 127 > 2147483647 then .error (.ub .overflow)
  else if e.toInt + 127 < 0 ∨ 2 ^ 32 ≤ (e.toInt + 127) * 2 ^ 23 then .error (.ub .shift)
  else .ok ((0x007FFFFF#32 &&& m) ||| ((e + 127#32) <<< 23) ||| ((if s then 1#32 else 0#32) <<< 31))

/-- `getMantissaExpSignD`, common/src/bit_manip.cpp:296-307. -/
def getMantissaExpSignD (f : BitVec 64) : Int × Int × Bool :=
  let m := (0x000FFFFFFFFFFFFF#64 &&& f).toInt
  let e := (((0x7FF0000000000000#64 &&& f) >>> 52) - 1023#64).toInt
  let s := (0x8000000000000000#64 &&& f) ≠ 0#64
  (m, e, s)

/-- `setMantissaExpSignD`, common/src/bit_manip.cpp:309-317. -/
def setMantissaExpSignD (m e : BitVec 64) (s : Bool) : Outcome (BitVec 64) :=
  if e.toInt + 1023 > 9223372036854775807 then .error (.ub .overflow)
  else if e.toInt + 1023 < 0 ∨ 2 ^ 64 ≤ (e.toInt + 1023) * 2 ^ 52 then .error (.ub .shift)
  else .ok ((0x000FFFFFFFFFFFFF#64 &&& m) ||| ((e + 1023#64) <<< 52) ||| ((if s then 1#64 else 0#64) <<< 63))

end Verif.BitManip
