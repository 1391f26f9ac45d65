import Verif.NumericTraits.Model
import Verif.Morton.Model

/-!
Model of the floating point part of common/include/rofl/common/morton_sort.h. A `float` (`double`) is its IEEE-754 bit pattern.
Comparisons of floating point numbers are those of the standard on bit patterns (`lt`, `gtAbs`).

C++17 leaves undefined the left shift of a negative value and a left shift whose result does not fit. GCC and Clang define both
(two's complement). The parameter `lax` selects the reading: `false` is the standard, `true` the compilers' one.
-/
namespace Verif.MortonFloat
open Verif.NumericTraits Verif.Morton

/-- `FloatTraits<F>::IntegerType`, numeric_traits.h:384, 435. -/
def ityOf : FTy → ITy
  | .f32 => .i32
  | .f64 => .i64

theorem ityOf_w (t : FTy) : (ityOf t).w = t.w := by cases t <;> rfl

/-- The bits without the sign, as in the call of fabs, morton_sort.h:149. -/
def mag {w : Nat} (a : BitVec w) : Nat := a.toNat % 2 ^ (w - 1)

/-- The pattern of infinity, used for the comparisons of floating point numbers, morton_sort.h:149. -/
def infMag : FTy → Nat
  | .f32 => 0x7F800000
  | .f64 => 0x7FF0000000000000

/-- NaN, used for the comparisons of floating point numbers, morton_sort.h:149. -/
def isNaN (t : FTy) (a : BitVec t.w) : Bool := decide (infMag t < mag a)

/-- Position of a number that is not NaN in the order of the floating point numbers (both zeros have position 0), used for morton_sort.h:149. -/
def pos {w : Nat} (a : BitVec w) : Int := if a.toNat < 2 ^ (w - 1) then mag a else -mag a

/-- `a < b` on floating point numbers; false on NaN, morton_sort.h:389-400. -/
def lt (t : FTy) (a b : BitVec t.w) : Bool := !isNaN t a && !isNaN t b && decide (pos a < pos b)

/-- `fabs(a) > fabs(b)`; false on NaN, morton_sort.h:149. -/
def gtAbs (t : FTy) (a b : BitVec t.w) : Bool := !isNaN t a && !isNaN t b && decide (mag b < mag a)

/-- `a << n` for a signed integer `a` of `w` bits, morton_sort.h:193. -/
def shl (lax : Bool) {w : Nat} (a : BitVec w) (n : Int) : Outcome (BitVec w) :=
  if n < 0 ∨ (w : Int) ≤ n then .error (.ub .shift)
  else if lax = false ∧ (a.toInt < 0 ∨ 2 ^ w ≤ a.toInt * 2 ^ n.toNat) then .error (.ub .shift)
  else .ok (a <<< n.toNat)

/-- `a >> n` for a signed integer `a` of `w` bits (arithmetic shift), morton_sort.h:176, 261. -/
def shr {w : Nat} (a : BitVec w) (n : Int) : Outcome (BitVec w) :=
  if n < 0 ∨ (w : Int) ≤ n then .error (.ub .shift) else .ok (a.sshiftRight n.toNat)

/-- The bit pattern that `FT::compose` yields when the shift of a negative value is defined, numeric_traits.h:399-401, 450-452. -/
def composeLax (t : FTy) (m e : Int) (s : Bool) : BitVec t.w :=
  (BitVec.ofInt t.w m &&& BitVec.ofInt t.w t.mantissaMask) ||| (BitVec.ofInt t.w (e + t.exponentBias) <<< t.mantissaBits) |||
    ((if s then 1#t.w else 0#t.w) <<< (t.w - 1))

/-- `FT::compose` in the two readings, morton_sort.h:170, 189, 195. -/
def composeP (lax : Bool) (t : FTy) (m e : Int) (s : Bool) : Outcome (BitVec t.w) :=
  match compose t m e s with
  | .error (.ub .shift) => if lax then .ok (composeLax t m e s) else .error (.ub .shift)
  | r => r

/-- `log2Mod` on the integer type of the mantissa, morton_sort.h:191. -/
def log2ModF : (t : FTy) → BitVec t.w → Outcome Int
  | .f32, x => log2Mod .i32 x
  | .f64, x => log2Mod .i64 x

/-- `nlz` on the integer type of the mantissa, morton_sort.h:261, 263. -/
def nlzF : (t : FTy) → BitVec t.w → Int
  | .f32, x => nlz .i32 x
  | .f64, x => nlz .i64 x

/-- Results of `xorFloat`: the returned value and the output arguments, morton_sort.h:136-140. -/
structure XorF (w : Nat) where
  value : BitVec w
  mantissaDiff : Int
  exponentDiff : Int
  deriving DecidableEq, Repr

/-- The aligned mantissa of the smaller number, morton_sort.h:175-179. -/
def alignF (t : FTy) (m2 : Int) (e1 e2 : Int) : Outcome (BitVec t.w) :=
  if e1 < e2 + t.w then shr (BitVec.ofInt t.w m2 ||| BitVec.ofInt t.w t.mantissaImplicitBit) (e1 - e2) else .ok 0#t.w

/-- `xorFloat` from the ordered arguments on, morton_sort.h:157-195. -/
def xorOrdered (lax : Bool) (t : FTy) (f1 f2 : BitVec t.w) : Outcome (XorF t.w) := do
  let (m1, e1, s1) := decompose t f1
  let (m2, e2, s2) := decompose t f2
  if s1 ^^ s2 then
    let v ← composeP lax t 0 t.exponentMax false
    return ⟨v, 0, t.exponentMax⟩
  else
    let fm1 := BitVec.ofInt t.w m1 ||| BitVec.ofInt t.w t.mantissaImplicitBit
    let fm2 ← alignF t m2 e1 e2
    let diff := if s1 then (-fm1) ^^^ (-fm2) else fm1 ^^^ fm2
    if diff = 0#t.w then
      let v ← composeP lax t 0 (-t.exponentBias) false
      return ⟨v, 0, -t.exponentBias⟩
    else
      let l ← log2ModF t diff
      let msbPos : Int := t.mantissaBits - l
      let exponentDiff := e1 - msbPos
      let sh ← shl lax diff msbPos
      let mantissaDiff := sh &&& BitVec.ofInt t.w t.mantissaMask
      let v ← composeP lax t mantissaDiff.toInt exponentDiff false
      return ⟨v, mantissaDiff.toInt, exponentDiff⟩

/-- `xorFloat`, morton_sort.h:136-196. -/
def xorFloat (lax : Bool) (t : FTy) (a b : BitVec t.w) : Outcome (XorF t.w) :=
  if gtAbs t a b then xorOrdered lax t a b else xorOrdered lax t b a

/-- Loop of `mortonCmpFloat`, morton_sort.h:389-398: `lastDim` and the last xor after the iterations `d ≤ n`. -/
def cmpLoop (lax : Bool) (t : FTy) (v1 v2 : Nat → BitVec t.w) : Nat → Outcome (Nat × XorF t.w)
  | 0 => do
    let x ← xorFloat lax t (v1 0) (v2 0)
    return (0, x)
  | n + 1 => do
    let s ← cmpLoop lax t v1 v2 n
    let curr ← xorFloat lax t (v1 (n + 1)) (v2 (n + 1))
    return if lt t s.2.value curr.value && decide (s.2.exponentDiff < curr.exponentDiff) then (n + 1, curr) else s

/-- `mortonCmpFloat<F, Dim>`, morton_sort.h:380-400. -/
def mortonCmpFloat (lax : Bool) (t : FTy) (dim : Nat) (v1 v2 : Nat → BitVec t.w) : Outcome Bool := do
  let s ← cmpLoop lax t v1 v2 (dim - 1)
  return lt t (v1 s.1) (v2 s.1)

/-- `mortonDistanceFloat<F, Dim>`, morton_sort.h:402-416: `exponentMax` after the iterations `d < n`. -/
def mortonDistanceFloat (lax : Bool) (t : FTy) (v1 v2 : Nat → BitVec t.w) : Nat → Outcome Int
  | 0 => .ok (-t.exponentBias)
  | n + 1 => do
    let exponentMax ← mortonDistanceFloat lax t v1 v2 n
    let x ← xorFloat lax t (v1 n) (v2 n)
    return if x.exponentDiff > exponentMax then x.exponentDiff else exponentMax

/-- Largest finite number, `std::numeric_limits<F>::max()`, morton_sort.h:238. -/
def maxFinite (t : FTy) : BitVec t.w := BitVec.ofNat t.w (infMag t - 1)

/-- Smallest finite number, `std::numeric_limits<F>::lowest()`, morton_sort.h:237. -/
def lowest (t : FTy) : BitVec t.w := BitVec.ofNat t.w (2 ^ (t.w - 1) + infMag t - 1)

/-- The number with the given aligned mantissa, morton_sort.h:270-284. -/
def bound (t : FTy) (m : BitVec t.w) (e2 : Int) (s2 : Bool) : Outcome (BitVec t.w) :=
  if m ≠ 0#t.w then compose t (m ^^^ BitVec.ofInt t.w t.mantissaImplicitBit).toInt e2 s2 else compose t m.toInt t.exponentMin s2

/-- `mid`'s shift `1 << (level - 1)`, morton_sort.h:269; `shlNeg` is the meaning of the undefined `1 << -1`. -/
def half (shlNeg : Outcome Int) (level : Int) : Outcome Int := if level - 1 = -1 then shlNeg else shl1 (level - 1)

/-- The level of the aligned difference, morton_sort.h:260-264. -/
def levelF (t : FTy) (fm1 fm2 : BitVec t.w) (fe12 : Int) : Outcome Int :=
  if fe12 ≤ t.mantissaBits then do
    let sh ← shr fm1 fe12
    return t.w - nlzF t (fm2 ^^^ sh)
  else .ok (t.w - nlzF t fm2)

/-- `intervalPow2Float` for numbers of the same sign, from the ordered mantissas on (`e1`, `m1` of the smaller magnitude),
morton_sort.h:252-297. -/
def intervalOrdered (shlNeg : Outcome Int) (t : FTy) (m1 e1 m2 e2 : Int) (s2 : Bool) : Outcome (Pow2Interval t.w) := do
  let fm1 := BitVec.ofInt t.w m1 ||| BitVec.ofInt t.w t.mantissaImplicitBit
  let fm2 := BitVec.ofInt t.w m2 ||| BitVec.ofInt t.w t.mantissaImplicitBit
  let level ← levelF t fm1 fm2 (e2 - e1)
  let p ← shl1 level
  let intervMask ← Cxx.int (p - 1)
  let mlow := fm2 &&& ~~~(BitVec.ofInt t.w intervMask)
  let mupp := mlow ||| BitVec.ofInt t.w intervMask
  let h ← half shlNeg level
  let mmid := mlow ||| BitVec.ofInt t.w h
  let low ← bound t mlow e2 s2
  let mid ← bound t mmid e2 s2
  let upp ← bound t mupp e2 s2
  return if s2 then ⟨e2 + level - t.mantissaBits, upp, mid, low⟩ else ⟨e2 + level - t.mantissaBits, low, mid, upp⟩

/-- `intervalPow2Float`, morton_sort.h:218-298. The variables `f1` (uninitialised) and `f2` are swapped but their values are
not used; they are omitted. -/
def intervalPow2Float (shlNeg : Outcome Int) (t : FTy) (a b : BitVec t.w) : Outcome (Pow2Interval t.w) :=
  let (m1, e1, s1) := decompose t a
  let (m2, e2, s2) := decompose t b
  if s1 ^^ s2 then .ok ⟨t.exponentMax + 1, lowest t, 0#t.w, maxFinite t⟩
  else if e1 > e2 ∨ (e1 = e2 ∧ m1 > m2) then intervalOrdered shlNeg t m2 e2 m1 e1 s2
  else intervalOrdered shlNeg t m1 e1 m2 e2 s2

/-- Loop of `mortonSplitFloat`, morton_sort.h:422-435, after the iterations `d ≤ n`; unwritten entries are zero here. -/
def splitLoop (shlNeg : Outcome Int) (t : FTy) (v1 v2 : Nat → BitVec t.w) : Nat → Outcome (Split t.w)
  | 0 => do
    let r ← intervalPow2Float shlNeg t (v1 0) (v2 0)
    let z : Nat → BitVec t.w := fun _ => 0#t.w
    return ⟨0, r.level, upd z 0 r.low, upd z 0 r.mid, upd z 0 r.upp⟩
  | n + 1 => do
    let s ← splitLoop shlNeg t v1 v2 n
    let d := n + 1
    let r ← intervalPow2Float shlNeg t (v1 d) (v2 d)
    let low := upd s.low d r.low
    let mid := upd s.mid d r.mid
    let upp := upd s.upp d r.upp
    if r.level > s.levelSplit then
      return ⟨d, r.level, low, upd mid s.dimSplit (low s.dimSplit), upp⟩
    else
      return ⟨s.dimSplit, s.levelSplit, low, upd mid d (low d), upp⟩

/-- `mortonSplitFloat<F, Dim>`, morton_sort.h:418-436. -/
def mortonSplitFloat (shlNeg : Outcome Int) (t : FTy) (dim : Nat) (v1 v2 : Nat → BitVec t.w) : Outcome (Split t.w) :=
  splitLoop shlNeg t v1 v2 (dim - 1)

end Verif.MortonFloat
