import Verif.NumericTraits.Model

/-!
Model of the integer part of common/include/rofl/common/morton_sort.h.
A pointer `const I*` to `Dim` values is a function `Nat → BitVec w`; the code only reads indices below `Dim`.
-/
namespace Verif.Morton
open Verif.NumericTraits

/-- `msb<UnsignedType>`, morton_sort.h:57-60 (unsigned comparisons). -/
def msb {w : Nat} (i1 i2 : BitVec w) : Bool := decide (i1.toNat < i2.toNat) && decide (i1.toNat < (i1 ^^^ i2).toNat)

/-- `IT::removeSign(a) ^ IT::removeSign(b)`, morton_sort.h:113, 323, 325, 342. -/
def xorSign (t : ITy) (a b : BitVec t.w) : BitVec t.w := removeSign t a ^^^ removeSign t b

/-- Meaning of the expression `1 << n` in `int` (C++17): undefined outside `[0, 31]`; `1 << 31` is the most negative `int`, morton_sort.h:115, 118. -/
def shl1 (n : Int) : Outcome Int :=
  if n < 0 ∨ 32 ≤ n then .error (.ub .shift) else if n = 31 then .ok (-2147483648) else .ok (2 ^ n.toNat)

/-- Smallest value of the type, `std::numeric_limits<I>::min()`, morton_sort.h:129. -/
def minVal (t : ITy) : Int := if t.signed then -2 ^ (t.w - 1) else 0

/-- Largest value of the type, `std::numeric_limits<I>::max()`, morton_sort.h:130. -/
def maxVal (t : ITy) : Int := if t.signed then 2 ^ (t.w - 1) - 1 else 2 ^ t.w - 1

/-- Output of `intervalPow2Int`: the returned level and the output arguments, morton_sort.h:83-88. -/
structure Pow2Interval (w : Nat) where
  level : Int
  low : BitVec w
  mid : BitVec w
  upp : BitVec w
  deriving DecidableEq, Repr

/-- `intervalPow2Int`, morton_sort.h:85-134. The parameter `shlNeg` is the meaning given to the undefined
expression `1 << -1` evaluated at line 118 when `i1 == i2` (strict C++: `.error (.ub .shift)`). The overflow of
`(1 << 31) - 1` at line 115 is undefined behaviour. -/
def intervalPow2Int (shlNeg : Outcome Int) (t : ITy) (i1 i2 : BitVec t.w) : Outcome (Pow2Interval t.w) := do
  let level : Int := t.w - nlz t (xorSign t i1 i2)
  if level < t.w then
    let p ← shl1 level
    let intervMask ← Cxx.int (p - 1)
    let low := i1 &&& ~~~(BitVec.ofInt t.w intervMask)
    let upp := low ||| BitVec.ofInt t.w intervMask
    let h ← if level - 1 = -1 then shlNeg else shl1 (level - 1)
    let mid := low ||| BitVec.ofInt t.w h
    return ⟨level, low, mid, upp⟩
  else
    let low := BitVec.ofInt t.w (minVal t)
    let upp := BitVec.ofInt t.w (maxVal t)
    let mid := BitVec.ofInt t.w ((maxVal t + minVal t).tdiv 2)
    return ⟨level, low, mid, upp⟩

/-- Loop of `mortonCmpInt`, morton_sort.h:322-330: state `(lastDim, lastXor)` after the iterations `d ≤ n`.
`lastDim` has the unsigned type of the coordinates, hence the reduction modulo `2 ^ w`. -/
def cmpLoop (t : ITy) (v1 v2 : Nat → BitVec t.w) : Nat → Nat × BitVec t.w
  | 0 => (0, xorSign t (v1 0) (v2 0))
  | n + 1 =>
    let s := cmpLoop t v1 v2 n
    let currXor := xorSign t (v1 (n + 1)) (v2 (n + 1))
    if msb s.2 currXor then ((n + 1) % 2 ^ t.w, currXor) else s

/-- `mortonCmpInt<I, Dim>`, morton_sort.h:317-332. -/
def mortonCmpInt (t : ITy) (dim : Nat) (v1 v2 : Nat → BitVec t.w) : Bool :=
  let s := cmpLoop t v1 v2 (dim - 1)
  t.lt (v1 s.1) (v2 s.1)

/-- Loop of `mortonDistanceInt`, morton_sort.h:339-346: `levelMax` after the iterations `d < n`. -/
def distLoop (t : ITy) (v1 v2 : Nat → BitVec t.w) : Nat → Int
  | 0 => 0
  | n + 1 =>
    let levelMax := distLoop t v1 v2 n
    let level : Int := t.w - nlz t (xorSign t (v1 n) (v2 n))
    if level > levelMax then level else levelMax

/-- `mortonDistanceInt<I, Dim>`, morton_sort.h:334-348. -/
def mortonDistanceInt (t : ITy) (dim : Nat) (v1 v2 : Nat → BitVec t.w) : Int := distLoop t v1 v2 dim

/-- State of `mortonSplitInt`: split dimension and level, output arrays, morton_sort.h:350-366. -/
structure Split (w : Nat) where
  dimSplit : Nat
  levelSplit : Int
  low : Nat → BitVec w
  mid : Nat → BitVec w
  upp : Nat → BitVec w

/-- Assignment `a[i] = x`, morton_sort.h:354-365. -/
def upd {α : Type} (a : Nat → α) (i : Nat) (x : α) : Nat → α := fun j => if j = i then x else a j

/-- Loop of `mortonSplitInt`, morton_sort.h:354-365, after the iterations `d ≤ n`. The output arrays start
with unspecified contents, taken to be zero here (entries from `Dim` on are never written). -/
def splitLoop (shlNeg : Outcome Int) (t : ITy) (v1 v2 : Nat → BitVec t.w) : Nat → Outcome (Split t.w)
  | 0 => do
    let r ← intervalPow2Int shlNeg t (v1 0) (v2 0)
    let z : Nat → BitVec t.w := fun _ => 0#t.w
    return ⟨0, r.level, upd z 0 r.low, upd z 0 r.mid, upd z 0 r.upp⟩
  | n + 1 => do
    let s ← splitLoop shlNeg t v1 v2 n
    let d := n + 1
    let r ← intervalPow2Int shlNeg t (v1 d) (v2 d)
    let low := upd s.low d r.low
    let mid := upd s.mid d r.mid
    let upp := upd s.upp d r.upp
    if r.level > s.levelSplit then
      return ⟨d, r.level, low, upd mid s.dimSplit (low s.dimSplit), upp⟩
    else
      return ⟨s.dimSplit, s.levelSplit, low, upd mid d (low d), upp⟩

/-- `mortonSplitInt<I, Dim>`, morton_sort.h:350-366. -/
def mortonSplitInt (shlNeg : Outcome Int) (t : ITy) (dim : Nat) (v1 v2 : Nat → BitVec t.w) : Outcome (Split t.w) :=
  splitLoop shlNeg t v1 v2 (dim - 1)

end Verif.Morton
