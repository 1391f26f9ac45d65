import Verif.Cxx.Vec
import Mathlib.Algebra.Order.Field.Basic

/-! Model of /repo/common/include/rofl/common/tls_scalar_consensus.h.

The scalar type is an ordered field (exact arithmetic instead of floating point). A division by zero gives NaN, written `none`; with
positive ranges (the case of the theorems) the numerator is zero too, so there are no infinities. `std::sort` is any function `srt`
that returns a sorted permutation of its argument. The messages printed by ROFL_VAR2 are not modelled, their arguments are evaluated. -/
namespace Verif.Tls
open Verif

variable {K : Type} [Field K] [LinearOrder K]

/-- `std::abs`, tls_scalar_consensus.h:68, 94, 131. -/
def absK (x : K) : K := if x < 0 then -x else x

/-- The vector `endpoints`, tls_scalar_consensus.h:55-60: `i + 1` and `-i - 1` are unsigned and are converted to `int`. -/
def endpoints (values ranges : Vec K) : List (K × Int) :=
  (List.range values.len).flatMap fun (i : Nat) =>
    [(values.val i - ranges.val i, Cxx.ofSize (Cxx.toSize (i + 1))), (values.val i + ranges.val i, Cxx.ofSize (Cxx.toSize (-i - 1)))]

/-- The vector `weights`, tls_scalar_consensus.h:67-74. -/
def weights (ranges : Vec K) : Vec K :=
  ⟨ranges.len, fun i => if absK (ranges.val i) < 1 / 1000000 then 1000000000000 else 1 / (ranges.val i * ranges.val i)⟩

/-- The accumulators of the sweep, tls_scalar_consensus.h:76-81. -/
structure Acc (K : Type) where
  consensusWeighted : K
  consensusSetCardinal : Int
  sumXi : K
  sumXiSquare : K
  valueWeighted : K
  rangesInverseSum : K

/-- Their values before the sweep, tls_scalar_consensus.h:76-85. -/
def Acc.init (ranges : Vec K) : Acc K := ⟨0, 0, 0, 0, 0, (List.range ranges.len).foldl (fun s i => s + ranges.val i) 0⟩

/-- One iteration of the sweep, tls_scalar_consensus.h:94-109: the accumulators, `valueHat[j]` and `valueCost[j]`. -/
def step (values ranges weights : Vec K) (a : Acc K) (e : K × Int) : Outcome (Acc K × Option K × Option K) := do
  let m ← Cxx.int |e.2|
  let i ← Cxx.int (m - 1)
  let incr : Int := if e.2 > 0 then 1 else -1
  let card ← Cxx.int (a.consensusSetCardinal + incr)
  let w ← weights.get i
  let v ← values.get i
  let r ← ranges.get i
  let cw := a.consensusWeighted + incr * w
  let vw := a.valueWeighted + incr * w * v
  let ri := a.rangesInverseSum - incr * r
  let sx := a.sumXi + incr * v
  let sq := a.sumXiSquare + incr * v * v
  let a' : Acc K := ⟨cw, card, sx, sq, vw, ri⟩
  if cw = 0 then return (a', none, none)
  else
    let h := vw / cw
    let residual := card * h * h + sq - 2 * sx * h
    return (a', some h, some (residual + ri))

/-- The sweep, tls_scalar_consensus.h:93-124: the pairs (`valueHat[j]`, `valueCost[j]`). -/
def sweep (values ranges weights : Vec K) : List (K × Int) → Acc K → Outcome (List (Option K × Option K))
  | [], _ => .ok []
  | e :: l, a => do
    let (a, h, c) ← step values ranges weights a e
    let r ← sweep values ranges weights l a
    return (h, c) :: r

/-- `a < b`, false on NaN, tls_scalar_consensus.h:126. -/
def ltN : Option K → Option K → Bool
  | some a, some b => decide (a < b)
  | _, _ => false

/-- The loop of `std::min_element`: `best` is the element found so far, the rest is to be visited, tls_scalar_consensus.h:126. -/
def minLoop (best : Option K × Option K) : List (Option K × Option K) → Option K × Option K
  | [] => best
  | p :: l => minLoop (if ltN p.2 best.2 then p else best) l

/-- `estimateTranslationTls`, tls_scalar_consensus.h:44-134: `valueMax` (`none` is NaN) and `inliers`. -/
def estimate (srt : List (K × Int) → List (K × Int)) (values ranges : Vec K) : Outcome (Option K × Vec Bool) := do
  Cxx.assert (values.len = ranges.len)
  let outs ← sweep values ranges (weights ranges) (srt (endpoints values ranges)) (Acc.init ranges)
  match outs with
  | [] => .error (.ub .outOfBounds)
  | p :: l =>
    let valueMax := (minLoop p l).1
    return (valueMax, ⟨values.len, fun i => match valueMax with
      | none => false
      | some h => decide (absK (values.val i - h) < ranges.val i)⟩)

end Verif.Tls
