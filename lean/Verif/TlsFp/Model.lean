import Verif.Cxx.Vec
import Verif.Ieee.Cast

/-!
Model of /repo/common/include/rofl/common/tls_scalar_consensus.h in floating point arithmetic, for `Scalar` = `float` and `double`.

Every operation is rounded in its type; `int` operands are converted to `Scalar`. `std::sort` is any function `srt`. The messages printed by ROFL_VAR2 are not
modelled, their arguments are evaluated.
-/
namespace Verif.TlsFp
open Verif Ieee Fp Float.Model

variable {spec : Format} [Fmt spec]

/-- The conversion of an `int` to `Scalar`, tls_scalar_consensus.h:98-107. -/
def ofInt (spec : Format) [Fmt spec] (n : ℤ) : Fp spec := ofU spec (UnpackedFloat.normalize spec n 0 .positive)

/-- The vector `endpoints`, tls_scalar_consensus.h:55-60: `i + 1` and `-i - 1` are unsigned and are converted to `int`. -/
def endpoints (values ranges : Vec (Fp spec)) : List (Fp spec × ℤ) :=
  (List.range values.len).flatMap fun (i : ℕ) =>
    [(values.val i - ranges.val i, Cxx.ofSize (Cxx.toSize (i + 1))), (values.val i + ranges.val i, Cxx.ofSize (Cxx.toSize (-i - 1)))]

/-- The weight of a range, tls_scalar_consensus.h:68-72: the literals are `double`, so that a range of type `float` is compared and its square is inverted in `double`. -/
def weight (r : Fp spec) : Fp spec :=
  if (conv r.abs : Dbl) < lit .binary64 1 (-6) then conv (lit .binary64 1 12) else conv (((1 : ℕ) : Dbl) / conv (r * r))

/-- The vector `weights`, tls_scalar_consensus.h:67-74. -/
def weights (ranges : Vec (Fp spec)) : Vec (Fp spec) := ⟨ranges.len, fun i => weight (ranges.val i)⟩

/-- The accumulators of the sweep, tls_scalar_consensus.h:76-81. -/
structure Acc (spec : Format) where
  consensusWeighted : Fp spec
  consensusSetCardinal : ℤ
  sumXi : Fp spec
  sumXiSquare : Fp spec
  valueWeighted : Fp spec
  rangesInverseSum : Fp spec

/-- Their values before the sweep, tls_scalar_consensus.h:76-85. -/
def Acc.init (ranges : Vec (Fp spec)) : Acc spec := ⟨0, 0, 0, 0, 0, (List.range ranges.len).foldl (fun s i => s + ranges.val i) 0⟩

/-- The updates of the accumulators, tls_scalar_consensus.h:98-103, by the sign `incr` of an endpoint and the weight `w`, value `v` and range `r` of its measure. -/
def Acc.add (a : Acc spec) (card incr : ℤ) (w v r : Fp spec) : Acc spec :=
  ⟨a.consensusWeighted + ofInt spec incr * w, card, a.sumXi + ofInt spec incr * v, a.sumXiSquare + ofInt spec incr * v * v,
    a.valueWeighted + ofInt spec incr * w * v, a.rangesInverseSum - ofInt spec incr * r⟩

/-- `valueHat[j]`, tls_scalar_consensus.h:107. -/
def Acc.hat (a : Acc spec) : Fp spec := a.valueWeighted / a.consensusWeighted

/-- `valueCost[j]`, tls_scalar_consensus.h:109-110. -/
def Acc.cost (a : Acc spec) : Fp spec :=
  (ofInt spec a.consensusSetCardinal * a.hat * a.hat + a.sumXiSquare - ofInt spec 2 * a.sumXi * a.hat) + a.rangesInverseSum

/-- One iteration of the sweep, tls_scalar_consensus.h:94-110: the accumulators, `valueHat[j]` and `valueCost[j]`. -/
def step (values ranges weights : Vec (Fp spec)) (a : Acc spec) (e : Fp spec × ℤ) : Outcome (Acc spec × Fp spec × Fp spec) := do
  let m ← Cxx.int |e.2|
  let i ← Cxx.int (m - 1)
  let incr : ℤ := if e.2 > 0 then 1 else -1
  let card ← Cxx.int (a.consensusSetCardinal + incr)
  let w ← weights.get i
  let v ← values.get i
  let r ← ranges.get i
  let a := a.add card incr w v r
  return (a, a.hat, a.cost)

/-- The sweep, tls_scalar_consensus.h:93-124: the pairs (`valueHat[j]`, `valueCost[j]`). -/
def sweep (values ranges weights : Vec (Fp spec)) : List (Fp spec × ℤ) → Acc spec → Outcome (List (Fp spec × Fp spec))
  | [], _ => .ok []
  | e :: l, a => do
    let (a, h, c) ← step values ranges weights a e
    let r ← sweep values ranges weights l a
    return (h, c) :: r

/-- The loop of `std::min_element`: `best` is the element found so far, the rest is to be visited, tls_scalar_consensus.h:126. -/
def minLoop (best : Fp spec × Fp spec) : List (Fp spec × Fp spec) → Fp spec × Fp spec
  | [] => best
  | p :: l => minLoop (if p.2 < best.2 then p else best) l

/-- `estimateTranslationTls`, tls_scalar_consensus.h:44-134: `valueMax` and `inliers`. -/
def estimate (srt : List (Fp spec × ℤ) → List (Fp spec × ℤ)) (values ranges : Vec (Fp spec)) : Outcome (Fp spec × Vec Bool) := do
  Cxx.assert (values.len = ranges.len)
  let outs ← sweep values ranges (weights ranges) (srt (endpoints values ranges)) (Acc.init ranges)
  match outs with
  | [] => .error (.ub .outOfBounds)
  | p :: l =>
    let valueMax := (minLoop p l).1
    return (valueMax, ⟨values.len, fun i => decide ((values.val i - valueMax).abs < ranges.val i)⟩)

end Verif.TlsFp
