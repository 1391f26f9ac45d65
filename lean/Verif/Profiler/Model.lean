import Verif.Cxx.Basic
import Mathlib.Data.Nat.Notation
import Mathlib.Data.Nat.Cast.Defs

/-!
Model of common/include/rofl/common/profiler.h and common/src/profiler.cpp. The scalar type `K` stands for `double`: any type
with the operations; the theorems say which laws they use. `stats_` is modelled by its `find` function. The clock (`ScopedTimer`)
and `printStats` are in TimerModel. `count` stays below 2^64.
-/
namespace Verif.Profiler

variable {L K : Type}

/-- `MeasureStatistic`, profiler.h:44-49. -/
structure Stat (K : Type) where
  timeAvg : K
  timeVar : K
  timeMin : K
  timeMax : K
  count : Nat

variable [Zero K] [Add K] [Sub K] [Mul K] [Div K] [NatCast K] [LT K] [DecidableLT K] [DecidableEq L]

/-- Constructor, profiler.h:51-52. -/
def Stat.new (time : K) : Stat K := ⟨time, 0, time, time, 1⟩

/-- `getVariance`, profiler.h:54-60. -/
def Stat.getVariance (s : Stat K) : K := if s.count > 1 then s.timeAvg / ((s.count - 1 : ℕ) : K) else 0

/-- The update of an existing label, profiler.cpp:32-42. -/
def Stat.update (s : Stat K) (time : K) : Stat K :=
  let timeAvgOld := s.timeAvg
  let timeAvg := s.timeAvg + (time - timeAvgOld) / (s.count : K)
  let timeVar := s.timeVar + (time - timeAvg) * (time - timeAvgOld)
  let timeMin := if time < s.timeMin then time else s.timeMin
  let timeMax := if s.timeMax < time then time else s.timeMax
  ⟨timeAvg, timeVar, timeMin, timeMax, s.count + 1⟩

/-- `stats_`, profiler.h:85. -/
abbrev Stats (L K : Type) := L → Option (Stat K)

/-- `updateStat`, profiler.cpp:26-44. -/
def updateStat (st : Stats L K) (label : L) (time : K) : Stats L K :=
  fun l => if l = label then
    match st label with
    | none => some (.new time)
    | some s => some (s.update time)
  else st l

/-- A profiler after a sequence of updates, profiler.h:76. -/
def run (h : List (L × K)) : Stats L K := h.foldl (fun st p => updateStat st p.1 p.2) fun _ => none

end Verif.Profiler
