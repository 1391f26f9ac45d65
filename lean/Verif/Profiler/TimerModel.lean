import Verif.Profiler.Model
import Verif.Text.Model
import Mathlib.Order.Defs.LinearOrder

/-!
Model of `ScopedTimer` and of `Profiler::printStats` (common/include/rofl/common/profiler.h, common/src/profiler.cpp). The clock is a function of the number of its readings,
in ticks; `ms` converts a difference of ticks to milliseconds in `double`. The language runs the destructors of the local objects at the end of their block and those of the temporaries at
the end of the statement. `stats_` is a sorted list of pairs.
-/
namespace Verif.Profiler
open Verif.Text (Str natStr)

/-- A program with timers, profiler.h:113-138: a statement which reads the clock `n` times, a block which starts with the declaration of a timer, and the macro of profiler.h:26. -/
inductive Stmt (L : Type) where
  | work (n : Nat)
  | scoped (label : L) (body : List (Stmt L))
  | here (label : L)

/-- A timer, profiler.h:135-137. -/
structure Timer (L : Type) where
  label : L
  timeStart : Int

variable {L K : Type}

/-- Constructor, profiler.cpp:63-65, at the reading `k` of the clock. -/
def Timer.new (now : Nat → Int) (label : L) (k : Nat) : Timer L := ⟨label, now k⟩

/-- `elapsedTimeMs`, profiler.cpp:71-76. -/
def Timer.elapsedTimeMs (ms : Int → K) (now : Nat → Int) (t : Timer L) (k : Nat) : K := ms (now k - t.timeStart)

mutual
/-- The execution of a statement from the reading `k` of the clock: the reading after it and the calls of `updateStat` by the destructors, profiler.cpp:67-69. -/
def exec (ms : Int → K) (now : Nat → Int) (k : Nat) : Stmt L → Nat × List (L × K)
  | .work n => (k + n, [])
  | .scoped label body =>
    let timer := Timer.new now label k
    let (k, h) := execs ms now (k + 1) body
    (k + 1, h ++ [(timer.label, timer.elapsedTimeMs ms now k)])
  | .here label =>
    let timer := Timer.new now label k
    (k + 2, [(timer.label, timer.elapsedTimeMs ms now (k + 1))])

/-- The execution of a sequence of statements, profiler.cpp:67-69. -/
def execs (ms : Int → K) (now : Nat → Int) (k : Nat) : List (Stmt L) → Nat × List (L × K)
  | [] => (k, [])
  | s :: l =>
    let (k, h) := exec ms now k s
    let (k, h') := execs ms now k l
    (k, h ++ h')
end

variable [Zero K] [Add K] [Sub K] [Mul K] [Div K] [NatCast K] [LT K] [DecidableLT K]

/-- `updateStat`, profiler.cpp:26-44, on the sorted list of the pairs of `stats_`. -/
def updateMap [LinearOrder L] (label : L) (time : K) : List (L × Stat K) → List (L × Stat K)
  | [] => [(label, .new time)]
  | (l, s) :: m =>
    if label < l then (label, .new time) :: (l, s) :: m
    else if label = l then (l, s.update time) :: m
    else (l, s) :: updateMap label time m

/-- `stats_` after a sequence of updates, profiler.h:76. -/
def runMap [LinearOrder L] (h : List (L × K)) : List (L × Stat K) := h.foldl (fun m p => updateMap p.1 p.2 m) []

/-- A line of `printStats`, profiler.cpp:48-54; `txt` and `num` are the outputs of a label and of a `double`. -/
def line (txt : L → Str) (num : K → Str) (l : L) (s : Stat K) : Str :=
  txt l ++ (" \t".toList ++ (num s.timeAvg ++ (" \t".toList ++ (num s.getVariance ++ (" \t".toList ++ (num s.timeMin ++ (" \t".toList ++ (num s.timeMax ++
    (" \t".toList ++ (natStr s.count ++ " \t\n".toList))))))))))

/-- `printStats`, profiler.cpp:46-56. -/
def printStats (txt : L → Str) (num : K → Str) : List (L × Stat K) → Str
  | [] => []
  | (l, s) :: m => line txt num l s ++ printStats txt num m

end Verif.Profiler
