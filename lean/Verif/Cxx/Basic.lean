/-
The fragment of C++ semantics used by the models.

Simplification shared by all the models: only the outcomes listed in `Err` are distinguished. Text written
to the standard streams by the `ROFL_VAR`/`ROFL_MSG` macros (common/include/rofl/common/macros.h:29-55) is not modelled.
-/
namespace Verif

/-- Kinds of undefined behaviour met in the modelled code (C++17, see /repo/CMakeLists.txt:5-7). -/
inductive UB
  /-- access outside an array, dereference of an end iterator -/
  | outOfBounds
  /-- signed integer overflow -/
  | overflow
  /-- shift by a negative or too large amount, or left shift of an unsuitable value -/
  | shift
  /-- integer division (or remainder) by zero -/
  | divZero
  /-- use of an invalidated iterator or reference -/
  | iterInvalid
  deriving DecidableEq, Repr

/-- Ways in which a modelled call may fail to return normally. -/
inductive Err
  | ub (k : UB)
  /-- `ROFL_ASSERT` failed: `exit(-1)`, common/include/rofl/common/macros.h:57 -/
  | abort
  /-- a C++ exception leaves the function -/
  | throw
  /-- the fuel of the model is exhausted (used to state termination) -/
  | fuel
  deriving DecidableEq, Repr

/-- Result of a modelled call. -/
abbrev Outcome (α : Type _) := Except Err α

instance {α : Type _} [DecidableEq α] : DecidableEq (Outcome α)
  | .ok a, .ok b => if h : a = b then isTrue (by rw [h]) else isFalse (fun h' => h (Except.ok.inj h'))
  | .error a, .error b => if h : a = b then isTrue (by rw [h]) else isFalse (fun h' => h (Except.error.inj h'))
  | .ok _, .error _ => isFalse (fun h => nomatch h)
  | .error _, .ok _ => isFalse (fun h => nomatch h)

namespace Cxx

/-- `ROFL_ASSERT(c)`, common/include/rofl/common/macros.h:57. -/
def assert (c : Prop) [Decidable c] : Outcome Unit := if c then .ok () else .error .abort

/-- The result `z` of an `int` operation: undefined behaviour if it is not representable. -/
def int (z : Int) : Outcome Int := if -2147483648 ≤ z ∧ z ≤ 2147483647 then .ok z else .error (.ub .overflow)

/-- `a / b` on `int`: truncated; undefined for a zero divisor and for `INT_MIN / -1`. -/
def idiv (a b : Int) : Outcome Int := if b = 0 then .error (.ub .divZero) else int (a.tdiv b)

/-- `a % b` on `int`: sign of the dividend; undefined when `a / b` is. -/
def imod (a b : Int) : Outcome Int := do
  let _ ← idiv a b
  return a.tmod b

/-- Conversion of an `int` to `size_t` (64 bits). -/
def toSize (z : Int) : Nat := (z % 18446744073709551616).toNat

/-- Conversion of a `size_t` to `int` (modular, implementation-defined before C++20, see also GCC manual 4.5). -/
def ofSize (n : Nat) : Int := Int.bmod n 4294967296

end Cxx
end Verif
