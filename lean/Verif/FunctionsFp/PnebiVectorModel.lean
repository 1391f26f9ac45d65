import Verif.FunctionsFp.PnebiModel
import Verif.Functions.Model
import Verif.HoughFp.Model

/-!
Model of `evaluatePnebiVector` (common/src/functions.cpp) in `double` arithmetic, for `n ≥ 0`. The function `exp` of the C library is a parameter; `sqrt` is correctly
rounded.
-/
namespace Verif.FunctionsFp
open Verif Ieee Fp Float.Model

/-- `BIG_NUM`, functions.h:30. -/
def bigNum : Dbl := d (10 ^ 11) 1

/-- `SMALL_NUM`, functions.h:31. -/
def smallNum : Dbl := d 1 10

/-- `(int) x`, functions.cpp:183: undefined for NaN, for an infinity and when the truncated value is not an `int`. -/
def castInt (x : Dbl) : Outcome Int :=
  match HoughFp.toInt? x with
  | none => .error (.ub .overflow)
  | some n => Cxx.int n

/-- `pnebis.resize(m)` if it is shorter, functions.cpp:165-167. -/
def growD (v : Vec Dbl) (m : ℕ) : Vec Dbl := if v.len < m then ⟨m, fun i => if i < v.len then v.val i else d 0 1⟩ else v

/-- One iteration of the back recursion, functions.cpp:184-199; `k` is converted to `double`. -/
def backStep (n : ℕ) (factor : Dbl) (k : ℕ) (s : Functions.Seq Dbl) : Outcome (Functions.Seq Dbl) := do
  let next := s.prev + factor * (k : Dbl) * s.curr
  let prev := s.curr
  let curr := next
  let pnebis ← (if k ≤ n then s.pnebis.set k prev else .ok s.pnebis)
  if bigNum < curr then
    return ⟨prev * smallNum, curr * smallNum, ⟨pnebis.len, fun i => pnebis.val i * smallNum⟩⟩
  else
    return ⟨prev, curr, pnebis⟩

/-- The iterations `k, k - 1, …, 0` of the back recursion, functions.cpp:183-200. -/
def backLoop (n : ℕ) (factor : Dbl) : ℕ → Functions.Seq Dbl → Outcome (Functions.Seq Dbl)
  | 0, s => backStep n factor 0 s
  | k + 1, s => do
    let s ← backStep n factor (k + 1) s
    backLoop n factor k s

/-- The first order of the back recursion, functions.cpp:183. -/
def startOrder (n : ℕ) : Outcome Int := do
  let r ← castInt (Fp.sqrt (d 400 1 * (n : Dbl)))
  let s ← Cxx.int (n + r)
  Cxx.int (2 * s)

/-- `evaluatePnebiVector`, functions.cpp:163-206, for `n ≥ 0`. -/
def evaluatePnebiVector (exp : Dbl → Dbl) (n : ℕ) (x : Dbl) (pnebis : Vec Dbl) : Outcome (Vec Dbl) := do
  let _ ← Cxx.int (n + 1)
  let pnebis := growD pnebis (n + 1)
  let x := if x < d 0 1 then -x else x
  if x < d 1 6 then
    Vec.set ⟨pnebis.len, fun _ => d 0 1⟩ 0 (d 20 1)
  else do
    let m ← startOrder n
    let s ← backLoop n (d 20 1 / x) m.toNat ⟨d 0 1, d 10 1, pnebis⟩
    let p0 ← s.pnebis.get 0
    let scaleFactor := evaluatePnebi0Polynom exp x / p0
    return ⟨s.pnebis.len, fun i => scaleFactor * s.pnebis.val i⟩

end Verif.FunctionsFp
