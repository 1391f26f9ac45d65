import Verif.ParamMap.Model
import Verif.Text.Model
import Mathlib.Data.Int.Log
import Mathlib.Data.Rat.Floor

/-!
Model of the conversions of `setParam` and `getParam` (common/include/rofl/common/param_map.h:95-131) for `std::string`, `int` and the floating point types.

`operator<<` of a default `std::stringstream` writes a floating point number with six significant digits; `near` chooses the nearest integer (how ties are decided does not matter). The digits are written here as
`<integer>e<exponent>`; the code writes the same number with a decimal point or with an exponent. `boost::lexical_cast` reads an `int` with an optional sign, rejects what is not in the range, and reads a
floating point number as the nearest one, `rd`; only finite numbers occur, given by their values.
-/
namespace Verif.ParamMap
open Verif

/-- The value of decimal digits, `none` for other texts, param_map.h:114 (`lexical_cast`). -/
def readNat (s : Str) : Option Nat := if s ≠ [] ∧ s.all Char.isDigit then some (s.foldl (fun n c => 10 * n + (c.toNat - 48)) 0) else none

/-- An integer with an optional sign, param_map.h:114 (`lexical_cast`). -/
def readInt : Str → Option Int
  | '-' :: r => (readNat r).map fun n => -(n : Int)
  | '+' :: r => (readNat r).map fun n => (n : Int)
  | r => (readNat r).map fun n => (n : Int)

/-- `boost::lexical_cast<int>`, param_map.h:114. -/
def lexInt (s : Str) : Option Int := (readInt s).bind fun i => if -2147483648 ≤ i ∧ i ≤ 2147483647 then some i else none

/-- The six significant digits of a positive number and the exponent of the last one, param_map.h:99 (`operator<<`). -/
def sixPos (near : ℚ → ℤ) (x : ℚ) : ℤ × ℤ := (near (x / (10 : ℚ) ^ (Int.log 10 x - 5)), Int.log 10 x - 5)

/-- The same for any number, param_map.h:99 (`operator<<`). -/
def six (near : ℚ → ℤ) (x : ℚ) : ℤ × ℤ :=
  if x = 0 then (0, 0) else if x < 0 then (-(sixPos near (-x)).1, (sixPos near (-x)).2) else sixPos near x

/-- `sstr << paramValue` for a floating point number, param_map.h:98-99. -/
def printNum (near : ℚ → ℤ) (x : ℚ) : Str := Text.intStr (six near x).1 ++ 'e' :: Text.intStr (six near x).2

/-- `boost::lexical_cast` to a floating point type, param_map.h:114. -/
def parseNum (rd : ℚ → ℚ) (s : Str) : Option ℚ := do
  let m ← readInt (s.takeWhile fun c => c != 'e')
  let q ← readInt ((s.dropWhile fun c => c != 'e').drop 1)
  return rd ((m : ℚ) * (10 : ℚ) ^ q)

end Verif.ParamMap
