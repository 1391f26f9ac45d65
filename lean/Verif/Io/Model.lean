import Verif.Cxx.Basic

/-!
Model of common/src/io.cpp (common/include/rofl/common/io.h).

Strings are lists of bytes. The file system is a parameter: what the constructor and the increments of `std::filesystem::directory_iterator` give. `std::sort` is a
parameter. `std::put_time` with the format `%Y%m%d_%H%M_%S` is modelled for the C locale; the clock and `std::localtime` are parameters.
-/
namespace Verif.Io
open Verif

/-- A `std::string`, io.h:32-36. -/
abbrev Str := List UInt8

/-- A step of the directory iterator: an entry with its path and the result of `is_regular_file()` (`none`: exception), or an exception in the increment, io.cpp:53-54. -/
inductive Item
  | entry (path : Str) (regular : Option Bool)
  | fail
  deriving DecidableEq, Repr

/-- The loop on the entries, io.cpp:53-57: content of the vector and outcome. -/
def loop : List Item → List Str → List Str × Outcome Unit
  | [], files => (files, .ok ())
  | .fail :: _, files => (files, .error .throw)
  | .entry _ none :: _, files => (files, .error .throw)
  | .entry path (some regular) :: items, files => loop items (if regular then files ++ [path] else files)

/-- `getDirectoryFiles`, io.cpp:49-59. The directory is `none` if the constructor of the iterator throws. -/
def getDirectoryFiles (srt : List Str → List Str) (dir : Option (List Item)) (files : List Str) : List Str × Outcome Unit :=
  match dir with
  | none => (files, .error .throw)
  | some items => match loop items files with
    | (files, .error e) => (files, .error e)
    | (files, .ok ()) => (srt files, .ok ())

/-- `std::tm`, the fields used by the format, io.cpp:62-64. -/
structure Tm where
  year : Nat
  mon : Nat
  mday : Nat
  hour : Nat
  min : Nat
  sec : Nat
  deriving DecidableEq, Repr

/-- The byte of a digit, io.cpp:65. -/
def digit (d : Nat) : UInt8 := UInt8.ofNat (48 + d % 10)

/-- Two decimal digits, io.cpp:65. -/
def two (n : Nat) : Str := [digit (n / 10), digit n]

/-- `std::put_time(&tm, "%Y%m%d_%H%M_%S")` for the years from 1900 to 9999 (`tm_year` counts from 1900, `tm_mon` from 0), io.cpp:65. -/
def putTime (t : Tm) : Str :=
  let year := t.year + 1900
  two (year / 100) ++ two year ++ two (t.mon + 1) ++ two t.mday ++ [95] ++ two t.hour ++ two t.min ++ [95] ++ two t.sec

/-- `generateStampedString`, io.cpp:61-66. `std::localtime` may return a null pointer (`none`), which is dereferenced. -/
def generateStampedString (localtime : Int → Option Tm) (now : Int) (pre post : Str) : Outcome Str :=
  match localtime now with
  | none => .error (.ub .outOfBounds)
  | some t => .ok (pre ++ putTime t ++ post)

end Verif.Io
