import Verif.Text.Model

/-!
Model of the output macros of common/include/rofl/common/macros.h: the text written to `std::cout`. An argument of a macro is its spelling (`#X`) and the text of its value (`<< (X)`).
-/
namespace Verif.Text

/-- An argument of a macro: `#X1` and the output of `(X1)`, macros.h:34. -/
structure Arg where
  name : Str
  value : Str

/-- The beginning of the line, macros.h:34: `ROFL_FILENAME(__FILE__) << "," << __LINE__ << ": "`. -/
def here (file : Str) (line : Nat) : Str := file ++ (",".toList ++ (natStr line ++ ": ".toList))

/-- `#X << " " << (X)`, macros.h:34. -/
def item (x y : Arg) : Str := x.name ++ (" ".toList ++ y.value)

/-- `ROFL_VAR1`, macros.h:34. -/
def var1 (file : Str) (line : Nat) (x1 : Arg) : Str := here file line ++ (item x1 x1 ++ "\n".toList)

/-- `ROFL_VAR2`, macros.h:36-37. -/
def var2 (file : Str) (line : Nat) (x1 x2 : Arg) : Str := here file line ++ (item x1 x1 ++ (", ".toList ++ (item x2 x2 ++ "\n".toList)))

/-- `ROFL_VAR3`, macros.h:39-40. -/
def var3 (file : Str) (line : Nat) (x1 x2 x3 : Arg) : Str :=
  here file line ++ (item x1 x1 ++ (", ".toList ++ (item x2 x2 ++ (", ".toList ++ (item x3 x3 ++ "\n".toList)))))

/-- `ROFL_VAR4`, macros.h:42-43. -/
def var4 (file : Str) (line : Nat) (x1 x2 x3 x4 : Arg) : Str :=
  here file line ++ (item x1 x1 ++ (", ".toList ++ (item x2 x2 ++ (", ".toList ++ (item x3 x3 ++ (", ".toList ++ (item x4 x4 ++ "\n".toList)))))))

/-- `ROFL_VAR5`, macros.h:45-47. -/
def var5 (file : Str) (line : Nat) (x1 x2 x3 x4 x5 : Arg) : Str :=
  here file line ++ (item x1 x1 ++ (", ".toList ++ (item x2 x2 ++ (", ".toList ++ (item x3 x3 ++ (", ".toList ++ (item x4 x4 ++ (", ".toList ++ (item x5 x5 ++ "\n".toList)))))))))

/-- `ROFL_VAR6`, macros.h:49-51. -/
def var6 (file : Str) (line : Nat) (x1 x2 x3 x4 x5 x6 : Arg) : Str :=
  here file line ++ (item x1 x1 ++ (", ".toList ++ (item x2 x2 ++ (", ".toList ++ (item x3 x3 ++ (", ".toList ++ (item x4 x4 ++ (", ".toList ++ (item x5 x5 ++
    (", ".toList ++ (item x6 x6 ++ "\n".toList)))))))))))

/-- `ROFL_VAR7`, macros.h:53-55: `(#X6) << " " << (X7)`. -/
def var7 (file : Str) (line : Nat) (x1 x2 x3 x4 x5 x6 x7 : Arg) : Str :=
  here file line ++ (item x1 x1 ++ (", ".toList ++ (item x2 x2 ++ (", ".toList ++ (item x3 x3 ++ (", ".toList ++ (item x4 x4 ++ (", ".toList ++ (item x5 x5 ++
    (", ".toList ++ (item x6 x7 ++ (", ".toList ++ (item x7 x7 ++ "\n".toList)))))))))))))

/-! ### C98 -/

/-- What the macros should write: the position and each expression with its value. -/
def report (file : Str) (line : Nat) (xs : List Arg) : Str :=
  file ++ ",".toList ++ natStr line ++ ": ".toList ++ (", ".toList).intercalate (xs.map fun x => x.name ++ " ".toList ++ x.value) ++ "\n".toList

theorem intercalate_cons (sep a b : Str) (l : List Str) : sep.intercalate (a :: b :: l) = a ++ (sep ++ sep.intercalate (b :: l)) := by
  simp [List.intercalate]

theorem intercalate_one (sep a : Str) : sep.intercalate [a] = a := by
  simp [List.intercalate]

/-- C98, full statement. -/
def C98_statement : Prop := ∀ (file : Str) (line : Nat) (x1 x2 x3 x4 x5 x6 x7 : Arg), var1 file line x1 = report file line [x1] ∧ var2 file line x1 x2 = report file line [x1, x2] ∧
  var3 file line x1 x2 x3 = report file line [x1, x2, x3] ∧ var4 file line x1 x2 x3 x4 = report file line [x1, x2, x3, x4] ∧
  var5 file line x1 x2 x3 x4 x5 = report file line [x1, x2, x3, x4, x5] ∧ var6 file line x1 x2 x3 x4 x5 x6 = report file line [x1, x2, x3, x4, x5, x6] ∧
  var7 file line x1 x2 x3 x4 x5 x6 x7 = report file line [x1, x2, x3, x4, x5, x6, x7]

/-- C98, partial: the macros of up to six expressions write each expression with its value; that of seven does it exactly when the sixth and the seventh value have the same text.
Missing: seven expressions. -/
theorem C98_report_partial (file : Str) (line : Nat) (x1 x2 x3 x4 x5 x6 x7 : Arg) : var1 file line x1 = report file line [x1] ∧ var2 file line x1 x2 = report file line [x1, x2] ∧
    var3 file line x1 x2 x3 = report file line [x1, x2, x3] ∧ var4 file line x1 x2 x3 x4 = report file line [x1, x2, x3, x4] ∧
    var5 file line x1 x2 x3 x4 x5 = report file line [x1, x2, x3, x4, x5] ∧ var6 file line x1 x2 x3 x4 x5 x6 = report file line [x1, x2, x3, x4, x5, x6] ∧
    (var7 file line x1 x2 x3 x4 x5 x6 x7 = report file line [x1, x2, x3, x4, x5, x6, x7] ↔ x6.value = x7.value) := by
  refine ⟨?_, ?_, ?_, ?_, ?_, ?_, ?_⟩
  · simp only [var1, report, here, item, List.map, intercalate_one, List.append_assoc]
  · simp only [var2, report, here, item, List.map, intercalate_cons, intercalate_one, List.append_assoc]
  · simp only [var3, report, here, item, List.map, intercalate_cons, intercalate_one, List.append_assoc]
  · simp only [var4, report, here, item, List.map, intercalate_cons, intercalate_one, List.append_assoc]
  · simp only [var5, report, here, item, List.map, intercalate_cons, intercalate_one, List.append_assoc]
  · simp only [var6, report, here, item, List.map, intercalate_cons, intercalate_one, List.append_assoc]
  · simp only [var7, report, here, item, List.map, intercalate_cons, intercalate_one, List.append_assoc, List.append_cancel_left_eq]
    constructor
    · intro h
      exact (List.append_cancel_right h).symm
    · intro h
      rw [h]

/-- C98 does not hold: with the values 1, …, 7 the macro of seven expressions writes 7 beside the sixth. -/
theorem C98_seven_violated : var7 "f.cpp".toList 12 ⟨['a'], ['1']⟩ ⟨['b'], ['2']⟩ ⟨['c'], ['3']⟩ ⟨['d'], ['4']⟩ ⟨['e'], ['5']⟩ ⟨['f'], ['6']⟩ ⟨['g'], ['7']⟩ =
    "f.cpp,12: a 1, b 2, c 3, d 4, e 5, f 7, g 7\n".toList := by decide +kernel

theorem C98_violated : ¬ C98_statement := by
  intro h
  have := ((C98_report_partial [] 0 ⟨[], []⟩ ⟨[], []⟩ ⟨[], []⟩ ⟨[], []⟩ ⟨[], []⟩ ⟨[], ['6']⟩ ⟨[], ['7']⟩).2.2.2.2.2.2).1
    (h [] 0 ⟨[], []⟩ ⟨[], []⟩ ⟨[], []⟩ ⟨[], []⟩ ⟨[], []⟩ ⟨[], ['6']⟩ ⟨[], ['7']⟩).2.2.2.2.2.2
  simp at this

example : report "f.cpp".toList 12 [⟨['a'], ['1']⟩, ⟨['b'], ['2']⟩] = "f.cpp,12: a 1, b 2\n".toList := by decide +kernel

end Verif.Text
