import Verif.Text.Macros

/-!
Model of the assertion macros of common/include/rofl/common/macros.h, and C102. An expression is its spelling and the text of its value (`Arg`), a condition its spelling and its value.
`base` is `ROFL_FILENAME(__FILE__)`.
-/
namespace Verif.Text

/-- What a statement does: the text for `std::cerr` and `std::cout` and the argument of `exit`, if it is called, macros.h:57. -/
structure Effect where
  cerr : Str
  cout : Str
  status : Option Int
  deriving DecidableEq

/-- The statement goes on without any effect, macros.h:57. -/
def Effect.none : Effect := ⟨[], [], Option.none⟩

/-- `std::cerr << __FILE__ << "," << __LINE__ << ": assertion failed on " << #COND << std::endl`, macros.h:57, 60, 64, 68, 72, 76. -/
def failed (file : Str) (line : Nat) (cond : Str) : Str := file ++ (",".toList ++ (natStr line ++ (": assertion failed on ".toList ++ (cond ++ "\n".toList))))

/-- `ROFL_ASSERT`, macros.h:57. -/
def assert0 (file : Str) (line : Nat) (cond : Str) (holds : Bool) : Effect := if !holds then ⟨failed file line cond, [], some (-1)⟩ else .none

/-- `ROFL_ASSERT_VAR1`, macros.h:59-61. -/
def assertVar1 (file base : Str) (line : Nat) (cond : Str) (holds : Bool) (x1 : Arg) : Effect :=
  if !holds then ⟨failed file line cond, var1 base line x1, some (-1)⟩ else .none

/-- `ROFL_ASSERT_VAR2`, macros.h:63-65. -/
def assertVar2 (file base : Str) (line : Nat) (cond : Str) (holds : Bool) (x1 x2 : Arg) : Effect :=
  if !holds then ⟨failed file line cond, var2 base line x1 x2, some (-1)⟩ else .none

/-- `ROFL_ASSERT_VAR3`, macros.h:67-69. -/
def assertVar3 (file base : Str) (line : Nat) (cond : Str) (holds : Bool) (x1 x2 x3 : Arg) : Effect :=
  if !holds then ⟨failed file line cond, var3 base line x1 x2 x3, some (-1)⟩ else .none

/-- `ROFL_ASSERT_VAR4`, macros.h:71-73. -/
def assertVar4 (file base : Str) (line : Nat) (cond : Str) (holds : Bool) (x1 x2 x3 x4 : Arg) : Effect :=
  if !holds then ⟨failed file line cond, var4 base line x1 x2 x3 x4, some (-1)⟩ else .none

/-- `ROFL_ASSERT_VAR5`, macros.h:75-77. -/
def assertVar5 (file base : Str) (line : Nat) (cond : Str) (holds : Bool) (x1 x2 x3 x4 x5 : Arg) : Effect :=
  if !holds then ⟨failed file line cond, var5 base line x1 x2 x3 x4 x5, some (-1)⟩ else .none

/-! #### The macro inside an `if` -/

/-- Tokens of a program: `if (c)`, `else`, and a statement without conditions, macros.h:57. -/
inductive Tok
  | cond (c : Bool)
  | orElse
  | act (n : Nat)

/-- Statements, macros.h:57. -/
inductive Stmt
  | act (n : Nat)
  | ite (c : Bool) (s : Stmt)
  | iteElse (c : Bool) (s t : Stmt)
  deriving DecidableEq

/-- The grammar of the language ([stmt.select]), macros.h:57: an `else` belongs to the last `if` before it that can have it. -/
def parse : (fuel : Nat) → List Tok → Option (Stmt × List Tok)
  | 0, _ => none
  | _ + 1, [] => none
  | _ + 1, .act n :: r => some (.act n, r)
  | _ + 1, .orElse :: _ => none
  | fuel + 1, .cond c :: r => do
    let (s, r) ← parse fuel r
    match r with
    | .orElse :: r => do
      let (t, r) ← parse fuel r
      return (.iteElse c s t, r)
    | r => return (.ite c s, r)

/-- The statements that are executed, macros.h:57. -/
def Stmt.run : Stmt → List Nat
  | .act n => [n]
  | .ite c s => if c then s.run else []
  | .iteElse c s t => if c then s.run else t.run

/-- The tokens of `ROFL_ASSERT(x)`, macros.h:57: `if (!(x)) { … }`; the block is the statement 0. -/
def assertToks (x : Bool) : List Tok := [.cond (!x), .act 0]

/-! ### C102 -/

/-- What an assertion should do: nothing if the condition holds, otherwise write the position, the condition and the expressions and end with an error. -/
def AssertSpec (file base : Str) (line : Nat) (cond : Str) (holds : Bool) (xs : List Arg) (e : Effect) : Prop :=
  (holds = true → e.cerr = [] ∧ e.cout = [] ∧ e.status = Option.none) ∧
  (holds = false → e.cerr = file ++ ",".toList ++ natStr line ++ ": assertion failed on ".toList ++ cond ++ "\n".toList ∧ e.cout = (if xs = [] then [] else report base line xs) ∧
    ∃ s, e.status = some s ∧ s % 256 ≠ 0)

/-- C102, full statement: the macros do what they should, and also as the first statement of an `if` with `else`. -/
def C102_statement : Prop := (∀ (file base : Str) (line : Nat) (cond : Str) (holds : Bool) (x1 x2 x3 x4 x5 : Arg), AssertSpec file base line cond holds [] (assert0 file line cond holds) ∧
  AssertSpec file base line cond holds [x1] (assertVar1 file base line cond holds x1) ∧ AssertSpec file base line cond holds [x1, x2] (assertVar2 file base line cond holds x1 x2) ∧
  AssertSpec file base line cond holds [x1, x2, x3] (assertVar3 file base line cond holds x1 x2 x3) ∧
  AssertSpec file base line cond holds [x1, x2, x3, x4] (assertVar4 file base line cond holds x1 x2 x3 x4) ∧
  AssertSpec file base line cond holds [x1, x2, x3, x4, x5] (assertVar5 file base line cond holds x1 x2 x3 x4 x5)) ∧
  ∀ c x : Bool, ((parse 9 (.cond c :: (assertToks x ++ [.orElse, .act 1]))).map fun r => r.1.run) = some (if c then (if x then [] else [0]) else [1])

theorem assert_spec (file base : Str) (line : Nat) (cond : Str) (holds : Bool) (xs : List Arg) (out : Str) (h : out = if xs = [] then [] else report base line xs) :
    AssertSpec file base line cond holds xs (if !holds then ⟨failed file line cond, out, some (-1)⟩ else .none) := by
  cases holds
  · refine ⟨fun h => absurd h (by decide), fun _ => ⟨?_, h, -1, rfl, by decide⟩⟩
    show failed file line cond = _
    unfold failed
    simp only [List.append_assoc]
  · exact ⟨fun _ => ⟨rfl, rfl, rfl⟩, fun h => absurd h (by decide)⟩

/-- C102, part: what the macros do. Missing: an `else` after them, see `C102_else_violated`. -/
theorem C102_assert_partial (file base : Str) (line : Nat) (cond : Str) (holds : Bool) (x1 x2 x3 x4 x5 : Arg) : AssertSpec file base line cond holds [] (assert0 file line cond holds) ∧
    AssertSpec file base line cond holds [x1] (assertVar1 file base line cond holds x1) ∧ AssertSpec file base line cond holds [x1, x2] (assertVar2 file base line cond holds x1 x2) ∧
    AssertSpec file base line cond holds [x1, x2, x3] (assertVar3 file base line cond holds x1 x2 x3) ∧
    AssertSpec file base line cond holds [x1, x2, x3, x4] (assertVar4 file base line cond holds x1 x2 x3 x4) ∧
    AssertSpec file base line cond holds [x1, x2, x3, x4, x5] (assertVar5 file base line cond holds x1 x2 x3 x4 x5) := by
  obtain ⟨h1, h2, h3, h4, h5, -⟩ := C98_report_partial base line x1 x2 x3 x4 x5 x5 x5
  exact ⟨assert_spec file base line cond holds [] [] rfl, assert_spec file base line cond holds [x1] _ h1, assert_spec file base line cond holds [x1, x2] _ h2,
    assert_spec file base line cond holds [x1, x2, x3] _ h3, assert_spec file base line cond holds [x1, x2, x3, x4] _ h4, assert_spec file base line cond holds [x1, x2, x3, x4, x5] _ h5⟩

/-- In `if (c) ROFL_ASSERT(x) else s` the `else` belongs to the macro: `s` is executed when both conditions hold and not when the first one is false, whatever follows. -/
theorem C102_else_violated (c x : Bool) (rest : List Tok) (hr : ∀ r, rest ≠ .orElse :: r) :
    ((parse 9 (.cond c :: (assertToks x ++ (.orElse :: .act 1 :: rest)))).map fun r => r.1.run) = some (if c then (if x then [1] else [0]) else []) := by
  cases rest with
  | nil => cases c <;> cases x <;> rfl
  | cons t r =>
    cases t with
    | orElse => exact absurd rfl (hr r)
    | cond b => cases c <;> cases x <;> rfl
    | act n => cases c <;> cases x <;> rfl

theorem C102_violated : ¬ C102_statement := by
  rintro ⟨-, h⟩
  have := h false true
  rw [show (.cond false :: (assertToks true ++ [.orElse, .act 1])) = (.cond false :: (assertToks true ++ (.orElse :: .act 1 :: []))) from rfl, C102_else_violated _ _ _ (by simp)] at this
  simp at this

example : assertVar2 "/a/f.cpp".toList "f.cpp".toList 7 "a < b".toList false ⟨"a".toList, "3".toList⟩ ⟨"b".toList, "2".toList⟩ =
    ⟨"/a/f.cpp,7: assertion failed on a < b\n".toList, "f.cpp,7: a 3, b 2\n".toList, some (-1)⟩ := by decide +kernel

end Verif.Text
