import Verif.Text.Assert

/-! Property theorems C102, exact form (see properties.jsonl): where an assertion inside an `if` does what it should. -/
namespace Verif.Text

/-- C102, exact condition: `if (c) ROFL_ASSERT(x) else s` executes what it should exactly when `c` holds and `x` does not; in that case the program ends. -/
theorem C102_else_iff (c x : Bool) (rest : List Tok) (hr : ∀ r, rest ≠ .orElse :: r) :
    ((parse 9 (.cond c :: (assertToks x ++ (.orElse :: .act 1 :: rest)))).map fun r => r.1.run) = some (if c then (if x then [] else [0]) else [1]) ↔ c = true ∧ x = false := by
  rw [C102_else_violated c x rest hr]
  cases c <;> cases x <;> simp

theorem parse_assert (x : Bool) (rest : List Tok) (hr : ∀ r, rest ≠ .orElse :: r) (fuel : Nat) : parse (fuel + 2) (assertToks x ++ rest) = some (.ite (!x) (.act 0), rest) := by
  cases rest with
  | nil => rfl
  | cons t r =>
    cases t with
    | orElse => exact absurd rfl (hr r)
    | cond b => rfl
    | act n => rfl

/-- C102: without an `else` after it, an assertion below any number of conditions ends the program exactly when all of them hold and its own does not, and does nothing else. -/
theorem C102_nested (cs : List Bool) (x : Bool) (rest : List Tok) (hr : ∀ r, rest ≠ .orElse :: r) (fuel : Nat) (hf : cs.length + 2 ≤ fuel) :
    ∃ s, parse fuel (cs.map .cond ++ (assertToks x ++ rest)) = some (s, rest) ∧ s.run = if (∀ c ∈ cs, c = true) ∧ x = false then [0] else [] := by
  induction cs generalizing fuel with
  | nil =>
    obtain ⟨k, rfl⟩ : ∃ k, fuel = k + 2 := ⟨fuel - 2, by simp at hf; omega⟩
    exact ⟨_, parse_assert x rest hr k, by cases x <;> simp [Stmt.run]⟩
  | cons c cs ih =>
    obtain ⟨k, rfl⟩ : ∃ k, fuel = k + 1 := ⟨fuel - 1, by simp at hf; omega⟩
    obtain ⟨s, e, hs⟩ := ih k (by simp at hf; omega)
    refine ⟨.ite c s, ?_, ?_⟩
    · show parse (k + 1) (.cond c :: (cs.map .cond ++ (assertToks x ++ rest))) = _
      rw [parse, e]
      cases rest with
      | nil => rfl
      | cons t r =>
        cases t with
        | orElse => exact absurd rfl (hr r)
        | cond b => rfl
        | act n => rfl
    · rw [Stmt.run, hs]
      cases c <;> simp

/-- Example: `if (true) if (true) ROFL_ASSERT(false) s`. -/
example : (parse 9 ([true, true].map .cond ++ (assertToks false ++ [.act 5]))).map (fun r => r.1.run) = some [0] := by decide +kernel

end Verif.Text
