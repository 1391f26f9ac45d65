import Verif.Functions.PnebiProps

/-! Property theorems C54, exact form (see properties.jsonl): which tables can be built and which orders can be evaluated. -/
namespace Verif.Functions
variable {K : Type} [Field K] [LinearOrder K] [IsStrictOrderedRing K] [FloorRing K]

/-- C54, exact condition for the construction: with a tolerance that gives a number of points in `int`, the table is built exactly for the orders from 1 on. -/
theorem C54_build_iff (L : Libm K) (n : ℕ) (tol : K) (ht : 0 < tol) (h : ⌈2 / tol⌉ + 20 ≤ 2147483647) : (∃ l, Lut.init L n tol = .ok l) ↔ 1 ≤ n := by
  constructor
  · rintro ⟨l, e⟩
    by_contra hn
    obtain rfl : n = 0 := by omega
    rw [C54_zero_violated L tol ht h] at e
    cases e
  · intro hn
    obtain ⟨l, e, -⟩ := C54_table_partial L n hn tol ht h
    exact ⟨l, e⟩

/-- C54, exact condition for the evaluation: a value is returned exactly for the orders from 0 to the one below that of the table; for all others, negative ones included, the program is ended. -/
theorem C54_eval_iff (L : Libm K) (n : ℕ) (hn : 1 ≤ n) (l : Lut K) (h : Built L n l) (k : ℤ) (x : K) :
    ((∃ v, l.eval k x = .ok v) ↔ 0 ≤ k ∧ k < n) ∧ (¬ (0 ≤ k ∧ k < n) → l.eval k x = .error .abort) := by
  have bad : ¬ (0 ≤ k ∧ k < n) → l.eval k x = .error .abort := by
    intro hk
    obtain ⟨he, ho, -⟩ := built_bracket hn h x
    unfold Lut.eval
    rw [he]
    simp only [Bool.false_eq_true, if_false]
    rw [show Cxx.assert (0 ≤ k ∧ k < l.orderMax) = .error .abort from if_neg (by rw [ho]; exact hk)]
    rfl
  refine ⟨⟨?_, ?_⟩, bad⟩
  · rintro ⟨v, e⟩
    by_contra hk
    rw [bad hk] at e
    cases e
  · rintro ⟨h0, h1⟩
    obtain ⟨m, rfl⟩ := Int.eq_ofNat_of_zero_le h0
    obtain ⟨v, i, hi, e, -⟩ := C54_eval_partial L n hn l h m (by omega) x
    exact ⟨v, e⟩

/-- C54: the values are even in the argument, for every table, order and content of the output vector. -/
theorem C54_even (l : Lut K) (k : ℤ) (x : K) (y : Vec K) : l.eval k (-x) = l.eval k x ∧ l.evalVec (-x) y = l.evalVec x y := by
  have e : fabs (-x) = fabs x := by
    unfold fabs
    rcases lt_trichotomy x 0 with h | h | h
    · rw [if_neg (by linarith), if_pos h]
    · subst h; simp
    · rw [if_pos (by linarith), if_neg (by linarith), neg_neg]
  unfold Lut.eval Lut.evalVec
  rw [e]
  exact ⟨rfl, rfl⟩

/-- Example: in a table of order 1 only the order 0 can be evaluated. -/
example : ((Lut.init toy 1 2).bind fun l => .ok ([-1, 0, 1].map fun k => match l.eval k 3 with | .ok _ => true | .error _ => false)) = .ok [false, true, false] := by decide +kernel

end Verif.Functions
