import Verif.LutPrint.Model
import Mathlib.Data.Rat.Defs
import Mathlib.Algebra.Order.Field.Basic
import Mathlib.Data.Rat.Floor
import Mathlib.Tactic.Ring
import Mathlib.Tactic.Linarith

/-!
C93: the rows printed by `PnebiLUT::printLUT`.
-/
namespace Verif.LutPrint
open Verif Functions

variable {K : Type}

/-- The row of entry `i` of the table: its abscissa and its values of order at most `k`. -/
def Shows (l : Lut K) (k : Int) (i : Nat) (r : Row K) : Prop :=
  r.index = i ∧ ∃ p, l.lut[i]? = some p ∧ r.x = p.x ∧ r.vals.length = min (k + 1).toNat p.y.len ∧ ∀ j < r.vals.length, r.vals[j]? = some (p.y.val j)

/-- The declared property: for a table with at least `n ≥ 1` entries, `n` rows, of different entries. -/
def C93_statement (K : Type) : Prop := ∀ (l : Lut K) (n k : Int), 1 ≤ n → n ≤ l.lut.length → l.lut.length < 2 ^ 30 →
  ∃ rows, printLUT l n k = .ok rows ∧ rows.length = n ∧ (rows.map Row.index).Nodup

theorem shows_vals {l : Lut K} {k : Int} {i : Nat} {p : Point K} (h : l.lut[i]? = some p) : Shows l k i ⟨i, p.x, vals p k⟩ := by
  refine ⟨rfl, p, h, rfl, by simp [vals], ?_⟩
  intro j hj
  simp only [vals, List.length_map, List.length_range] at hj
  simp only [vals]
  rw [List.getElem?_map, List.getElem?_range hj]
  rfl

theorem toSize_nat {i : Nat} (h : i < 2 ^ 64) : Cxx.toSize (i : Int) = i := by
  unfold Cxx.toSize
  rw [Int.emod_eq_of_lt (by omega) (by omega)]
  rfl

theorem printLoop_spec (l : Lut K) (k : Int) {c : Nat} (hc : 1 ≤ c) (hl : l.lut.length < 2 ^ 30) (hc' : c < 2 ^ 30) : ∀ (fuel i : Nat), 0 < fuel → l.lut.length < fuel + i → i < 2 ^ 31 →
    ∃ rows, printLoop l.lut k c fuel i = .ok rows ∧ rows.length = (l.lut.length - i + (c - 1)) / c ∧ ∀ t (h : t < rows.length), Shows l k (i + t * c) rows[t] := by
  intro fuel
  induction fuel with
  | zero =>
    intro i h0
    omega
  | succ fuel ih =>
    intro i h0 h1 h2
    unfold printLoop
    rw [toSize_nat (by omega)]
    by_cases hi : i < l.lut.length
    · rw [if_pos hi]
      have he : l.lut[i]? = some l.lut[i] := List.getElem?_eq_getElem hi
      rw [he]
      dsimp only
      have hint : Cxx.int ((i : Int) + c) = .ok ((i + c : Nat) : Int) := by
        unfold Cxx.int
        rw [if_pos (by omega)]
        push_cast
        rfl
      rw [hint]
      obtain ⟨rows, hr, hlen, hs⟩ := ih (i + c) (by omega) (by omega) (by omega)
      refine ⟨⟨i, l.lut[i].x, vals l.lut[i] k⟩ :: rows, ?_, ?_, ?_⟩
      · show (Except.bind _ _ : Outcome _) = _
        simp only [Except.bind, hr, bind, pure, Except.pure]
      · rw [List.length_cons, hlen]
        by_cases hic : i + c ≤ l.lut.length
        · rw [show l.lut.length - i + (c - 1) = (l.lut.length - (i + c) + (c - 1)) + c by omega, Nat.add_div_right _ (by omega)]
        · rw [show l.lut.length - (i + c) = 0 by omega, Nat.div_eq_of_lt (by omega : 0 + (c - 1) < c)]
          symm
          rw [Nat.div_eq_iff (by omega)]
          omega
      · intro t ht
        cases t with
        | zero =>
          simp only [Nat.zero_mul, Nat.add_zero, List.getElem_cons_zero]
          exact shows_vals he
        | succ t =>
          simp only [List.getElem_cons_succ]
          have := hs t (by simpa using ht)
          rwa [show i + c + t * c = i + (t + 1) * c by ring] at this
    · rw [if_neg hi]
      refine ⟨[], rfl, ?_, fun t h => by simp at h⟩
      rw [show l.lut.length - i = 0 by omega, List.length_nil, Nat.div_eq_of_lt (by omega)]

/-- The step between the rows. -/
def stepOf (size n : Nat) : Nat := max (size / n) 1

/-- C93, partial: what is printed. For a table of `s ≥ 1` entries and `n ≥ 1` the rows are those of the entries 0, c, 2c, … below `s`, with c the quotient s/n but at least one,
and then the row of the last entry. -/
theorem C93_rows_partial (l : Lut K) (n : Nat) (k : Int) (hn : 1 ≤ n) (hn' : n < 2 ^ 31) (h0 : l.lut ≠ []) (hl : l.lut.length < 2 ^ 30) :
    ∃ rows last, printLUT l n k = .ok (rows ++ [last]) ∧ rows.length = (l.lut.length + (stepOf l.lut.length n - 1)) / stepOf l.lut.length n ∧
      (∀ t (h : t < rows.length), Shows l k (t * stepOf l.lut.length n) rows[t]) ∧ Shows l k (l.lut.length - 1) last := by
  have hlp : 0 < l.lut.length := List.length_pos_iff.2 h0
  have hdl : l.lut.length / n ≤ l.lut.length := Nat.div_le_self _ _
  have hof : Cxx.ofSize (l.lut.length / n) = (l.lut.length / n : Nat) := by
    unfold Cxx.ofSize
    generalize l.lut.length / n = q at *
    rw [Int.bmod_eq_of_le (by omega) (by omega)]
  have hstep : max (Cxx.ofSize (l.lut.length / n)) 1 = (stepOf l.lut.length n : Nat) := by
    rw [hof]
    unfold stepOf
    push_cast
    rfl
  have hs1 : 1 ≤ stepOf l.lut.length n := le_max_right _ _
  have hs2 : stepOf l.lut.length n < 2 ^ 30 := by unfold stepOf; omega
  obtain ⟨rows, hr, hlen, hs⟩ := printLoop_spec l k hs1 hl hs2 (l.lut.length + 1) 0 (by omega) (by omega) (by omega)
  have hlast : l.lut.getLast? = some l.lut[l.lut.length - 1] := by rw [List.getLast?_eq_getElem?, List.getElem?_eq_getElem]
  refine ⟨rows, ⟨l.lut.length - 1, l.lut[l.lut.length - 1].x, vals l.lut[l.lut.length - 1] k⟩, ?_, by simpa using hlen, fun t h => by simpa using hs t h, shows_vals (List.getElem?_eq_getElem _)⟩
  unfold printLUT
  rw [toSize_nat (by omega), if_neg (by omega), hstep]
  have hr' : printLoop l.lut k (stepOf l.lut.length n : Nat) (l.lut.length + 1) 0 = .ok rows := hr
  show (Except.bind _ _ : Outcome _) = _
  rw [hr', hlast]
  rfl

/-- C93 fails: with 1 ≤ n ≤ size more than `n` rows are printed, but at most 2n. -/
theorem C93_count_violated (l : Lut K) (n : Nat) (k : Int) (hn : 1 ≤ n) (hn' : n ≤ l.lut.length) (hl : l.lut.length < 2 ^ 30) :
    ∃ rows, printLUT l n k = .ok rows ∧ n < rows.length ∧ rows.length ≤ 2 * n := by
  have h0 : l.lut ≠ [] := List.length_pos_iff.1 (by omega)
  obtain ⟨rows, last, h, hlen, -, -⟩ := C93_rows_partial l n k hn (by omega) h0 hl
  refine ⟨_, h, ?_⟩
  rw [List.length_append, List.length_singleton, hlen]
  have hd : 1 ≤ l.lut.length / n := (Nat.one_le_div_iff (by omega)).2 hn'
  have hst : stepOf l.lut.length n = l.lut.length / n := max_eq_left hd
  rw [hst]
  generalize hs : l.lut.length = s at *
  obtain ⟨c, hc⟩ : ∃ c, c = s / n := ⟨_, rfl⟩
  rw [← hc] at hd ⊢
  have h1 : c * n ≤ s := by rw [hc]; exact Nat.div_mul_le_self s n
  have h2 : s < (c + 1) * n := by
    rw [hc]
    have := Nat.lt_div_mul_add (a := s) (b := n) (by omega)
    nlinarith
  constructor
  · have : n ≤ (s + (c - 1)) / c := by
      rw [Nat.le_div_iff_mul_le (by omega)]
      nlinarith
    omega
  · have : (s + (c - 1)) / c < 2 * n := by
      rw [Nat.div_lt_iff_lt_mul (by omega)]
      nlinarith [Nat.sub_add_cancel hd]
    omega

/-- C93, the other cases: `n = 0` divides by zero, an empty table has no last entry; `n < 0` is converted to a large number. -/
theorem C93_undefined (l : Lut K) (n k : Int) : printLUT l 0 k = .error (.ub .divZero) ∧
    (l.lut = [] → -2 ^ 31 ≤ n → n < 2 ^ 31 → n ≠ 0 → printLUT l n k = .error (.ub .outOfBounds)) := by
  refine ⟨rfl, fun h0 h1 h2 h3 => ?_⟩
  unfold printLUT
  have : Cxx.toSize n ≠ 0 := by unfold Cxx.toSize; omega
  rw [if_neg this, h0]
  simp [printLoop, bind, Except.bind]

theorem C93_violated : ¬ C93_statement ℚ := by
  intro h
  obtain ⟨rows, hr, hl, -⟩ := h ⟨[⟨0, ⟨1, fun _ => 2⟩⟩], 0⟩ 1 0 (by decide) (by decide) (by decide)
  obtain ⟨rows', hr', h1, -⟩ := C93_count_violated (K := ℚ) ⟨[⟨0, ⟨1, fun _ => 2⟩⟩], 0⟩ 1 0 le_rfl (by decide) (by decide)
  have : rows = rows' := by
    have := hr.symm.trans hr'
    exact Except.ok.inj this
  rw [this] at hl
  omega

-- a table of three entries, two rows asked, four printed, the last one twice
example : (printLUT (K := ℚ) ⟨[⟨0, ⟨2, fun _ => 2⟩⟩, ⟨1, ⟨2, fun _ => 1⟩⟩, ⟨3, ⟨2, fun j => j⟩⟩], 1⟩ 2 1).map (fun r => r.map fun x => (x.index, x.x, x.vals)) =
    .ok [(0, 0, [2, 2]), (1, 1, [1, 1]), (2, 3, [0, 1]), (2, 3, [0, 1])] := by decide +kernel

end Verif.LutPrint
