import Verif.Bessel.VectorProps

/-!
The Bessel functions are the correlations of the sequence (x/2)^j / j!: hence the derivative of each `pnebi k` is bounded by the one of `pnebi 0`, and
`pnebi 0` is convex.
-/
namespace Verif.Bessel
open scoped Nat

/-- The sequence whose correlations are the Bessel functions. -/
noncomputable def pois (x : ℝ) (j : ℕ) : ℝ := (x / 2) ^ j / (j ! : ℝ)

theorem pois_mul (x : ℝ) (j k : ℕ) : pois x j * pois x (j + k) = (x / 2) ^ (2 * j + k) / (j ! * (j + k)! : ℝ) := by
  rw [pois, pois, div_mul_div_comm, ← pow_add]
  congr 2
  ring

theorem summable_pois (x : ℝ) (k : ℕ) : Summable fun j => pois x j * pois x (j + k) := by
  have h := (summable_J k (x ^ 2 / 4)).mul_left ((x / 2) ^ k)
  refine h.congr fun m => ?_
  rw [pois_mul, pow_add, pow_mul, show (x / 2) ^ 2 = x ^ 2 / 4 by ring]
  ring

theorem besselI_pois (x : ℝ) (k : ℕ) : besselI k x = ∑' j, pois x j * pois x (j + k) :=
  tsum_congr fun j => (pois_mul x j k).symm

/-- The differences of the sequence. -/
noncomputable def dif (x : ℝ) : ℕ → ℝ
  | 0 => pois x 0
  | j + 1 => pois x (j + 1) - pois x j

theorem hasSum_dif (x : ℝ) (k : ℕ) : HasSum (fun j => dif x j * dif x (j + (k + 1))) (2 * besselI (k + 1) x - besselI k x - besselI (k + 2) x) := by
  rw [← hasSum_nat_add_iff' 1]
  have h1 := ((hasSum_nat_add_iff' 1).2 (summable_pois x (k + 1)).hasSum)
  have h0 := ((hasSum_nat_add_iff' 1).2 (summable_pois x k).hasSum)
  have g1 := (summable_pois x (k + 1)).hasSum
  have g2 := (summable_pois x (k + 2)).hasSum
  rw [← besselI_pois] at h1 h0 g1 g2
  have h := ((h1.sub h0).sub g2).add g1
  simp only [Finset.sum_range_one, zero_add] at h ⊢
  have e1 : (fun j => dif x (j + 1) * dif x (j + 1 + (k + 1))) = fun j => pois x (j + 1) * pois x (j + 1 + (k + 1)) - pois x (j + 1) * pois x (j + 1 + k) -
      pois x j * pois x (j + (k + 2)) + pois x j * pois x (j + (k + 1)) := by
    funext j
    have : j + 1 + (k + 1) = (j + 1 + k) + 1 := by omega
    rw [this, dif, dif, show j + (k + 2) = j + 1 + k + 1 by omega, show j + (k + 1) = j + 1 + k by omega]
    ring
  rw [e1]
  convert h using 1
  simp only [dif]
  ring

theorem hasSum_dif_sq (x : ℝ) : HasSum (fun j => dif x j * dif x j) (2 * besselI 0 x - 2 * besselI 1 x) := by
  rw [← hasSum_nat_add_iff' 1]
  have h0 := ((hasSum_nat_add_iff' 1).2 (summable_pois x 0).hasSum)
  have g0 := (summable_pois x 0).hasSum
  have g1 := (summable_pois x 1).hasSum
  rw [← besselI_pois] at h0 g0 g1
  have h := (h0.sub (g1.mul_left 2)).add g0
  simp only [Finset.sum_range_one, add_zero] at h ⊢
  have e1 : (fun j => dif x (j + 1) * dif x (j + 1)) = fun j => pois x (j + 1) * pois x (j + 1) - 2 * (pois x j * pois x (j + 1)) + pois x j * pois x j := by
    funext j
    rw [dif]
    ring
  rw [e1]
  convert h using 1
  simp only [dif]
  ring

theorem correlation {a b : ℕ → ℝ} {D S T : ℝ} (h : HasSum (fun j => a j * b j) D) (ha : HasSum (fun j => a j * a j) S) (hb : HasSum (fun j => b j * b j) T)
    (hT : T ≤ S) : |D| ≤ S := by
  have hp : HasSum (fun j => a j * a j + 2 * (a j * b j) + b j * b j) (S + 2 * D + T) := (ha.add (h.mul_left 2)).add hb
  have hm : HasSum (fun j => a j * a j - 2 * (a j * b j) + b j * b j) (S - 2 * D + T) := (ha.sub (h.mul_left 2)).add hb
  have h1 := hp.nonneg fun j => by nlinarith [sq_nonneg (a j + b j)]
  have h2 := hm.nonneg fun j => by nlinarith [sq_nonneg (a j - b j)]
  rw [abs_le]
  constructor <;> linarith

theorem shift_le {a : ℕ → ℝ} {S : ℝ} (h : HasSum (fun j => a j * a j) S) (k : ℕ) : ∃ T, HasSum (fun j => a (j + k) * a (j + k)) T ∧ T ≤ S := by
  have h1 := (hasSum_nat_add_iff' k).2 h
  refine ⟨_, h1, ?_⟩
  have : 0 ≤ ∑ i ∈ Finset.range k, a i * a i := Finset.sum_nonneg fun i _ => mul_self_nonneg _
  linarith

/-- The second difference of the orders is largest, in absolute value, at the order 0. -/
theorem second_diff (x : ℝ) (k : ℕ) : |2 * besselI (k + 1) x - besselI k x - besselI (k + 2) x| ≤ 2 * besselI 0 x - 2 * besselI 1 x := by
  have h := hasSum_dif x k
  have hs := hasSum_dif_sq x
  generalize dif x = a at h hs
  obtain ⟨T, hT, hle⟩ := shift_le hs (k + 1)
  exact correlation h hs hT hle

theorem hasDerivAt_pnebi_succ (k : ℕ) (x : ℝ) : HasDerivAt (pnebi (k + 1)) ((pnebi k x + pnebi (k + 2) x) / 2 - pnebi (k + 1) x) x := by
  have h1 : HasDerivAt (fun x : ℝ => 2 * Real.exp (-x)) (-(2 * Real.exp (-x))) x := by
    refine ((hasDerivAt_id x).neg.exp.const_mul 2).congr_deriv ?_
    simp
  refine (h1.mul (hasDerivAt_besselI_succ k x)).congr_deriv ?_
  simp only [pnebi]
  ring

/-- The derivative of any order is bounded by the one of the order 0. -/
theorem pnebi_slope (k : ℕ) (x : ℝ) : |(pnebi k x + pnebi (k + 2) x) / 2 - pnebi (k + 1) x| ≤ pnebi 0 x - pnebi 1 x := by
  have h := second_diff x k
  have he : 0 < Real.exp (-x) := Real.exp_pos _
  have e1 : (pnebi k x + pnebi (k + 2) x) / 2 - pnebi (k + 1) x = -(Real.exp (-x) * (2 * besselI (k + 1) x - besselI k x - besselI (k + 2) x)) := by
    simp only [pnebi]
    ring
  have e2 : pnebi 0 x - pnebi 1 x = Real.exp (-x) * (2 * besselI 0 x - 2 * besselI 1 x) := by
    simp only [pnebi]
    ring
  rw [e1, e2, abs_neg, abs_mul, abs_of_pos he]
  exact mul_le_mul_of_nonneg_left h he.le

theorem pnebi_slope_nonneg (x : ℝ) : 0 ≤ pnebi 0 x - pnebi 1 x := (abs_nonneg _).trans (pnebi_slope 0 x)

/-- The change of any order is at most the one of the order 0. -/
theorem pnebi_change (k : ℕ) {x y : ℝ} (hxy : x ≤ y) : |pnebi k y - pnebi k x| ≤ pnebi 0 x - pnebi 0 y := by
  cases k with
  | zero =>
    have := le_of_deriv_nonneg hxy (f := fun x => -pnebi 0 x) (fun z _ => (hasDerivAt_pnebi_zero z).neg) fun z _ => by
      have := pnebi_slope_nonneg z
      linarith
    rw [abs_sub_comm, abs_of_nonneg (by linarith)]
  | succ k =>
    have h1 := le_of_deriv_nonneg hxy (f := fun x => pnebi (k + 1) x - pnebi 0 x) (fun z _ => (hasDerivAt_pnebi_succ k z).sub (hasDerivAt_pnebi_zero z))
      fun z _ => by
        have := (abs_le.1 (pnebi_slope k z)).1
        linarith
    have h2 := le_of_deriv_nonneg hxy (f := fun x => -pnebi (k + 1) x - pnebi 0 x)
      (fun z _ => (hasDerivAt_pnebi_succ k z).neg.sub (hasDerivAt_pnebi_zero z))
      fun z _ => by
        have := (abs_le.1 (pnebi_slope k z)).2
        linarith
    rw [abs_le]
    constructor <;> linarith

/-- The order 0 is convex: its slope decreases. -/
theorem pnebi_slope_anti {x y : ℝ} (hxy : x ≤ y) : pnebi 0 y - pnebi 1 y ≤ pnebi 0 x - pnebi 1 x := by
  have := le_of_deriv_nonneg hxy (f := fun x => pnebi 1 x - pnebi 0 x) (fun z _ => (hasDerivAt_pnebi_succ 0 z).sub (hasDerivAt_pnebi_zero z)) fun z _ => by
    have := (abs_le.1 (pnebi_slope 0 z)).1
    rw [zero_add] at *
    linarith
  linarith

/-- The drop of the order 0 is between the slopes at the ends. -/
theorem pnebi_drop {x y : ℝ} (hxy : x ≤ y) : (pnebi 0 y - pnebi 1 y) * (y - x) ≤ pnebi 0 x - pnebi 0 y ∧ pnebi 0 x - pnebi 0 y ≤ (pnebi 0 x - pnebi 1 x) * (y - x) := by
  constructor
  · have := le_of_deriv_nonneg hxy (f := fun z => -pnebi 0 z - (pnebi 0 y - pnebi 1 y) * z)
      (fun z _ => (hasDerivAt_pnebi_zero z).neg.sub ((hasDerivAt_id z).const_mul _)) fun z hz => by
        have := pnebi_slope_anti hz.2
        linarith
    linarith
  · have := le_of_deriv_nonneg hxy (f := fun z => pnebi 0 z + (pnebi 0 x - pnebi 1 x) * z)
      (fun z _ => (hasDerivAt_pnebi_zero z).add ((hasDerivAt_id z).const_mul _)) fun z hz => by
        have := pnebi_slope_anti hz.1
        linarith
    linarith

-- the orders 0 and 1 at 0: the drop per unit is at most 2
example (y : ℝ) (hy : 0 ≤ y) : 2 - pnebi 0 y ≤ 2 * y := by
  have := (pnebi_drop hy).2
  have e0 : pnebi 0 0 = 2 := by rw [pnebi, besselI_zero]; norm_num
  have e1 : pnebi 1 0 = 0 := by rw [pnebi, besselI_zero]; norm_num
  rw [e0, e1] at this
  linarith

end Verif.Bessel
