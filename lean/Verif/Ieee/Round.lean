import Mathlib.Data.Real.Basic
import Mathlib.Data.Nat.Log
import Mathlib.Tactic.Linarith
import Mathlib.Tactic.Ring
import Mathlib.Tactic.FieldSimp
import Mathlib.Tactic.Positivity
import Mathlib.Tactic.NormNum
import Mathlib.Algebra.Order.Field.Power

/-!
The rounding of the floating point numbers of Lean (`Init.Data.Float.Model`, the logical model of the IEEE 754 types `double` and `float`): the value of a
rounded number differs from the exact value at most by half a unit in the last place.
-/
namespace Verif.Ieee
open Float.Model Float.Model.UnpackedFloat

/-- The value of a sign. -/
noncomputable def sgn : Sign → ℝ
  | .negative => -1
  | .positive => 1

/-- The real value of a finite number (0 for the infinities and NaN). -/
noncomputable def val : UnpackedFloat → ℝ
  | .finite s m e _ => sgn s * (m * 2 ^ e)
  | _ => 0

/-- A number in the form that the format requires (apart from the largest exponent). -/
def Canon (spec : Format) : UnpackedFloat → Prop
  | .finite _ m e _ => m < 2 ^ spec.mantissaBits ∧ spec.minExponent ≤ e ∧ (2 ^ (spec.mantissaBits - 1) ≤ m ∨ e = spec.minExponent)
  | _ => True

theorem sgn_abs (s : Sign) : |sgn s| = 1 := by cases s <;> simp [sgn]

theorem sgn_mul (s t : Sign) : sgn (s * t) = sgn s * sgn t := by
  cases s <;> cases t <;> first | (show (1 : ℝ) = _; norm_num [sgn]; done) | (show (-1 : ℝ) = _; norm_num [sgn]; done)

theorem sgn_div (s t : Sign) : sgn (s / t) = sgn s * sgn t := by
  cases s <;> cases t <;> first | (show (1 : ℝ) = _; norm_num [sgn]; done) | (show (-1 : ℝ) = _; norm_num [sgn]; done)

theorem sgn_neg (s : Sign) : sgn (-s) = -sgn s := by
  cases s <;> first | (show (1 : ℝ) = _; norm_num [sgn]; done) | (show (-1 : ℝ) = _; norm_num [sgn]; done)

theorem sgn_sq (s : Sign) : sgn s * sgn s = 1 := by cases s <;> simp [sgn]

/-- The extended mantissa describes the number `v`: it is the integer part and the position of `v` with respect to the half. -/
def Rep : ExtendedMantissa → ℝ → Prop
  | ⟨m, false, false⟩, v => v = m
  | ⟨m, false, true⟩, v => m < v ∧ v < m + 1 / 2
  | ⟨m, true, false⟩, v => v = m + 1 / 2
  | ⟨m, true, true⟩, v => m + 1 / 2 < v ∧ v < m + 1

theorem Rep.bounds {em : ExtendedMantissa} {v : ℝ} (h : Rep em v) : em.mantissa ≤ v ∧ v < em.mantissa + 1 := by
  rcases em with ⟨m, _ | _, _ | _⟩ <;> simp only [Rep] at h ⊢ <;> constructor <;> linarith

theorem Rep.shift {em : ExtendedMantissa} {v : ℝ} (h : Rep em v) : Rep em.shiftRightOne (v / 2) := by
  rcases em with ⟨m, r, s⟩
  unfold ExtendedMantissa.shiftRightOne
  dsimp only
  rcases Nat.even_or_odd' m with ⟨q, rfl | rfl⟩
  · have h1 : 2 * q / 2 = q := by omega
    have h2 : (2 * q % 2 != 0) = false := by simp
    rw [h1, h2]
    rcases r with _ | _ <;> rcases s with _ | _ <;> simp only [Rep, Bool.or_false, Bool.or_true, Bool.false_or, Bool.true_or] at h ⊢ <;> push_cast at h ⊢ <;>
      first | (constructor <;> linarith) | linarith
  · have h1 : (2 * q + 1) / 2 = q := by omega
    have h2 : ((2 * q + 1) % 2 != 0) = true := by
      have : (2 * q + 1) % 2 = 1 := by omega
      rw [this]; rfl
    rw [h1, h2]
    rcases r with _ | _ <;> rcases s with _ | _ <;> simp only [Rep, Bool.or_false, Bool.or_true, Bool.false_or, Bool.true_or] at h ⊢ <;> push_cast at h ⊢ <;>
      first | (constructor <;> linarith) | linarith

theorem Rep.shiftN {em : ExtendedMantissa} {v : ℝ} (h : Rep em v) (n : ℕ) : Rep (em >>> n) (v / 2 ^ n) := by
  induction n with
  | zero =>
    rw [pow_zero, div_one]
    exact h
  | succ n ih =>
    have : em >>> (n + 1) = (em >>> n).shiftRightOne := rfl
    rw [this, pow_succ, ← div_div]
    exact ih.shift

theorem Rep.rounded {em : ExtendedMantissa} {v : ℝ} (h : Rep em v) : |(em.roundedMantissa : ℝ) - v| ≤ 1 / 2 := by
  rcases em with ⟨m, _ | _, _ | _⟩ <;> simp only [Rep] at h <;>
    simp only [ExtendedMantissa.roundedMantissa, ExtendedMantissa.accuracy, Accuracy.roundToNearestEven]
  · rw [h]; norm_num
  · rw [abs_le]; constructor <;> linarith
  · rw [h]
    rcases Nat.mod_two_eq_zero_or_one m with e | e <;> rw [e] <;> push_cast <;> rw [abs_le] <;> constructor <;> linarith
  · push_cast; rw [abs_le]; constructor <;> linarith

/-- A tie is resolved to the even mantissa. -/
theorem Rep.even {em : ExtendedMantissa} {v : ℝ} (h : Rep em v) (ht : |(em.roundedMantissa : ℝ) - v| = 1 / 2) : Even em.roundedMantissa := by
  rcases em with ⟨m, _ | _, _ | _⟩ <;> simp only [Rep] at h <;>
    simp only [ExtendedMantissa.roundedMantissa, ExtendedMantissa.accuracy, Accuracy.roundToNearestEven] at ht ⊢
  · rw [h] at ht; norm_num at ht
  · rw [abs_eq (by norm_num)] at ht
    exfalso
    rcases ht with ht | ht <;> linarith
  · rcases Nat.mod_two_eq_zero_or_one m with e | e <;> rw [e]
    · rw [Nat.even_iff]; omega
    · rw [Nat.even_iff]; omega
  · push_cast at ht
    rw [abs_eq (by norm_num)] at ht
    exfalso
    rcases ht with ht | ht <;> linarith

theorem Rep.le {em : ExtendedMantissa} {v : ℝ} (h : Rep em v) {c : ℕ} (hc : v ≤ c) : em.roundedMantissa ≤ c := by
  have h1 := abs_le.1 h.rounded
  have : (em.roundedMantissa : ℝ) < c + 1 := by linarith
  have : em.roundedMantissa < c + 1 := by exact_mod_cast this
  omega

theorem Rep.ge {em : ExtendedMantissa} {v : ℝ} (h : Rep em v) {c : ℕ} (hc : (c : ℝ) ≤ v) : c ≤ em.roundedMantissa := by
  have h1 := abs_le.1 h.rounded
  have : (c : ℝ) < em.roundedMantissa + 1 := by linarith
  have : c < em.roundedMantissa + 1 := by exact_mod_cast this
  omega

theorem log2_bounds {m : ℕ} (h : 0 < m) : 2 ^ m.log2 ≤ m ∧ m < 2 ^ (m.log2 + 1) :=
  ⟨Nat.log2_self_le h.ne', Nat.lt_log2_self⟩

theorem two_pow_pos (k : ℤ) : (0 : ℝ) < 2 ^ k := by positivity

theorem two_pow_le {j k : ℤ} (h : j ≤ k) : (2 : ℝ) ^ j ≤ 2 ^ k := zpow_le_zpow_right₀ (by norm_num) h

theorem two_pow_add (j k : ℤ) : (2 : ℝ) ^ (j + k) = 2 ^ j * 2 ^ k := zpow_add₀ (by norm_num) j k

theorem two_pow_sub (j k : ℤ) : (2 : ℝ) ^ (j - k) = 2 ^ j / 2 ^ k := zpow_sub₀ (by norm_num) j k

/-- `y` is the number `x` rounded to the nearest, to even in case of a tie: `t` is the exponent of the last place. -/
structure Rounded (spec : Format) (x : ℝ) (y : UnpackedFloat) : Prop where
  canon : Canon spec y
  fin : (∃ s, y = .zero s) ∨ ∃ s m e h, y = .finite s m e h
  even : ∃ (t : ℤ) (r : ℤ), spec.minExponent ≤ t ∧ |x| ≤ 2 ^ (spec.mantissaBits + t) ∧ (t = spec.minExponent ∨ 2 ^ (spec.mantissaBits - 1 + t) ≤ |x|) ∧
    |(r : ℝ) - x / 2 ^ t| ≤ 1 / 2 ∧ (|(r : ℝ) - x / 2 ^ t| = 1 / 2 → Even r) ∧ val y = r * 2 ^ t

theorem Rounded.near {spec : Format} {x : ℝ} {y : UnpackedFloat} (h : Rounded spec x y) :
    ∃ (t : ℤ) (r : ℤ), spec.minExponent ≤ t ∧ |x| ≤ 2 ^ (spec.mantissaBits + t) ∧ (t = spec.minExponent ∨ 2 ^ (spec.mantissaBits - 1 + t) ≤ |x|) ∧
      |(r : ℝ) - x / 2 ^ t| ≤ 1 / 2 ∧ val y = r * 2 ^ t := by
  obtain ⟨t, r, h1, h2, h3, h4, _, h5⟩ := h.even
  exact ⟨t, r, h1, h2, h3, h4, h5⟩

theorem roundWithAccuracy_spec {spec : Format} (hp : 2 ≤ spec.mantissaBits) (s : Sign) (m : ℕ) (e : ℤ) (acc : Accuracy) {v : ℝ}
    (hv : Rep (ExtendedMantissa.ofMantissaAndAccuracy m acc) v) (he : e ≤ spec.targetExponent (totalExponent m e)) :
    Rounded spec (sgn s * (v * 2 ^ e)) (roundWithAccuracy spec s m e acc) := by
  obtain ⟨t, ht⟩ : ∃ t, t = spec.targetExponent (totalExponent m e) := ⟨_, rfl⟩
  rw [← ht] at he
  obtain ⟨n, hn⟩ : ∃ n : ℕ, t = e + n := ⟨(t - e).toNat, by omega⟩
  have hm0 : (ExtendedMantissa.ofMantissaAndAccuracy m acc).mantissa = m := by
    unfold ExtendedMantissa.ofMantissaAndAccuracy
    split <;> rfl
  have hb := hv.bounds
  rw [hm0] at hb
  have hsh : shiftToTargetExponent spec m e acc = (ExtendedMantissa.ofMantissaAndAccuracy m acc >>> n, t) := by
    unfold shiftToTargetExponent shiftToExponent
    dsimp only
    rw [← ht]
    have : (t - e).toNat = n := by omega
    rw [this, ← hn]
  have hR := hv.shiftN n
  obtain ⟨em, hem⟩ : ∃ em, em = ExtendedMantissa.ofMantissaAndAccuracy m acc >>> n := ⟨_, rfl⟩
  obtain ⟨r, hr⟩ : ∃ r, r = em.roundedMantissa := ⟨_, rfl⟩
  rw [← hem] at hR hsh
  have hw : v * 2 ^ e / 2 ^ t = v / 2 ^ n := by
    rw [hn, two_pow_add, zpow_natCast]
    have := two_pow_pos e
    field_simp
  have htmin : spec.minExponent ≤ t := by rw [ht]; exact le_max_right _ _
  have hv0 : 0 ≤ v := le_trans (Nat.cast_nonneg _) hb.1
  -- upper bound
  have hup : v * 2 ^ e ≤ 2 ^ (spec.mantissaBits + t) := by
    have h1 : v ≤ 2 ^ (m.log2 + 1) := by
      rcases Nat.eq_zero_or_pos m with rfl | h
      · have : (0 : ℕ).log2 = 0 := by decide
        rw [this]
        push_cast at hb
        norm_num
        linarith
      · have h2 : m + 1 ≤ 2 ^ (m.log2 + 1) := (log2_bounds h).2
        have h3 : ((m + 1 : ℕ) : ℝ) ≤ ((2 ^ (m.log2 + 1) : ℕ) : ℝ) := by exact_mod_cast h2
        push_cast at h3
        linarith
    have h2 : totalExponent m e ≤ spec.mantissaBits + t := by
      have : totalExponent m e - spec.mantissaBits ≤ t := by rw [ht]; exact le_max_left _ _
      omega
    calc v * 2 ^ e ≤ 2 ^ (m.log2 + 1) * 2 ^ e := mul_le_mul_of_nonneg_right h1 (two_pow_pos e).le
      _ = 2 ^ totalExponent m e := by
        unfold totalExponent
        rw [two_pow_add, ← zpow_natCast]
        push_cast
        rfl
      _ ≤ _ := two_pow_le h2
  have hlow : t = spec.minExponent ∨ (2 : ℝ) ^ (spec.mantissaBits - 1 + t) ≤ v * 2 ^ e := by
    rcases le_or_gt (totalExponent m e - spec.mantissaBits) spec.minExponent with h | h
    · left
      rw [ht, Format.targetExponent, max_eq_right h]
    · have h1 : t = totalExponent m e - spec.mantissaBits := by rw [ht, Format.targetExponent, max_eq_left h.le]
      rcases Nat.eq_zero_or_pos m with h0 | h0
      · exfalso
        subst h0
        have : (0 : ℕ).log2 = 0 := by decide
        rw [totalExponent, this] at h1
        omega
      · right
        have h2 : ((2 ^ m.log2 : ℕ) : ℝ) ≤ (m : ℝ) := by exact_mod_cast (log2_bounds h0).1
        have h3 : (spec.mantissaBits : ℤ) - 1 + t = m.log2 + e := by rw [h1, totalExponent]; omega
        rw [h3, two_pow_add]
        apply mul_le_mul_of_nonneg_right _ (two_pow_pos e).le
        rw [zpow_natCast]
        push_cast at h2
        linarith
  have hab : |sgn s * (v * 2 ^ e)| = v * 2 ^ e := by
    rw [abs_mul, sgn_abs, one_mul, abs_of_nonneg (mul_nonneg hv0 (two_pow_pos e).le)]
  -- the rounded mantissa
  have hrup : r ≤ 2 ^ spec.mantissaBits := by
    rw [hr]
    apply hR.le
    rw [← hw, div_le_iff₀ (two_pow_pos t)]
    push_cast
    rw [← zpow_natCast, ← two_pow_add]
    exact hup
  have hrlow : t = spec.minExponent ∨ 2 ^ (spec.mantissaBits - 1) ≤ r := by
    refine hlow.imp id fun h => ?_
    rw [hr]
    apply hR.ge
    rw [← hw, le_div_iff₀ (two_pow_pos t)]
    push_cast
    rw [← zpow_natCast, ← two_pow_add]
    have : ((spec.mantissaBits - 1 : ℕ) : ℤ) = (spec.mantissaBits : ℤ) - 1 := by omega
    rw [this]
    exact h
  have key : ∀ y : UnpackedFloat, Canon spec y → ((∃ s, y = .zero s) ∨ ∃ s m e h, y = .finite s m e h) → val y = sgn s * (r * 2 ^ t) →
      Rounded spec (sgn s * (v * 2 ^ e)) y := by
    intro y hc hf hy
    refine ⟨hc, hf, t, s.apply r, htmin, by rw [hab]; exact hup, by rw [hab]; exact hlow, ?_, ?_, ?_⟩
    · have h1 : ((s.apply r : ℤ) : ℝ) = sgn s * r := by cases s <;> simp [Sign.apply, sgn]
      rw [h1, mul_div_assoc, hw, ← mul_sub, abs_mul, sgn_abs, one_mul, hr]
      exact hR.rounded
    · have h1 : ((s.apply r : ℤ) : ℝ) = sgn s * r := by cases s <;> simp [Sign.apply, sgn]
      rw [h1, mul_div_assoc, hw, ← mul_sub, abs_mul, sgn_abs, one_mul, hr]
      intro ht
      obtain ⟨q, hq⟩ := hR.even ht
      rw [hq]
      cases s
      · exact ⟨-(q : ℤ), by simp [Sign.apply]⟩
      · exact ⟨q, by simp [Sign.apply]⟩
    · have h1 : ((s.apply r : ℤ) : ℝ) = sgn s * r := by cases s <;> simp [Sign.apply, sgn]
      rw [h1, hy]
      ring
  unfold roundWithAccuracy
  rw [hsh]
  dsimp only
  rw [← hr]
  have hlogr : r < 2 ^ spec.mantissaBits → (r.log2 : ℤ) + 1 ≤ spec.mantissaBits := by
    intro h
    rcases Nat.eq_zero_or_pos r with h0 | h0
    · rw [h0]
      have : (0 : ℕ).log2 = 0 := by decide
      rw [this]
      omega
    · have := (Nat.log2_lt h0.ne').2 h
      omega
  rcases Nat.lt_or_ge r (2 ^ spec.mantissaBits) with hlt | hge
  · -- no second shift
    have h2 : shiftToTargetExponent spec r t .exact = (⟨r, false, false⟩, t) := by
      unfold shiftToTargetExponent shiftToExponent
      dsimp only
      have : (spec.targetExponent (totalExponent r t) - t).toNat = 0 := by
        have := hlogr hlt
        unfold Format.targetExponent totalExponent
        omega
      rw [this]
      simp only [Nat.cast_zero, add_zero]
      rfl
    rw [h2]
    dsimp only
    split_ifs with h0
    · apply key
      · trivial
      · exact Or.inl ⟨_, rfl⟩
      · rw [h0]; simp [val]
    · apply key
      · exact ⟨hlt, htmin, hrlow.symm⟩
      · exact Or.inr ⟨_, _, _, _, rfl⟩
      · rfl
  · have hre : r = 2 ^ spec.mantissaBits := le_antisymm hrup hge
    have h2 : shiftToTargetExponent spec r t .exact = (⟨r / 2, r % 2 != 0, false⟩, t + 1) := by
      unfold shiftToTargetExponent shiftToExponent
      dsimp only
      have : (spec.targetExponent (totalExponent r t) - t).toNat = 1 := by
        unfold Format.targetExponent totalExponent
        rw [hre, Nat.log2_two_pow]
        omega
      rw [this]
      rfl
    rw [h2]
    dsimp only
    have hhalf : r / 2 = 2 ^ (spec.mantissaBits - 1) := by
      rw [hre]
      obtain ⟨q, hq⟩ : ∃ q, spec.mantissaBits = q + 1 := ⟨spec.mantissaBits - 1, by omega⟩
      rw [hq, pow_succ]
      simp
    have hpos : 0 < r / 2 := by rw [hhalf]; positivity
    rw [dif_neg hpos.ne']
    apply key
    · refine ⟨?_, by omega, Or.inl hhalf.ge⟩
      rw [hhalf]
      exact Nat.pow_lt_pow_right (by norm_num) (by omega)
    · exact Or.inr ⟨_, _, _, _, rfl⟩
    · show sgn s * (((r / 2 : ℕ) : ℝ) * 2 ^ (t + 1)) = _
      have : r = 2 * (r / 2) := by
        rw [hhalf, hre]
        obtain ⟨q, hq⟩ : ∃ q, spec.mantissaBits = q + 1 := ⟨spec.mantissaBits - 1, by omega⟩
        rw [hq, pow_succ]
        simp [mul_comm]
      rw [two_pow_add]
      have h3 : (r : ℝ) = 2 * ((r / 2 : ℕ) : ℝ) := by exact_mod_cast this
      rw [h3]
      norm_num
      ring_nf
      tauto

end Verif.Ieee
