import Verif.Ieee.Round
import Mathlib.Tactic.LinearCombination

/-!
The arithmetic operations of the floating point numbers of Lean on finite numbers are the exact ones, rounded.
-/
namespace Verif.Ieee
open Float.Model Float.Model.UnpackedFloat

/-- Finite numbers. -/
def Fin : UnpackedFloat → Prop
  | .finite .. => True
  | .zero _ => True
  | _ => False

/-- The formats with at least two bits of mantissa and a negative smallest exponent. -/
structure Good (spec : Format) : Prop where
  p : 2 ≤ spec.mantissaBits
  emin : spec.minExponent ≤ 0

variable {spec : Format}

theorem rep_exact (m : ℕ) : Rep (ExtendedMantissa.ofMantissaAndAccuracy m .exact) m := rfl

theorem log2_shiftLeft {m : ℕ} (h : 0 < m) (n : ℕ) : (m <<< n).log2 = m.log2 + n := by
  rw [Nat.shiftLeft_eq]
  have h1 := log2_bounds h
  have h2 : m * 2 ^ n ≠ 0 := by positivity
  apply le_antisymm
  · have : (m * 2 ^ n).log2 < m.log2 + n + 1 := by
      rw [Nat.log2_lt h2, show m.log2 + n + 1 = (m.log2 + 1) + n by omega, pow_add]
      exact Nat.mul_lt_mul_of_pos_right h1.2 (by positivity)
    omega
  · rw [Nat.le_log2 h2, pow_add]
    exact Nat.mul_le_mul_right _ h1.1

theorem round_spec (hg : Good spec) (s : Sign) {m : ℕ} (hm : 0 < m) (e : ℤ) : Rounded spec (sgn s * (m * 2 ^ e)) (round spec s m e) := by
  unfold round decreaseExponent
  dsimp only
  obtain ⟨n, hn⟩ : ∃ n, n = (e - spec.targetExponent (totalExponent m e)).toNat := ⟨_, rfl⟩
  rw [← hn]
  have ht : totalExponent (m <<< n) (e - n) = totalExponent m e := by
    unfold totalExponent
    rw [log2_shiftLeft hm]
    push_cast
    ring
  have h := roundWithAccuracy_spec hg.p s (m <<< n) (e - n) .exact (rep_exact _) (by rw [ht]; omega)
  have hv : ((m <<< n : ℕ) : ℝ) * 2 ^ (e - (n : ℤ)) = m * 2 ^ e := by
    rw [Nat.shiftLeft_eq, two_pow_sub, zpow_natCast]
    push_cast
    field_simp
  rw [hv] at h
  exact h

theorem rounded_zero (s : Sign) : Rounded spec 0 (.zero s) :=
  ⟨trivial, Or.inl ⟨_, rfl⟩, spec.minExponent, 0, le_rfl, by rw [abs_zero]; exact (two_pow_pos _).le, Or.inl rfl, by norm_num, fun _ => Even.zero, by simp [val]⟩

theorem normalize_spec (hg : Good spec) (m e : ℤ) (z : Sign) : Rounded spec (m * 2 ^ e) (normalize spec m e z) := by
  unfold normalize
  split
  · rename_i h
    have h' : m < 0 := compare_lt_iff_lt.1 h
    have := round_spec hg .negative (m := (-m).toNat) (by omega) e
    have h2 : sgn .negative * (((-m).toNat : ℝ) * 2 ^ e) = m * 2 ^ e := by
      have h3 : (((-m).toNat : ℕ) : ℝ) = -m := by
        have : (((-m).toNat : ℤ) : ℝ) = ((-m : ℤ) : ℝ) := by
          congr 1
          omega
        push_cast at this
        exact_mod_cast this
      rw [h3]
      simp [sgn]
    rw [h2] at this
    exact this
  · rename_i h
    have h' : m = 0 := compare_eq_iff_eq.1 h
    rw [h']
    simpa using rounded_zero z
  · rename_i h
    have h' : 0 < m := compare_gt_iff_gt.1 h
    have := round_spec hg .positive (m := m.toNat) (by omega) e
    have h2 : sgn .positive * ((m.toNat : ℝ) * 2 ^ e) = m * 2 ^ e := by
      have h3 : ((m.toNat : ℕ) : ℝ) = m := by
        have : ((m.toNat : ℤ) : ℝ) = ((m : ℤ) : ℝ) := by
          congr 1
          omega
        exact_mod_cast this
      rw [h3]
      simp [sgn]
    rw [h2] at this
    exact this

/-- A number of the format is its own rounding. -/
theorem rounded_self {x : UnpackedFloat} (hc : Canon spec x) (hf : Fin x) : Rounded spec (val x) x := by
  cases x with
  | infinity s => cases hf
  | notANumber => cases hf
  | zero s => exact rounded_zero s
  | finite s m e h =>
    obtain ⟨h1, h2, h3⟩ := hc
    have hab : |sgn s * ((m : ℝ) * 2 ^ e)| = m * 2 ^ e := by
      rw [abs_mul, sgn_abs, one_mul, abs_of_nonneg (mul_nonneg (Nat.cast_nonneg _) (two_pow_pos e).le)]
    have hexact : ((s.apply m : ℤ) : ℝ) - val (.finite s m e h) / 2 ^ e = 0 := by
      have h1 : ((s.apply m : ℤ) : ℝ) = sgn s * m := by cases s <;> simp [Sign.apply, sgn]
      rw [h1, val]
      have := (two_pow_pos e).ne'
      field_simp
      ring
    refine ⟨⟨h1, h2, h3⟩, Or.inr ⟨_, _, _, _, rfl⟩, e, s.apply m, h2, ?_, ?_, ?_, ?_, ?_⟩
    · rw [val, hab, two_pow_add, zpow_natCast]
      apply mul_le_mul_of_nonneg_right _ (two_pow_pos e).le
      exact_mod_cast h1.le
    · rcases h3 with h3 | h3
      · right
        rw [val, hab, two_pow_add]
        apply mul_le_mul_of_nonneg_right _ (two_pow_pos e).le
        rcases Nat.eq_zero_or_pos spec.mantissaBits with hz | hz
        · rw [hz] at h1
          simp at h1
          omega
        have : (spec.mantissaBits : ℤ) - 1 = ((spec.mantissaBits - 1 : ℕ) : ℤ) := by omega
        rw [this, zpow_natCast]
        exact_mod_cast h3
      · exact Or.inl h3
    · rw [hexact]
      norm_num
    · rw [hexact]
      norm_num
    · have h1 : ((s.apply m : ℤ) : ℝ) = sgn s * m := by cases s <;> simp [Sign.apply, sgn]
      rw [h1, val]
      ring

theorem decrease_val {m : ℕ} {e k : ℤ} (h : k ≤ e) : (((decreaseExponent m e k).1 : ℕ) : ℝ) * 2 ^ k = m * 2 ^ e := by
  unfold decreaseExponent
  dsimp only
  obtain ⟨n, hn⟩ : ∃ n : ℕ, e = k + n := ⟨(e - k).toNat, by omega⟩
  have : (e - k).toNat = n := by omega
  rw [this, Nat.shiftLeft_eq, hn, two_pow_add, zpow_natCast]
  push_cast
  ring

theorem apply_cast (s : Sign) (m : ℤ) : ((s.apply m : ℤ) : ℝ) = sgn s * m := by cases s <;> simp [Sign.apply, sgn]

theorem add_spec (hg : Good spec) {x y : UnpackedFloat} (hx : Fin x) (hy : Fin y) (cx : Canon spec x) (cy : Canon spec y) :
    Rounded spec (val x + val y) (add spec x y) := by
  cases x with
  | infinity s => cases hx
  | notANumber => cases hx
  | zero s =>
    cases y with
    | infinity s => cases hy
    | notANumber => cases hy
    | zero s' =>
      show Rounded spec (0 + 0) (if s == s' then .zero s else .zero .positive)
      rw [add_zero]
      split <;> exact rounded_zero _
    | finite s' m e h =>
      show Rounded spec (0 + _) _
      rw [zero_add]
      exact rounded_self cy hy
  | finite s m e h =>
    cases y with
    | infinity s => cases hy
    | notANumber => cases hy
    | zero s' =>
      show Rounded spec (_ + 0) _
      rw [add_zero]
      exact rounded_self cx hx
    | finite s' m' e' h' =>
      have := normalize_spec hg (s.apply ((decreaseExponent m e (min e e')).1 : ℕ) + s'.apply ((decreaseExponent m' e' (min e e')).1 : ℕ)) (min e e') .positive
      have h2 : ((s.apply ((decreaseExponent m e (min e e')).1 : ℕ) + s'.apply ((decreaseExponent m' e' (min e e')).1 : ℕ) : ℤ) : ℝ) * 2 ^ (min e e') =
          val (.finite s m e h) + val (.finite s' m' e' h') := by
        rw [Int.cast_add, apply_cast, apply_cast, add_mul, mul_assoc, mul_assoc]
        have h3 := decrease_val (m := m) (min_le_left e e')
        have h4 := decrease_val (m := m') (min_le_right e e')
        push_cast
        rw [h3, h4]
        rfl
      rw [h2] at this
      exact this

theorem sub_spec (hg : Good spec) {x y : UnpackedFloat} (hx : Fin x) (hy : Fin y) (cx : Canon spec x) (cy : Canon spec y) :
    Rounded spec (val x - val y) (sub spec x y) := by
  cases x with
  | infinity s => cases hx
  | notANumber => cases hx
  | zero s =>
    cases y with
    | infinity s => cases hy
    | notANumber => cases hy
    | zero s' =>
      show Rounded spec (0 - 0) (if s == -s' then .zero s else .zero .positive)
      rw [sub_zero]
      split <;> exact rounded_zero _
    | finite s' m e h =>
      show Rounded spec (0 - _) _
      rw [zero_sub]
      have h2 : val (.finite (-s') m e h) = -val (.finite s' m e h) := by
        simp only [val, sgn_neg]
        ring
      rw [← h2]
      exact rounded_self (x := .finite (-s') m e h) cy hy
  | finite s m e h =>
    cases y with
    | infinity s => cases hy
    | notANumber => cases hy
    | zero s' =>
      show Rounded spec (_ - 0) _
      rw [sub_zero]
      exact rounded_self cx hx
    | finite s' m' e' h' =>
      have := normalize_spec hg (s.apply ((decreaseExponent m e (min e e')).1 : ℕ) - s'.apply ((decreaseExponent m' e' (min e e')).1 : ℕ)) (min e e') .positive
      have h2 : ((s.apply ((decreaseExponent m e (min e e')).1 : ℕ) - s'.apply ((decreaseExponent m' e' (min e e')).1 : ℕ) : ℤ) : ℝ) * 2 ^ (min e e') =
          val (.finite s m e h) - val (.finite s' m' e' h') := by
        rw [Int.cast_sub, apply_cast, apply_cast, sub_mul, mul_assoc, mul_assoc]
        have h3 := decrease_val (m := m) (min_le_left e e')
        have h4 := decrease_val (m := m') (min_le_right e e')
        push_cast
        rw [h3, h4]
        rfl
      rw [h2] at this
      exact this

theorem log2_mul_ge {a b k : ℕ} (ha : 2 ^ k ≤ a) (hb : 0 < b) : k ≤ (a * b).log2 := by
  have : 0 < a := lt_of_lt_of_le (by positivity) ha
  rw [Nat.le_log2 (by positivity)]
  exact le_trans ha (Nat.le_mul_of_pos_right _ hb)

theorem mul_spec (hg : Good spec) {x y : UnpackedFloat} (hx : Fin x) (hy : Fin y) (cx : Canon spec x) (cy : Canon spec y) :
    Rounded spec (val x * val y) (mul spec x y) := by
  cases x with
  | infinity s => cases hx
  | notANumber => cases hx
  | zero s =>
    cases y with
    | infinity s => cases hy
    | notANumber => cases hy
    | zero s' =>
      show Rounded spec (0 * 0) _
      rw [mul_zero]
      exact rounded_zero _
    | finite s' m e h =>
      show Rounded spec (0 * _) _
      rw [zero_mul]
      exact rounded_zero _
  | finite s m e h =>
    cases y with
    | infinity s => cases hy
    | notANumber => cases hy
    | zero s' =>
      show Rounded spec (_ * 0) _
      rw [mul_zero]
      exact rounded_zero _
    | finite s' m' e' h' =>
      have he : e + e' ≤ spec.targetExponent (totalExponent (m * m') (e + e')) := by
        unfold Format.targetExponent totalExponent
        have hemin := hg.emin
        have hp := hg.p
        rcases cx.2.2 with h1 | h1
        · have := log2_mul_ge h1 h'
          omega
        · rcases cy.2.2 with h2 | h2
          · have := log2_mul_ge h2 h
            rw [mul_comm] at this
            omega
          · omega
      have := roundWithAccuracy_spec hg.p (s * s') (m * m') (e + e') .exact (rep_exact _) he
      have h2 : sgn (s * s') * (((m * m' : ℕ) : ℝ) * 2 ^ (e + e')) = val (.finite s m e h) * val (.finite s' m' e' h') := by
        rw [sgn_mul, two_pow_add]
        push_cast
        simp only [val]
        ring
      rw [h2] at this
      exact this

theorem rep_fraction {m d : ℕ} (hd : 0 < d) : Rep (ExtendedMantissa.ofMantissaAndAccuracy (m / d) (accuracyOfFraction (m % d) d)) ((m : ℝ) / d) := by
  have hd' : (0 : ℝ) < d := by exact_mod_cast hd
  have h1 : (m : ℝ) = d * ((m / d : ℕ) : ℝ) + ((m % d : ℕ) : ℝ) := by exact_mod_cast (Nat.div_add_mod m d).symm
  have h2 : ((m % d : ℕ) : ℝ) < d := by exact_mod_cast Nat.mod_lt m hd
  unfold accuracyOfFraction
  split_ifs with h
  · show (m : ℝ) / d = ((m / d : ℕ) : ℝ)
    rw [div_eq_iff hd'.ne', h1, h]
    simp [mul_comm]
  · have h3 : 0 < m % d := by omega
    have h3' : (0 : ℝ) < ((m % d : ℕ) : ℝ) := by exact_mod_cast h3
    generalize hq : ((m / d : ℕ) : ℝ) = q at h1
    generalize hr : ((m % d : ℕ) : ℝ) = r at h1 h2 h3'
    have hmd : (m : ℝ) / d = q + r / d := by
      rw [h1]
      field_simp
    have h5 : 0 < r / d := div_pos h3' hd'
    rcases lt_trichotomy (2 * (m % d)) d with h4 | h4 | h4
    · rw [compare_lt_iff_lt.2 h4]
      show ((m / d : ℕ) : ℝ) < (m : ℝ) / d ∧ (m : ℝ) / d < ((m / d : ℕ) : ℝ) + 1 / 2
      have h4' : 2 * ((m % d : ℕ) : ℝ) < d := by exact_mod_cast h4
      rw [hr] at h4'
      rw [hq, hmd]
      have : r / d < 1 / 2 := by rw [div_lt_iff₀ hd']; linarith
      constructor <;> linarith
    · rw [compare_eq_iff_eq.2 h4]
      show (m : ℝ) / d = ((m / d : ℕ) : ℝ) + 1 / 2
      have h4' : 2 * ((m % d : ℕ) : ℝ) = d := by exact_mod_cast h4
      rw [hr] at h4'
      rw [hq, hmd]
      have : r / d = 1 / 2 := by rw [div_eq_iff hd'.ne']; linarith
      linarith
    · rw [compare_gt_iff_gt.2 h4]
      show ((m / d : ℕ) : ℝ) + 1 / 2 < (m : ℝ) / d ∧ (m : ℝ) / d < ((m / d : ℕ) : ℝ) + 1
      have h4' : (d : ℝ) < 2 * ((m % d : ℕ) : ℝ) := by exact_mod_cast h4
      rw [hr] at h4'
      rw [hq, hmd]
      have : 1 / 2 < r / d := by rw [lt_div_iff₀ hd']; linarith
      have : r / d < 1 := by rw [div_lt_one hd']; exact h2
      constructor <;> linarith

theorem div_spec (hg : Good spec) {x y : UnpackedFloat} (hx : Fin x) (hy : Fin y) (hy0 : val y ≠ 0) : Rounded spec (val x / val y) (div spec x y) := by
  cases y with
  | infinity s => cases hy
  | notANumber => cases hy
  | zero s' => exact absurd rfl hy0
  | finite s' m' e' h' =>
    cases x with
    | infinity s => cases hx
    | notANumber => cases hx
    | zero s =>
      show Rounded spec (0 / _) _
      rw [zero_div]
      exact rounded_zero _
    | finite s m e h =>
      show Rounded spec _ (roundWithAccuracy spec (s / s') (divCore spec m e m' e').1 (divCore spec m e m' e').2.1 (divCore spec m e m' e').2.2)
      unfold divCore
      dsimp only
      obtain ⟨t, ht⟩ : ∃ t, t = min (e - e') (spec.targetExponent (totalExponent m e - totalExponent m' e')) := ⟨_, rfl⟩
      rw [← ht]
      obtain ⟨n, hn⟩ : ∃ n : ℕ, e - e' = t + n := ⟨(e - e' - t).toNat, by omega⟩
      have : (e - e' - t).toNat = n := by omega
      rw [this]
      have hml := log2_shiftLeft h n
      obtain ⟨M, hM⟩ : ∃ M, M = m <<< n := ⟨_, rfl⟩
      rw [← hM] at hml ⊢
      have hM0 : 0 < M := by
        rw [hM, Nat.shiftLeft_eq]
        positivity
      have he : t ≤ spec.targetExponent (totalExponent (M / m') t) := by
        by_cases hc : t ≤ spec.minExponent
        · exact le_trans hc (le_max_right _ _)
        · have h1 : t ≤ totalExponent m e - totalExponent m' e' - spec.mantissaBits := by
            have h2 : t ≤ spec.targetExponent (totalExponent m e - totalExponent m' e') := by rw [ht]; exact min_le_right _ _
            rw [Format.targetExponent] at h2
            rcases le_max_iff.1 h2 with h2 | h2
            · exact h2
            · exact absurd h2 hc
          have hp := hg.p
          have h3 : m'.log2 + spec.mantissaBits ≤ M.log2 := by
            unfold totalExponent at h1
            omega
          have h4 : spec.mantissaBits ≤ (M / m').log2 + 1 := by
            by_contra hlt
            have hlt' : (M / m').log2 + 1 < spec.mantissaBits := by omega
            have h5 : M / m' < 2 ^ ((M / m').log2 + 1) := Nat.lt_log2_self
            have h6 : M < m' * 2 ^ ((M / m').log2 + 1) := by
              have := Nat.lt_mul_div_succ M h'
              calc M < m' * (M / m' + 1) := this
                _ ≤ _ := Nat.mul_le_mul_left _ h5
            have h7 : M < 2 ^ (m'.log2 + 1 + ((M / m').log2 + 1)) := by
              rw [pow_add]
              exact lt_of_lt_of_le h6 (Nat.mul_le_mul_right _ (log2_bounds h').2.le)
            have h8 := (log2_bounds hM0).1
            have h9 : M.log2 < m'.log2 + 1 + ((M / m').log2 + 1) := by
              by_contra hh
              exact absurd (lt_of_lt_of_le h7 (le_trans (Nat.pow_le_pow_right (by norm_num) (not_lt.1 hh)) h8)) (lt_irrefl _)
            omega
          unfold Format.targetExponent totalExponent
          omega
      have := roundWithAccuracy_spec hg.p (s / s') (M / m') t (accuracyOfFraction (M % m') m') (rep_fraction h') he
      have h2 : sgn (s / s') * ((M : ℝ) / m' * 2 ^ t) = val (.finite s m e h) / val (.finite s' m' e' h') := by
        have hm' : (m' : ℝ) ≠ 0 := by exact_mod_cast h'.ne'
        have h3 : (M : ℝ) * 2 ^ t * 2 ^ e' = m * 2 ^ e := by
          have : e = t + n + e' := by omega
          rw [hM, Nat.shiftLeft_eq, this, two_pow_add, two_pow_add, zpow_natCast]
          push_cast
          ring
        rw [sgn_div]
        simp only [val]
        rw [← h3]
        have h4 := two_pow_pos e'
        have h5 : sgn s' ≠ 0 := by cases s' <;> simp [sgn]
        field_simp
        linear_combination sgn s * sgn_sq s'
      rw [h2] at this
      exact this

end Verif.Ieee
