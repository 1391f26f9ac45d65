import Verif.Ieee.Cast

/-!
`fmod`: the remainder of a division truncated toward zero, which is exact.
-/
namespace Verif.Ieee
open Float.Model Float.Model.UnpackedFloat

variable {spec : Format}

namespace Fp

/-- A result of `fmod`: a NaN for an infinite dividend or a zero divisor. -/
def fmodU (spec : Format) : UnpackedFloat → UnpackedFloat → UnpackedFloat
  | .finite s m e _, .finite _ n f _ =>
    normalize spec (s.apply ((decreaseExponent m e (min e f)).1 % (decreaseExponent n f (min e f)).1)) (min e f) s
  | .zero s, .finite .. => .zero s
  | .zero s, .infinity _ => .zero s
  | .finite s m e h, .infinity _ => .finite s m e h
  | _, _ => .notANumber

variable [Fmt spec]

/-- `fmod`. -/
def fmod (a b : Fp spec) : Fp spec := ofU spec (fmodU spec a.x b.x)

/-- `fmod` of finite numbers is finite and exact: `a` minus a multiple of `b`, smaller than `b`, with the sign of `a`. -/
theorem fmod_is {a b : Fp spec} (ha : a.Fin) (hb : b.Fin) (h0 : b.val ≠ 0) :
    (fmod a b).Fin ∧ (∃ n : ℤ, (fmod a b).val = a.val - n * b.val) ∧ |(fmod a b).val| < |b.val| ∧ |(fmod a b).val| ≤ |a.val| ∧
      (0 ≤ a.val → 0 ≤ (fmod a b).val) ∧ (a.val ≤ 0 → (fmod a b).val ≤ 0) := by
  have ca := a.canon
  have cb := b.canon
  have bb := val_lt b
  unfold Fp.Fin fmod
  cases hbx : b.x with
  | infinity t => exfalso; unfold Fin at hb; rw [hbx] at hb; exact hb
  | notANumber => exfalso; unfold Fin at hb; rw [hbx] at hb; exact hb
  | zero t => exfalso; apply h0; unfold val; rw [hbx]; rfl
  | finite t n f hn =>
    have hbv : b.val = sgn t * (n * 2 ^ f) := by unfold val; rw [hbx]; rfl
    have hba : |b.val| = n * 2 ^ f := by rw [hbv, abs_mul, sgn_abs, one_mul, abs_of_nonneg (mul_nonneg (Nat.cast_nonneg _) (two_pow_pos f).le)]
    cases hax : a.x with
    | infinity s => exfalso; unfold Fin at ha; rw [hax] at ha; exact ha
    | notANumber => exfalso; unfold Fin at ha; rw [hax] at ha; exact ha
    | zero s =>
      have hav : a.val = 0 := by unfold val; rw [hax]; rfl
      rw [show fmodU spec (.zero s) (.finite t n f hn) = .zero s from rfl, ofU_repr (y := .zero s) trivial]
      have hv : (⟨.zero s, trivial⟩ : Fp spec).val = 0 := rfl
      rw [hv, hav]
      exact ⟨trivial, ⟨0, by simp⟩, by simpa using h0, by simp, fun _ => le_rfl, fun _ => le_rfl⟩
    | finite s m e hm =>
      rw [hax] at ca
      rw [hbx] at cb
      have hav : a.val = sgn s * (m * 2 ^ e) := by unfold val; rw [hax]; rfl
      have haa : |a.val| = m * 2 ^ e := by rw [hav, abs_mul, sgn_abs, one_mul, abs_of_nonneg (mul_nonneg (Nat.cast_nonneg _) (two_pow_pos e).le)]
      obtain ⟨k, hk⟩ : ∃ k, k = min e f := ⟨_, rfl⟩
      have d1 : (((decreaseExponent m e k).1 : ℕ) : ℝ) * 2 ^ k = m * 2 ^ e := decrease_val (by omega)
      have d2 : (((decreaseExponent n f k).1 : ℕ) : ℝ) * 2 ^ k = n * 2 ^ f := decrease_val (by omega)
      have e1 : e = k → (decreaseExponent m e k).1 = m := by
        intro h
        unfold decreaseExponent
        simp [h]
      have e2 : f = k → (decreaseExponent n f k).1 = n := by
        intro h
        unfold decreaseExponent
        simp [h]
      have hfm : fmodU spec (.finite s m e hm) (.finite t n f hn) =
          normalize spec (s.apply ((decreaseExponent m e k).1 % (decreaseExponent n f k).1)) k s := by rw [hk]; rfl
      rw [hfm]
      generalize (decreaseExponent m e k).1 = p at *
      generalize (decreaseExponent n f k).1 = q at *
      have hk2 := two_pow_pos k
      have hq0 : 0 < q := by
        rcases Nat.eq_zero_or_pos q with h | h
        · exfalso
          rw [h] at d2
          simp only [Nat.cast_zero, zero_mul] at d2
          have : (0 : ℝ) < n * 2 ^ f := mul_pos (by exact_mod_cast hn) (two_pow_pos f)
          linarith
        · exact h
      have hrq : p % q < q := Nat.mod_lt _ hq0
      have hrp : p % q ≤ p := Nat.mod_le _ _
      have hk1 : spec.minExponent ≤ k := by
        rw [hk]
        exact le_min ca.2.1 cb.2.1
      have hrm : p % q < 2 ^ spec.mantissaBits := by
        rcases le_total e f with h | h
        · rw [e1 (by omega)] at hrp ⊢
          exact lt_of_le_of_lt hrp ca.1
        · rw [e2 (by omega)] at hrq ⊢
          exact lt_trans hrq cb.1
      have hsp := normalize_spec (Fmt.good (spec := spec)) (s.apply ((p % q : ℕ) : ℤ)) k s
      rw [apply_cast] at hsp
      have hg : Grid spec (sgn s * (((p % q : ℕ) : ℤ) : ℝ) * 2 ^ k) := by
        refine ⟨s.apply ((p % q : ℕ) : ℤ), k, ?_, hk1, by rw [apply_cast]⟩
        rw [apply_cast, abs_mul, sgn_abs, one_mul, abs_of_nonneg (by positivity), zpow_natCast]
        exact_mod_cast hrm.le
      have hrb : |sgn s * (((p % q : ℕ) : ℤ) : ℝ) * 2 ^ k| < |b.val| := by
        rw [abs_mul, abs_mul, sgn_abs, one_mul, abs_of_pos hk2, abs_of_nonneg (by positivity), hba, ← d2]
        apply mul_lt_mul_of_pos_right _ hk2
        exact_mod_cast hrq
      have hex := hsp.exact hg
      obtain ⟨y, hy⟩ : ∃ y, y = normalize spec (s.apply ((p % q : ℕ) : ℤ)) k s := ⟨_, rfl⟩
      rw [show (s.apply ((p : ℤ) % (q : ℤ))) = s.apply ((p % q : ℕ) : ℤ) by rw [Int.natCast_mod], ← hy]
      rw [← hy] at hsp hex
      have hrep : Repr spec y := hsp.repr (by
        rw [hex]
        have : top spec + 1 = maxExponent spec + spec.mantissaBits := by unfold top; ring
        rw [← this]
        exact hrb.trans bb) Fmt.range
      rw [ofU_repr hrep]
      have hv : (⟨y, hrep⟩ : Fp spec).val = sgn s * (((p % q : ℕ) : ℤ) : ℝ) * 2 ^ k := hex
      rw [hv]
      refine ⟨hsp.fin', ?_, hrb, ?_, ?_, ?_⟩
      · have hdiv : (p : ℝ) = q * ((p / q : ℕ) : ℝ) + ((p % q : ℕ) : ℝ) := by exact_mod_cast (Nat.div_add_mod p q).symm
        refine ⟨(s * t).apply ((p / q : ℕ) : ℤ), ?_⟩
        rw [apply_cast, hav, hbv, ← d1, ← d2, hdiv, sgn_mul]
        have h2 := sgn_sq t
        generalize p / q = D
        generalize p % q = R
        push_cast
        linear_combination (sgn s * (D : ℝ) * q * 2 ^ k) * h2
      · rw [abs_mul, abs_mul, sgn_abs, one_mul, abs_of_pos hk2, abs_of_nonneg (by positivity), haa, ← d1]
        apply mul_le_mul_of_nonneg_right _ hk2.le
        exact_mod_cast hrp
      · intro h
        have hmp : (0 : ℝ) < m * 2 ^ e := mul_pos (by exact_mod_cast hm) (two_pow_pos e)
        cases s with
        | negative => rw [hav] at h; simp only [sgn] at h; linarith
        | positive => simp only [sgn, one_mul]; positivity
      · intro h
        have hmp : (0 : ℝ) < m * 2 ^ e := mul_pos (by exact_mod_cast hm) (two_pow_pos e)
        cases s with
        | negative =>
          have : (0 : ℝ) ≤ (((p % q : ℕ) : ℤ) : ℝ) * 2 ^ k := by positivity
          simp only [sgn]
          linarith
        | positive => rw [hav] at h; simp only [sgn] at h; linarith

end Fp
end Verif.Ieee
