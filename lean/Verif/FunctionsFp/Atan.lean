import Verif.FunctionsFp.Model
import Verif.Ieee.Approx
import Verif.Functions.FastTrigAccuracy

/-!
Rounding errors of `fastAtan` and `fastAtanf`.
-/
namespace Verif.FunctionsFp
open Ieee Fp Float.Model

theorem mb : (Format.binary64.mantissaBits : ℤ) = 53 ∧ (Format.binary32.mantissaBits : ℤ) = 24 := ⟨rfl, rfl⟩

theorem fastAtan_core {x : Dbl} (hx : x.Fin) (h1 : |x.val| ≤ 1) : Approx (fastAtan x) (Functions.fastAtan x.val) (14 / 2 ^ 54) ∧
    ∃ q : Dbl, fastAtan x = x * q ∧ q.Fin ∧ 0 < q.val ∧ q.val ≤ 2 := by
  obtain ⟨v, hv⟩ : ∃ v, v = x.val := ⟨_, rfl⟩
  have hx0 : Approx x v 0 := hv ▸ approx_self hx
  rw [← hv] at h1 ⊢
  have hy0 : 0 ≤ v * v := mul_self_nonneg v
  have hy1 : v * v ≤ 1 := by
    have := abs_le.1 h1
    nlinarith
  have hw0 : 0 ≤ v * v * (v * v) := mul_self_nonneg _
  have hw1 : v * v * (v * v) ≤ 1 := by nlinarith
  have hy : |v * v| ≤ 1 := by rwa [abs_of_nonneg hy0]
  have hw : |v * v * (v * v)| ≤ 1 := by rwa [abs_of_nonneg hw0]
  have x2 : Approx (x * x) (v * v) (1 / 2 ^ 54) := hx0.mul hx0 0 (by decide) (by decide) h1 h1 (by norm_num) (by norm_num [mb])
  have x4 : Approx (x * x * (x * x)) (v * v * (v * v)) (5 / 2 ^ 54) := x2.mul x2 1 (by decide) (by decide) hy hy (by norm_num) (by norm_num [mb])
  have a1 : Approx (d 9998660 7) (9998660 / 10000000) (1 / 2 ^ 54) := by
    have := approx_lit (spec := .binary64) (m := 9998660) (k := 7) 0 (by decide) (by decide) (by decide) (by decide) (by decide) (by norm_num)
    norm_num [mb] at this ⊢
    exact this
  have a3 : Approx (d 3302995 7) (3302995 / 10000000) (1 / 2 ^ 55) := by
    have := approx_lit (spec := .binary64) (m := 3302995) (k := 7) (-1) (by decide) (by decide) (by decide) (by decide) (by decide) (by norm_num)
    norm_num [mb] at this ⊢
    exact this
  have a5 : Approx (d 1801410 7) (1801410 / 10000000) (1 / 2 ^ 56) := by
    have := approx_lit (spec := .binary64) (m := 1801410) (k := 7) (-2) (by decide) (by decide) (by decide) (by decide) (by decide) (by norm_num)
    norm_num [mb] at this ⊢
    exact this
  have a7 : Approx (d 851330 7) (851330 / 10000000) (1 / 2 ^ 57) := by
    have := approx_lit (spec := .binary64) (m := 851330) (k := 7) (-3) (by decide) (by decide) (by decide) (by decide) (by decide) (by norm_num)
    norm_num [mb] at this ⊢
    exact this
  have a9 : Approx (d 208351 7) (208351 / 10000000) (1 / 2 ^ 59) := by
    have := approx_lit (spec := .binary64) (m := 208351) (k := 7) (-5) (by decide) (by decide) (by decide) (by decide) (by decide) (by norm_num)
    norm_num [mb] at this ⊢
    exact this
  have t7 := a7.neg.mul x4 (E := 1 / 2 ^ 54) (V := 851330 / 10000000) (W := 1) (-3) (by decide) (by decide) (by rw [abs_le]; constructor <;> norm_num) hw (by norm_num) (by norm_num [mb])
  have t3 := a3.neg.add t7 (E := 2 / 2 ^ 54) (V := 3302995 / 10000000) (W := 851330 / 10000000) (-1) (by decide) (by decide) (by rw [abs_le]; constructor <;> norm_num)
    (by rw [abs_le]; constructor <;> linarith) (by norm_num) (by norm_num [mb])
  have b3 : |-(3302995 / 10000000) + -(851330 / 10000000) * (v * v * (v * v))| ≤ 4155 / 10000 := by rw [abs_le]; constructor <;> linarith
  have u3 := x2.mul t3 (E := 3 / 2 ^ 54) (-1) (by decide) (by decide) hy b3 (by norm_num) (by norm_num [mb])
  have c3 : |v * v * (-(3302995 / 10000000) + -(851330 / 10000000) * (v * v * (v * v)))| ≤ 4155 / 10000 := by
    rw [abs_mul]
    exact (mul_le_mul hy b3 (abs_nonneg _) (by norm_num)).trans (by norm_num)
  have t1 := a1.add u3 (E := 6 / 2 ^ 54) (V := 1) (1) (by decide) (by decide) (by rw [abs_le]; constructor <;> norm_num) c3 (by norm_num) (by norm_num [mb])
  have t9 := a9.mul x4 (E := 1 / 2 ^ 54) (V := 208351 / 10000000) (W := 1) (-5) (by decide) (by decide) (by rw [abs_le]; constructor <;> norm_num) hw (by norm_num) (by norm_num [mb])
  have t5 := a5.add t9 (E := 2 / 2 ^ 54) (V := 1801410 / 10000000) (W := 208351 / 10000000) (-2) (by decide) (by decide) (by rw [abs_le]; constructor <;> norm_num)
    (by rw [abs_le]; constructor <;> linarith) (by norm_num) (by norm_num [mb])
  have b5 : |1801410 / 10000000 + 208351 / 10000000 * (v * v * (v * v))| ≤ 201 / 1000 := by rw [abs_le]; constructor <;> linarith
  have u5 := x4.mul t5 (E := 4 / 2 ^ 54) (-2) (by decide) (by decide) hw b5 (by norm_num) (by norm_num [mb])
  have c5 : |v * v * (v * v) * (1801410 / 10000000 + 208351 / 10000000 * (v * v * (v * v)))| ≤ 201 / 1000 := by
    rw [abs_mul]
    exact (mul_le_mul hw b5 (abs_nonneg _) (by norm_num)).trans (by norm_num)
  have c1 : |9998660 / 10000000 + v * v * (-(3302995 / 10000000) + -(851330 / 10000000) * (v * v * (v * v)))| ≤ 1416 / 1000 := by
    rw [abs_le] at c3 ⊢
    constructor <;> linarith
  have s := t1.add u5 (E := 12 / 2 ^ 54) 1 (by decide) (by decide) c1 c5 (by norm_num) (by norm_num [mb])
  have cs := (abs_add_le _ _).trans (add_le_add c1 c5)
  have r := hx0.mul s (E := 14 / 2 ^ 54) 1 (by decide) (by decide) h1 cs (by norm_num) (by norm_num [mb])
  have he : Functions.fastAtan v = v * (9998660 / 10000000 + v * v * (-(3302995 / 10000000) + -(851330 / 10000000) * (v * v * (v * v))) +
      v * v * (v * v) * (1801410 / 10000000 + 208351 / 10000000 * (v * v * (v * v)))) := by
    simp only [Functions.fastAtan]
    ring
  rw [he]
  have c5' : 0 ≤ v * v * (v * v) * (1801410 / 10000000 + 208351 / 10000000 * (v * v * (v * v))) := by positivity
  have hs := abs_le.1 s.2
  refine ⟨r, _, rfl, s.1, ?_, ?_⟩
  · have h3 := (abs_le.1 c3).1
    have : (12 / 2 ^ 54 : ℝ) ≤ 1 / 10 := by norm_num
    linarith [hs.1]
  · have h3 := (abs_le.1 c1).2
    have h5 := (abs_le.1 c5).2
    have : (12 / 2 ^ 54 : ℝ) ≤ 1 / 10 := by norm_num
    linarith [hs.2]

theorem fastAtanf_core {x : Flt} (hx : x.Fin) (h1 : |x.val| ≤ 1) : Approx (fastAtanf x) (Functions.fastAtan x.val) (14 / 2 ^ 25) ∧
    ∃ q : Flt, fastAtanf x = x * q ∧ q.Fin ∧ 0 < q.val ∧ q.val ≤ 2 := by
  obtain ⟨v, hv⟩ : ∃ v, v = x.val := ⟨_, rfl⟩
  have hx0 : Approx x v 0 := hv ▸ approx_self hx
  rw [← hv] at h1 ⊢
  have hy0 : 0 ≤ v * v := mul_self_nonneg v
  have hy1 : v * v ≤ 1 := by
    have := abs_le.1 h1
    nlinarith
  have hw0 : 0 ≤ v * v * (v * v) := mul_self_nonneg _
  have hw1 : v * v * (v * v) ≤ 1 := by nlinarith
  have hy : |v * v| ≤ 1 := by rwa [abs_of_nonneg hy0]
  have hw : |v * v * (v * v)| ≤ 1 := by rwa [abs_of_nonneg hw0]
  have x2 : Approx (x * x) (v * v) (1 / 2 ^ 25) := hx0.mul hx0 0 (by decide) (by decide) h1 h1 (by norm_num) (by norm_num [mb])
  have x4 : Approx (x * x * (x * x)) (v * v * (v * v)) (5 / 2 ^ 25) := x2.mul x2 1 (by decide) (by decide) hy hy (by norm_num) (by norm_num [mb])
  have a1 : Approx (f 9998660 7) (9998660 / 10000000) (1 / 2 ^ 25) := by
    have := approx_lit (spec := .binary32) (m := 9998660) (k := 7) 0 (by decide) (by decide) (by decide) (by decide) (by decide) (by norm_num)
    norm_num [mb] at this ⊢
    exact this
  have a3 : Approx (f 3302995 7) (3302995 / 10000000) (1 / 2 ^ 26) := by
    have := approx_lit (spec := .binary32) (m := 3302995) (k := 7) (-1) (by decide) (by decide) (by decide) (by decide) (by decide) (by norm_num)
    norm_num [mb] at this ⊢
    exact this
  have a5 : Approx (f 1801410 7) (1801410 / 10000000) (1 / 2 ^ 27) := by
    have := approx_lit (spec := .binary32) (m := 1801410) (k := 7) (-2) (by decide) (by decide) (by decide) (by decide) (by decide) (by norm_num)
    norm_num [mb] at this ⊢
    exact this
  have a7 : Approx (f 851330 7) (851330 / 10000000) (1 / 2 ^ 28) := by
    have := approx_lit (spec := .binary32) (m := 851330) (k := 7) (-3) (by decide) (by decide) (by decide) (by decide) (by decide) (by norm_num)
    norm_num [mb] at this ⊢
    exact this
  have a9 : Approx (f 208351 7) (208351 / 10000000) (1 / 2 ^ 30) := by
    have := approx_lit (spec := .binary32) (m := 208351) (k := 7) (-5) (by decide) (by decide) (by decide) (by decide) (by decide) (by norm_num)
    norm_num [mb] at this ⊢
    exact this
  have t7 := a7.neg.mul x4 (E := 1 / 2 ^ 25) (V := 851330 / 10000000) (W := 1) (-3) (by decide) (by decide) (by rw [abs_le]; constructor <;> norm_num) hw (by norm_num) (by norm_num [mb])
  have t3 := a3.neg.add t7 (E := 2 / 2 ^ 25) (V := 3302995 / 10000000) (W := 851330 / 10000000) (-1) (by decide) (by decide) (by rw [abs_le]; constructor <;> norm_num)
    (by rw [abs_le]; constructor <;> linarith) (by norm_num) (by norm_num [mb])
  have b3 : |-(3302995 / 10000000) + -(851330 / 10000000) * (v * v * (v * v))| ≤ 4155 / 10000 := by rw [abs_le]; constructor <;> linarith
  have u3 := x2.mul t3 (E := 3 / 2 ^ 25) (-1) (by decide) (by decide) hy b3 (by norm_num) (by norm_num [mb])
  have c3 : |v * v * (-(3302995 / 10000000) + -(851330 / 10000000) * (v * v * (v * v)))| ≤ 4155 / 10000 := by
    rw [abs_mul]
    exact (mul_le_mul hy b3 (abs_nonneg _) (by norm_num)).trans (by norm_num)
  have t1 := a1.add u3 (E := 6 / 2 ^ 25) (V := 1) (1) (by decide) (by decide) (by rw [abs_le]; constructor <;> norm_num) c3 (by norm_num) (by norm_num [mb])
  have t9 := a9.mul x4 (E := 1 / 2 ^ 25) (V := 208351 / 10000000) (W := 1) (-5) (by decide) (by decide) (by rw [abs_le]; constructor <;> norm_num) hw (by norm_num) (by norm_num [mb])
  have t5 := a5.add t9 (E := 2 / 2 ^ 25) (V := 1801410 / 10000000) (W := 208351 / 10000000) (-2) (by decide) (by decide) (by rw [abs_le]; constructor <;> norm_num)
    (by rw [abs_le]; constructor <;> linarith) (by norm_num) (by norm_num [mb])
  have b5 : |1801410 / 10000000 + 208351 / 10000000 * (v * v * (v * v))| ≤ 201 / 1000 := by rw [abs_le]; constructor <;> linarith
  have u5 := x4.mul t5 (E := 4 / 2 ^ 25) (-2) (by decide) (by decide) hw b5 (by norm_num) (by norm_num [mb])
  have c5 : |v * v * (v * v) * (1801410 / 10000000 + 208351 / 10000000 * (v * v * (v * v)))| ≤ 201 / 1000 := by
    rw [abs_mul]
    exact (mul_le_mul hw b5 (abs_nonneg _) (by norm_num)).trans (by norm_num)
  have c1 : |9998660 / 10000000 + v * v * (-(3302995 / 10000000) + -(851330 / 10000000) * (v * v * (v * v)))| ≤ 1416 / 1000 := by
    rw [abs_le] at c3 ⊢
    constructor <;> linarith
  have s := t1.add u5 (E := 12 / 2 ^ 25) 1 (by decide) (by decide) c1 c5 (by norm_num) (by norm_num [mb])
  have cs := (abs_add_le _ _).trans (add_le_add c1 c5)
  have r := hx0.mul s (E := 14 / 2 ^ 25) 1 (by decide) (by decide) h1 cs (by norm_num) (by norm_num [mb])
  have he : Functions.fastAtan v = v * (9998660 / 10000000 + v * v * (-(3302995 / 10000000) + -(851330 / 10000000) * (v * v * (v * v))) +
      v * v * (v * v) * (1801410 / 10000000 + 208351 / 10000000 * (v * v * (v * v)))) := by
    simp only [Functions.fastAtan]
    ring
  rw [he]
  have c5' : 0 ≤ v * v * (v * v) * (1801410 / 10000000 + 208351 / 10000000 * (v * v * (v * v))) := by positivity
  have hs := abs_le.1 s.2
  refine ⟨r, _, rfl, s.1, ?_, ?_⟩
  · have h3 := (abs_le.1 c3).1
    have : (12 / 2 ^ 25 : ℝ) ≤ 1 / 10 := by norm_num
    linarith [hs.1]
  · have h3 := (abs_le.1 c1).2
    have h5 := (abs_le.1 c5).2
    have : (12 / 2 ^ 25 : ℝ) ≤ 1 / 10 := by norm_num
    linarith [hs.2]

end Verif.FunctionsFp
