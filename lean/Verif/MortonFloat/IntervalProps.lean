import Verif.MortonFloat.Interval
import Verif.MortonFloat.Props

/-! Property theorems C70 and C72 (see properties.jsonl). -/
namespace Verif.MortonFloat
open Verif.NumericTraits Verif.MortonFloat.Spec Verif.Morton

/-! ### C70 -/

/-- The meaning of `1 << -1` in the standard. -/
def strict : Outcome Int := .error (.ub .shift)

/-- C70 for a pair: the call is defined, the interval contains both numbers, and `mid` separates them if they differ. -/
def C70_at (shlNeg : Outcome Int) (a b : BitVec 32) : Prop :=
  ∃ r : Pow2Interval 32, intervalPow2Float shlNeg .f32 a b = .ok r ∧
    scaled r.low ≤ min (scaled a) (scaled b) ∧ max (scaled a) (scaled b) ≤ scaled r.upp ∧
    (scaled a ≠ scaled b → (min (scaled a) (scaled b) < scaled r.mid ∧ scaled r.mid ≤ max (scaled a) (scaled b)) ∨
      (min (scaled a) (scaled b) ≤ scaled r.mid ∧ scaled r.mid < max (scaled a) (scaled b)))

/-- C70: every pair of finite floats. -/
def C70_statement : Prop := ∀ a b : BitVec 32, Spec.Finite a → Spec.Finite b → C70_at strict a b

theorem absScaled_inj {a b : BitVec 32} (hs : neg a = neg b) (h : absScaled a = absScaled b) : a = b := by
  have h1 := absScaled_lt_iff a b
  have h2 := absScaled_lt_iff b a
  have hm : mag a = mag b := by omega
  have fa := frac_lt a
  have fb := frac_lt b
  rw [mag_eq, mag_eq] at hm
  exact eq_of_fields hs (by omega) (by omega)

theorem max_absScaled {a : BitVec 32} (h : expo a ≤ 254) : absScaled a ≤ absScaled 0x7F7FFFFF#32 := by
  by_contra hc
  have hlt := (absScaled_lt_iff 0x7F7FFFFF#32 a).2 (by omega)
  have fa := frac_lt a
  rw [mag_eq a, show mag 0x7F7FFFFF#32 = 2139095039 by decide] at hlt
  omega

theorem expo_mono {a b : BitVec 32} (h : absScaled a < absScaled b) : expo a ≤ expo b := by
  by_contra hc
  have fa := frac_lt a
  have fb := frac_lt b
  have := (absScaled_lt_iff b a).1 (by rw [mag_eq, mag_eq]; omega)
  omega

theorem step_dvd (b : BitVec 32) : 2 ^ max 1 (expo b) ∣ absScaled b := by
  unfold absScaled
  split
  · rename_i h; rw [h]; exact Dvd.intro _ rfl
  · rw [show max 1 (expo b) = expo b by omega]; exact Dvd.intro_left _ rfl

theorem cell_dvd {a b : BitVec 32} (hlt : absScaled a < absScaled b) : 2 ^ max 1 (expo b) ∣
    absScaled a / 2 ^ (absScaled a ^^^ absScaled b).size * 2 ^ (absScaled a ^^^ absScaled b).size + 2 ^ (absScaled a ^^^ absScaled b).size := by
  have hle := expo_mono hlt
  have hK : max 1 (expo b) ≤ (absScaled a ^^^ absScaled b).size := by
    by_cases he : expo a = expo b
    · have fab : frac a < frac b := by
        have := (absScaled_lt_iff a b).2 hlt
        rw [mag_eq, mag_eq] at this; omega
      rw [absSize hle fun _ => fab]; omega
    · rw [absSize hle fun h => absurd h he]; omega
  have hd := pow_dvd_pow 2 hK
  exact dvd_add (Dvd.dvd.mul_left hd _) hd

/-- The interval of two numbers of the same sign: magnitudes lie between the bound near zero and the bound far from zero. -/
theorem GoodPair.mem {a b : BitVec 32} {r : Pow2Interval 32} (g : GoodPair a b r) (hlt : absScaled a < absScaled b) :
    absScaled (if neg a then r.upp else r.low) ≤ absScaled a ∧ absScaled a < absScaled r.mid ∧ absScaled r.mid ≤ absScaled b ∧
      absScaled b ≤ absScaled (if neg a then r.low else r.upp) := by
  have hcell : Morton.Spec.SameCell (absScaled a ^^^ absScaled b).size (absScaled a) (absScaled b) := size_xor_le.1 (le_refl _)
  have hm := cell_mem hcell
  have hma := cell_mem (show Morton.Spec.SameCell (absScaled a ^^^ absScaled b).size (absScaled a) (absScaled a) from rfl)
  have hsp := cell_split hlt
  refine ⟨by rw [g.near]; exact hma.1, by rw [g.mid]; exact hsp.1, by rw [g.mid]; exact hsp.2, ?_⟩
  -- the far bound is one step below the end of the cell, and `b` is a multiple of the step below the end
  have hfar := g.far
  have hle := expo_mono hlt
  rw [show max (expo a) (expo b) = expo b by omega] at hfar
  obtain ⟨p, hp⟩ := step_dvd b
  obtain ⟨q, hq⟩ := cell_dvd hlt
  have hpos : 0 < 2 ^ max 1 (expo b) := by positivity
  have hbC := hm.2
  rw [hq] at hfar hbC
  rw [hp] at hbC
  have hpq : p < q := lt_of_mul_lt_mul_left hbC (Nat.zero_le _)
  have : 2 ^ max 1 (expo b) * (p + 1) ≤ 2 ^ max 1 (expo b) * q := Nat.mul_le_mul_left _ hpq
  rw [Nat.mul_add, Nat.mul_one, ← hp] at this
  omega

/-- The bound far from zero is the largest float in the cell. -/
theorem GoodPair.far_max {a b : BitVec 32} {r : Pow2Interval 32} (g : GoodPair a b r) (hlt : absScaled a < absScaled b) (f : BitVec 32)
    (hf : absScaled f < absScaled a / 2 ^ (absScaled a ^^^ absScaled b).size * 2 ^ (absScaled a ^^^ absScaled b).size + 2 ^ (absScaled a ^^^ absScaled b).size) :
    absScaled f ≤ absScaled (if neg a then r.low else r.upp) := by
  by_contra hc
  rw [not_le] at hc
  have hmem := (g.mem hlt).2.2.2
  have hfar := g.far
  have hle := expo_mono hlt
  have hle2 := expo_mono (a := b) (b := f) (by omega)
  rw [show max (expo a) (expo b) = expo b by omega] at hfar
  obtain ⟨q, hq⟩ := cell_dvd hlt
  obtain ⟨p, hp⟩ := (pow_dvd_pow 2 (show max 1 (expo b) ≤ max 1 (expo f) by omega)).trans (step_dvd f)
  rw [hq] at hfar hf
  rw [hp] at hf
  have hpq : p < q := lt_of_mul_lt_mul_left hf (Nat.zero_le _)
  have : 2 ^ max 1 (expo b) * (p + 1) ≤ 2 ^ max 1 (expo b) * q := Nat.mul_le_mul_left _ hpq
  rw [Nat.mul_add, Nat.mul_one, ← hp] at this
  omega

/-- C70 for different patterns. Missing: equal arguments, for which the call is undefined (below). -/
theorem C70_bounds_partial (shlNeg : Outcome Int) (a b : BitVec 32) (ha : Spec.Finite a) (hb : Spec.Finite b) (hne : a ≠ b) : C70_at shlNeg a b := by
  by_cases hs : neg a = neg b
  · obtain ⟨r, hr, g⟩ := interval_same shlNeg ha hb hs hne
    refine ⟨r, hr, ?_⟩
    obtain ⟨n1, n2, n3⟩ := g.signs
    have hA : absScaled a ≠ absScaled b := fun h => hne (absScaled_inj hs h)
    have key : absScaled (if neg a then r.upp else r.low) ≤ min (absScaled a) (absScaled b) ∧
        min (absScaled a) (absScaled b) < absScaled r.mid ∧ absScaled r.mid ≤ max (absScaled a) (absScaled b) ∧
        max (absScaled a) (absScaled b) ≤ absScaled (if neg a then r.low else r.upp) := by
      rcases Nat.lt_or_ge (absScaled a) (absScaled b) with h | h
      · rw [min_eq_left (le_of_lt h), max_eq_right (le_of_lt h)]
        exact g.mem h
      · rw [min_eq_right h, max_eq_left h, hs]
        exact (goodPair_symm hs.symm g).mem (by omega)
    unfold scaled
    rw [n1, n2, n3, ← hs]
    cases hn : neg a <;> rw [hn] at key <;> simp only [Bool.false_eq_true, if_false, if_true] at key ⊢ <;> omega
  · refine ⟨_, interval_signs shlNeg hs, ?_⟩
    have m1 := max_absScaled ha
    have m2 := max_absScaled hb
    have e1 : scaled 0xFF7FFFFF#32 = -(absScaled 0x7F7FFFFF#32 : ℤ) := by decide +kernel
    have e2 : scaled 0x7F7FFFFF#32 = (absScaled 0x7F7FFFFF#32 : ℤ) := by decide +kernel
    have e3 : scaled 0#32 = 0 := by decide
    dsimp only
    rw [e1, e2, e3]
    generalize absScaled 0x7F7FFFFF#32 = M at *
    unfold scaled
    cases hna : neg a <;> cases hnb : neg b <;> rw [hna, hnb] at hs <;> simp only [Bool.false_eq_true, if_false, if_true] <;>
      first | exact absurd rfl hs | omega

/-- Two different numbers of the same sign, not both subnormal: the interval is the smallest dyadic one. `K` is the size of the smallest cell
containing both magnitudes (in units of 2^-150): the returned level is `K - 150`, the bound near zero is the beginning of the cell, `mid` its
middle, and the bound far from zero is the largest float in the cell. Missing: subnormals, for which the level is one less. -/
theorem C70_dyadic_partial (shlNeg : Outcome Int) (a b : BitVec 32) (ha : Spec.Finite a) (hb : Spec.Finite b) (hs : neg a = neg b) (hne : a ≠ b)
    (hsub : ¬ (expo a = 0 ∧ expo b = 0)) :
    ∃ (r : Pow2Interval 32) (K c : ℕ), intervalPow2Float shlNeg .f32 a b = .ok r ∧ r.level = (K : ℤ) - 150 ∧
      IsLeast {k | absScaled a / 2 ^ k = absScaled b / 2 ^ k} K ∧ c = absScaled a / 2 ^ K * 2 ^ K ∧
      absScaled (if neg a then r.upp else r.low) = c ∧ absScaled r.mid = c + 2 ^ (K - 1) ∧
      absScaled (if neg a then r.low else r.upp) < c + 2 ^ K ∧
      (∀ f : BitVec 32, absScaled f < c + 2 ^ K → absScaled f ≤ absScaled (if neg a then r.low else r.upp)) := by
  obtain ⟨r, hr, g⟩ := interval_same shlNeg ha hb hs hne
  have hlev := g.level
  rw [if_neg hsub] at hlev
  refine ⟨r, (absScaled a ^^^ absScaled b).size, _, hr, hlev, ⟨size_xor_le.1 (le_refl _), fun k hk => size_xor_le.2 hk⟩, rfl, g.near, g.mid, ?_, ?_⟩
  · have := g.far
    have : 0 < 2 ^ max 1 (max (expo a) (expo b)) := by positivity
    omega
  · intro f hf
    have hA : absScaled a ≠ absScaled b := fun h => hne (absScaled_inj hs h)
    rcases Nat.lt_or_ge (absScaled a) (absScaled b) with h | h
    · exact g.far_max h f hf
    · rw [hs]
      refine (goodPair_symm hs.symm g).far_max (by omega) f ?_
      rw [Nat.xor_comm, show absScaled b / 2 ^ (absScaled a ^^^ absScaled b).size = absScaled a / 2 ^ (absScaled a ^^^ absScaled b).size from
        (size_xor_le.1 (le_refl _)).symm]
      exact hf

-- 5 and 7: cell [4, 8), mid 6, level 2; -5 and -7: [-8 + one step, -4], mid -6
example : intervalPow2Float strict .f32 0x40A00000#32 0x40E00000#32 = .ok ⟨2, 0x40800000#32, 0x40C00000#32, 0x40FFFFFF#32⟩ := by decide +kernel
example : intervalPow2Float strict .f32 0xC0A00000#32 0xC0E00000#32 = .ok ⟨2, 0xC0FFFFFF#32, 0xC0C00000#32, 0xC0800000#32⟩ := by decide +kernel
-- 1 and 10: cell [0, 16), mid 8
example : intervalPow2Float strict .f32 0x3F800000#32 0x41200000#32 = .ok ⟨4, 0#32, 0x41000000#32, 0x417FFFFF#32⟩ := by decide +kernel

/-- Equal arguments make the shift count -1: the call is undefined for every float. -/
theorem C70_equal_violated (a : BitVec 32) : intervalPow2Float strict .f32 a a = .error (.ub .shift) := by
  have fa := frac_lt a
  unfold intervalPow2Float
  rw [decompose_eq]
  dsimp only
  rw [if_neg (by simp), if_neg (by omega)]
  have hlev := level_step (E1 := expo a) (E2 := expo a) fa fa (le_refl _)
  unfold intervalOrdered
  dsimp only
  erw [hlev]
  have hg : gap (expo a) (frac a) (expo a) (frac a) = 0 := by unfold gap; rw [if_neg (lt_irrefl _), Nat.xor_self]; rfl
  rw [hg]
  rfl

theorem C70_violated : ¬ C70_statement := by
  intro h
  obtain ⟨r, hr, -⟩ := h 0#32 0#32 (by unfold Spec.Finite; decide) (by unfold Spec.Finite; decide)
  rw [C70_equal_violated] at hr
  cases hr

/-- For `double` the mask `1 << level` is computed in `int`: numbers that differ in a mantissa bit above 30 are not supported. -/
theorem C70_double_violated : intervalPow2Float strict .f64 0x3FF0000000000000#64 0x4000000000000000#64 = .error (.ub .shift) := by decide +kernel

/-! ### C72 -/

/-- The pairs of coordinates for which the split is proved: different finite floats that are nonnegative and not both subnormal, or of which one is
negative and not -0 and the other one is not negative. -/
def Splittable (a b : BitVec 32) : Prop := Spec.Finite a ∧ Spec.Finite b ∧ a ≠ b ∧
  ((neg a = false ∧ neg b = false ∧ ¬ (expo a = 0 ∧ expo b = 0)) ∨ (neg a = true ∧ neg b = false ∧ absScaled a ≠ 0) ∨
    (neg a = false ∧ neg b = true ∧ absScaled b ≠ 0))

/-- What the interval of such a pair satisfies. -/
structure GoodSplitPair (a b : BitVec 32) (r : Pow2Interval 32) : Prop where
  finite : Spec.Finite r.low ∧ Spec.Finite r.mid
  level : r.level = (lev a b : ℤ) - 150
  cell : Morton.Spec.SameCell (lev a b) (biased a) (biased r.low)
  low : biased r.low ≤ biased a ∧ biased r.low ≤ biased b
  upp : biased a ≤ biased r.upp ∧ biased b ≤ biased r.upp
  mid : biased r.mid = biased a / 2 ^ lev a b * 2 ^ lev a b + 2 ^ (lev a b - 1)

theorem biased_lowest : biased 0xFF7FFFFF#32 = 2 ^ 254 ∧ biased 0#32 = 2 ^ 278 ∧ biased 0x7F7FFFFF#32 = 2 ^ 279 - 2 ^ 254 := by
  refine ⟨by decide +kernel, by decide +kernel, by decide +kernel⟩

theorem lev_nonneg {a b : BitVec 32} (ha : expo a ≤ 254) (hb : expo b ≤ 254) (na : neg a = false) (nb : neg b = false) :
    lev a b = (absScaled a ^^^ absScaled b).size ∧ lev a b ≤ 278 := by
  have h1 := absScaled_lt ha
  have h2 := absScaled_lt hb
  have : lev a b = (absScaled a ^^^ absScaled b).size := by
    unfold lev
    rw [biased_pos na, biased_pos nb]
    have := xor_cancel (n := 278) (c := 1) h1 h2
    rw [Nat.mul_one] at this
    rw [this]
  refine ⟨this, ?_⟩
  rw [this]
  exact Nat.size_le.2 (Nat.xor_lt_two_pow h1 h2)

theorem splittable_good (shlNeg : Outcome Int) {a b : BitVec 32} (h : Splittable a b) :
    ∃ r : Pow2Interval 32, intervalPow2Float shlNeg .f32 a b = .ok r ∧ GoodSplitPair a b r := by
  obtain ⟨ha, hb, hne, h⟩ := h
  rcases h with ⟨na, nb, hsub⟩ | h
  · obtain ⟨r, hr, g⟩ := interval_same shlNeg ha hb (by rw [na, nb]) hne
    obtain ⟨hl, hl'⟩ := lev_nonneg ha hb na nb
    have hA : absScaled a ≠ absScaled b := fun h => hne (absScaled_inj (by rw [na, nb]) h)
    have key : absScaled r.low ≤ min (absScaled a) (absScaled b) ∧ max (absScaled a) (absScaled b) ≤ absScaled r.upp := by
      rcases Nat.lt_or_ge (absScaled a) (absScaled b) with h | h
      · have := g.mem h
        rw [na] at this
        simp only [Bool.false_eq_true, if_false] at this
        omega
      · have := (goodPair_symm (by rw [na, nb]) g : GoodPair b a r).mem (by omega)
        rw [nb] at this
        simp only [Bool.false_eq_true, if_false] at this
        omega
    obtain ⟨s1, s2, s3⟩ := g.signs
    rw [na] at s1 s2 s3
    have hcell : ∀ x : ℕ, (2 ^ 278 + x) / 2 ^ lev a b = 2 ^ (278 - lev a b) + x / 2 ^ lev a b := by
      intro x
      have e : 2 ^ 278 = 2 ^ lev a b * 2 ^ (278 - lev a b) := by rw [← pow_add, Nat.add_sub_cancel' hl']
      rw [e, Nat.mul_add_div (by positivity)]
    have e : 2 ^ (278 - lev a b) * 2 ^ lev a b = 2 ^ 278 := by rw [← pow_add, Nat.sub_add_cancel hl']
    have gn := g.near
    have gm := g.mid
    rw [na] at gn
    simp only [Bool.false_eq_true, if_false] at gn
    rw [← hl] at gn gm
    refine ⟨r, hr, ⟨⟨g.finite.1, g.finite.2.1⟩, ?_, ?_, ?_, ?_, ?_⟩⟩
    · rw [g.level, if_neg hsub, hl]
    · unfold Morton.Spec.SameCell
      rw [biased_pos na, biased_pos s1, hcell, hcell, gn, Nat.mul_div_cancel _ (by positivity)]
    · rw [biased_pos na, biased_pos nb, biased_pos s1]; omega
    · rw [biased_pos na, biased_pos nb, biased_pos s3]; omega
    · rw [biased_pos na, biased_pos s2, hcell, Nat.add_mul, e, gm]
      generalize 2 ^ 278 = P
      omega
  · have hs : neg a ≠ neg b := by
      rcases h with h | h <;> rw [h.1, h.2.1] <;> simp
    have hlev : lev a b = 279 := by
      unfold lev
      rcases h with ⟨na, nb, h0⟩ | ⟨na, nb, h0⟩
      · rw [Nat.xor_comm]; exact size_signs nb na hb ha h0
      · exact size_signs na nb ha hb h0
    obtain ⟨b1, b2, b3⟩ := biased_lowest
    have lim : ∀ x : BitVec 32, expo x ≤ 254 → 2 ^ 254 ≤ biased x ∧ biased x ≤ 2 ^ 279 - 2 ^ 254 := by
      intro x hx
      have := max_absScaled hx
      have e : absScaled 0x7F7FFFFF#32 = 2 ^ 278 - 2 ^ 254 := by decide +kernel
      have e2 : 2 ^ 279 = 2 * 2 ^ 278 := by rw [← pow_succ']
      have e3 : 2 ^ 254 ≤ 2 ^ 278 := Nat.pow_le_pow_right (by norm_num) (by norm_num)
      rw [e] at this
      rw [e2]
      cases hn : neg x
      · rw [biased_pos hn]
        generalize 2 ^ 278 = P at *
        generalize 2 ^ 254 = Q at *
        omega
      · rw [biased_neg hn]
        generalize 2 ^ 278 = P at *
        generalize 2 ^ 254 = Q at *
        omega
    have hz : biased a / 2 ^ 279 = 0 := Nat.div_eq_of_lt (biased_lt ha)
    refine ⟨_, interval_signs shlNeg hs, ⟨⟨by unfold Spec.Finite; decide, by unfold Spec.Finite; decide⟩, ?_, ?_, ?_, ?_, ?_⟩⟩
    · rw [hlev]; rfl
    · unfold Morton.Spec.SameCell
      rw [hlev, hz, Nat.div_eq_of_lt (biased_lt (by decide))]
    · rw [b1]; exact ⟨(lim a ha).1, (lim b hb).1⟩
    · rw [b3]; exact ⟨(lim a ha).2, (lim b hb).2⟩
    · rw [hlev, hz, b2, Nat.zero_mul, Nat.zero_add]

/-- What is known of the loop after the iterations `d ≤ n`. -/
structure GoodSplitF (v1 v2 : ℕ → BitVec 32) (n : ℕ) (s : Split 32) : Prop where
  first : IsFirstMax (fun d => biased (v1 d) ^^^ biased (v2 d)) n s.dimSplit
  level : s.levelSplit = (lev (v1 s.dimSplit) (v2 s.dimSplit) : ℤ) - 150
  finite : (∀ d ≤ n, Spec.Finite (s.low d)) ∧ Spec.Finite (s.mid s.dimSplit)
  cell : ∀ d ≤ n, Morton.Spec.SameCell (lev (v1 d) (v2 d)) (biased (v1 d)) (biased (s.low d))
  low : ∀ d ≤ n, biased (s.low d) ≤ biased (v1 d) ∧ biased (s.low d) ≤ biased (v2 d)
  upp : ∀ d ≤ n, biased (v1 d) ≤ biased (s.upp d) ∧ biased (v2 d) ≤ biased (s.upp d)
  mid : ∀ d ≤ n, d ≠ s.dimSplit → s.mid d = s.low d
  midSplit : biased (s.mid s.dimSplit) = biased (v1 s.dimSplit) / 2 ^ lev (v1 s.dimSplit) (v2 s.dimSplit) * 2 ^ lev (v1 s.dimSplit) (v2 s.dimSplit) +
    2 ^ (lev (v1 s.dimSplit) (v2 s.dimSplit) - 1)

theorem splitLoop_good (shlNeg : Outcome Int) (v1 v2 : ℕ → BitVec 32) (n : ℕ) (h : ∀ d ≤ n, Splittable (v1 d) (v2 d)) :
    ∃ s : Split 32, splitLoop shlNeg .f32 v1 v2 n = .ok s ∧ GoodSplitF v1 v2 n s := by
  induction n with
  | zero =>
    obtain ⟨r, hr, g⟩ := splittable_good shlNeg (h 0 (le_refl _))
    have e : splitLoop shlNeg .f32 v1 v2 0 =
        .ok ⟨0, r.level, upd (fun _ => 0#32) 0 r.low, upd (fun _ => 0#32) 0 r.mid, upd (fun _ => 0#32) 0 r.upp⟩ := by
      rw [splitLoop, hr, bind_ok]; rfl
    refine ⟨_, e, ⟨⟨le_refl _, fun d hd => ?_, fun d hd => absurd hd (Nat.not_lt_zero d)⟩, g.level, ⟨fun d hd => ?_, ?_⟩, fun d hd => ?_,
      fun d hd => ?_, fun d hd => ?_, fun d hd hne => absurd (Nat.le_zero.1 hd) hne, ?_⟩⟩
    · rw [Nat.le_zero.1 hd]
    · rw [Nat.le_zero.1 hd]; simpa [upd] using g.finite.1
    · simpa [upd] using g.finite.2
    · rw [Nat.le_zero.1 hd]; simpa [upd] using g.cell
    · rw [Nat.le_zero.1 hd]; simpa [upd] using g.low
    · rw [Nat.le_zero.1 hd]; simpa [upd] using g.upp
    · simpa [upd] using g.mid
  | succ n ih =>
    obtain ⟨s, hs, gs⟩ := ih (fun d hd => h d (by omega))
    obtain ⟨r, hr, g⟩ := splittable_good shlNeg (h (n + 1) (le_refl _))
    have hsn := gs.first.le
    have e : splitLoop shlNeg .f32 v1 v2 (n + 1) = .ok (if r.level > s.levelSplit then
        ⟨n + 1, r.level, upd s.low (n + 1) r.low, upd (upd s.mid (n + 1) r.mid) s.dimSplit (upd s.low (n + 1) r.low s.dimSplit), upd s.upp (n + 1) r.upp⟩
        else ⟨s.dimSplit, s.levelSplit, upd s.low (n + 1) r.low, upd (upd s.mid (n + 1) r.mid) (n + 1) (upd s.low (n + 1) r.low (n + 1)),
          upd s.upp (n + 1) r.upp⟩) := by
      rw [splitLoop, hs, bind_ok]
      dsimp only
      rw [hr, bind_ok]
      split <;> rfl
    rw [e]
    have hfin : ∀ d ≤ n + 1, Spec.Finite (upd s.low (n + 1) r.low d) := by
      intro d hd
      by_cases hd' : d = n + 1
      · subst hd'; simpa [upd] using g.finite.1
      · simpa [upd, hd'] using gs.finite.1 d (by omega)
    have hcell : ∀ d ≤ n + 1, Morton.Spec.SameCell (lev (v1 d) (v2 d)) (biased (v1 d)) (biased (upd s.low (n + 1) r.low d)) := by
      intro d hd
      by_cases hd' : d = n + 1
      · subst hd'; simpa [upd] using g.cell
      · simpa [upd, hd'] using gs.cell d (by omega)
    have hlow : ∀ d ≤ n + 1, biased (upd s.low (n + 1) r.low d) ≤ biased (v1 d) ∧ biased (upd s.low (n + 1) r.low d) ≤ biased (v2 d) := by
      intro d hd
      by_cases hd' : d = n + 1
      · subst hd'; simpa [upd] using g.low
      · simpa [upd, hd'] using gs.low d (by omega)
    have hupp : ∀ d ≤ n + 1, biased (v1 d) ≤ biased (upd s.upp (n + 1) r.upp d) ∧ biased (v2 d) ≤ biased (upd s.upp (n + 1) r.upp d) := by
      intro d hd
      by_cases hd' : d = n + 1
      · subst hd'; simpa [upd] using g.upp
      · simpa [upd, hd'] using gs.upp d (by omega)
    by_cases hl : r.level > s.levelSplit
    · rw [if_pos hl]
      rw [g.level, gs.level] at hl
      unfold lev at hl
      refine ⟨_, rfl, ⟨⟨le_refl _, fun d hd => ?_, fun d hd => ?_⟩, g.level, ⟨hfin, ?_⟩, hcell, hlow, hupp, fun d hd hne => ?_, ?_⟩⟩
      · rcases Nat.lt_or_ge d (n + 1) with h' | h'
        · have := gs.first.ge_all d (by omega)
          simp only at this ⊢; omega
        · rw [show d = n + 1 by omega]
      · have := gs.first.ge_all d (by simp only at hd; omega)
        simp only at this ⊢; omega
      · have h1 : n + 1 ≠ s.dimSplit := by omega
        simpa [upd, h1] using g.finite.2
      · simp only at hne ⊢
        by_cases hds : d = s.dimSplit
        · simp [upd, hds]
        · simp only [upd, hds, hne, if_false]
          exact gs.mid d (by omega) hds
      · simp only
        have h1 : n + 1 ≠ s.dimSplit := by omega
        simpa [upd, h1] using g.mid
    · rw [if_neg hl]
      rw [g.level, gs.level] at hl
      unfold lev at hl
      refine ⟨_, rfl, ⟨⟨by simp only; omega, fun d hd => ?_, gs.first.first⟩, gs.level, ⟨hfin, ?_⟩, hcell, hlow, hupp, fun d hd hne => ?_, ?_⟩⟩
      · rcases Nat.lt_or_ge d (n + 1) with h' | h'
        · exact gs.first.ge_all d (by omega)
        · rw [show d = n + 1 by omega]; simp only; omega
      · have h1 : s.dimSplit ≠ n + 1 := by omega
        simpa [upd, h1] using gs.finite.2
      · simp only at hne ⊢
        by_cases hds : d = n + 1
        · simp [upd, hds]
        · simp only [upd, hds, if_false]
          exact gs.mid d (by omega) hne
      · simp only
        have h1 : s.dimSplit ≠ n + 1 := by omega
        simpa [upd, h1] using gs.midSplit

/-- C72 for a pair of vectors: the split vector `mid` lies after `v1` and not after `v2` in Z-order, and the box `low`, `upp` contains both. -/
def C72_at (shlNeg : Outcome Int) (dim : ℕ) (v1 v2 : ℕ → BitVec 32) : Prop :=
  ∃ s : Split 32, mortonSplitFloat shlNeg .f32 dim v1 v2 = .ok s ∧
    Morton.Spec.code 279 dim (fun d => biased (v1 d)) < Morton.Spec.code 279 dim (fun d => biased (s.mid d)) ∧
    Morton.Spec.code 279 dim (fun d => biased (s.mid d)) ≤ Morton.Spec.code 279 dim (fun d => biased (v2 d)) ∧
    ∀ d < dim, scaled (s.low d) ≤ min (scaled (v1 d)) (scaled (v2 d)) ∧ max (scaled (v1 d)) (scaled (v2 d)) ≤ scaled (s.upp d)

/-- C72: all vectors of finite floats with `v1` before `v2`. -/
def C72_statement : Prop := ∀ (dim : ℕ) (v1 v2 : ℕ → BitVec 32), 0 < dim → (∀ d < dim, Spec.Finite (v1 d) ∧ Spec.Finite (v2 d)) →
  Morton.Spec.code 279 dim (fun d => biased (v1 d)) < Morton.Spec.code 279 dim (fun d => biased (v2 d)) → C72_at strict dim v1 v2

theorem biased_le_left {a b : BitVec 32} (h : biased a ≤ biased b) (hb : Spec.Finite b) : scaled a ≤ scaled b := by
  have h2 := biased_cast hb
  have h1 : (2 : ℤ) ^ 278 + scaled a ≤ (biased a : ℤ) := by unfold biased; exact Int.self_le_toNat _
  generalize (2 : ℤ) ^ 278 = K at *
  omega

theorem biased_le_right {a b : BitVec 32} (h : biased a ≤ biased b) (ha : Spec.Finite a) : scaled a ≤ scaled b := by
  have h2 := biased_cast ha
  have h3 := scaled_bound ha
  have h1 : (biased b : ℤ) = max ((2 : ℤ) ^ 278 + scaled b) 0 := by unfold biased; exact Int.toNat_eq_max _
  generalize (2 : ℤ) ^ 278 = K at *
  omega

/-- The split is correct when every pair of coordinates is splittable. Missing for C72: equal coordinates (undefined shift), pairs of negative
numbers (wrong, below), two subnormal numbers, and pairs of zeros of opposite sign. -/
theorem C72_split_partial (shlNeg : Outcome Int) (dim : ℕ) (v1 v2 : ℕ → BitVec 32) (h0 : 0 < dim) (h : ∀ d < dim, Splittable (v1 d) (v2 d))
    (hlt : Morton.Spec.code 279 dim (fun d => biased (v1 d)) < Morton.Spec.code 279 dim (fun d => biased (v2 d))) : C72_at shlNeg dim v1 v2 := by
  obtain ⟨s, hs, g⟩ := splitLoop_good shlNeg v1 v2 (dim - 1) (fun d hd => h d (by omega))
  refine ⟨s, hs, ?_⟩
  have hsd : s.dimSplit < dim := by have := g.first.le; omega
  have l1 : ∀ d < dim, biased (v1 d) < 2 ^ 279 := fun d hd => biased_lt (h d hd).1
  have l2 : ∀ d < dim, biased (v2 d) < 2 ^ 279 := fun d hd => biased_lt (h d hd).2.1
  have lm : ∀ d < dim, biased (s.mid d) < 2 ^ 279 := fun d hd => by
    by_cases hds : d = s.dimSplit
    · rw [hds]; exact biased_lt g.finite.2
    · rw [g.mid d (by omega) hds]; exact biased_lt (g.finite.1 d (by omega))
  have hlt' : biased (v1 s.dimSplit) < biased (v2 s.dimSplit) := (code_lt_iff h0 l1 l2 g.first).1 hlt
  have hmid := g.midSplit
  obtain ⟨hs1, hs2⟩ := cell_split hlt'
  rw [show (biased (v1 s.dimSplit) ^^^ biased (v2 s.dimSplit)).size = lev (v1 s.dimSplit) (v2 s.dimSplit) from rfl] at hs1 hs2
  have hk0 : lev (v1 s.dimSplit) (v2 s.dimSplit) ≠ 0 := fun h => by
    have := Nat.xor_eq_zero_iff.1 (Nat.size_eq_zero.1 h); omega
  refine ⟨?_, ?_, ?_⟩
  · have hcells : ∀ d < dim, Morton.Spec.SameCell (lev (v1 d) (v2 d)) (biased (v1 d)) (biased (s.mid d)) := by
      intro d hd
      by_cases hds : d = s.dimSplit
      · unfold Morton.Spec.SameCell
        rw [hds, hmid]
        have hlt2 : 2 ^ (lev (v1 s.dimSplit) (v2 s.dimSplit) - 1) < 2 ^ lev (v1 s.dimSplit) (v2 s.dimSplit) :=
          Nat.pow_lt_pow_right (by omega) (by omega)
        rw [Nat.mul_comm, Nat.mul_add_div (by positivity), Nat.div_eq_of_lt hlt2, Nat.add_zero]
      · rw [g.mid d (by omega) hds]; exact g.cell d (by omega)
    have hsz : (biased (v1 s.dimSplit) ^^^ biased (s.mid s.dimSplit)).size = (biased (v1 s.dimSplit) ^^^ biased (v2 s.dimSplit)).size := by
      apply le_antisymm (size_xor_le.2 (hcells _ hsd))
      by_contra hc
      rw [not_le] at hc
      have hc' : Morton.Spec.SameCell (lev (v1 s.dimSplit) (v2 s.dimSplit) - 1) (biased (v1 s.dimSplit)) (biased (s.mid s.dimSplit)) := by
        rw [← size_xor_le]; change _ < lev _ _ at hc; omega
      have hmm := cell_mem hc'.symm
      rw [hmid] at hmm
      set k := lev (v1 s.dimSplit) (v2 s.dimSplit) with hk
      have hp2 : 2 ^ k = 2 * 2 ^ (k - 1) := by rw [← pow_succ']; congr 1; omega
      have hdiv : (biased (v1 s.dimSplit) / 2 ^ k * 2 ^ k + 2 ^ (k - 1)) / 2 ^ (k - 1) * 2 ^ (k - 1) =
          biased (v1 s.dimSplit) / 2 ^ k * 2 ^ k + 2 ^ (k - 1) := by
        apply Nat.div_mul_cancel
        refine ⟨biased (v1 s.dimSplit) / 2 ^ k * 2 + 1, ?_⟩
        have e : ∀ q p h : ℕ, p = 2 * h → q * p + h = h * (q * 2 + 1) := by rintro q p h rfl; ring
        exact e _ _ _ hp2
      rw [hdiv] at hmm
      omega
    have hfm : IsFirstMax (fun d => biased (v1 d) ^^^ biased (s.mid d)) (dim - 1) s.dimSplit := by
      refine ⟨g.first.le, fun d hd => ?_, fun d hd => ?_⟩
      · have h1 := size_xor_le.2 (hcells d (by omega))
        have h2 := g.first.ge_all d hd
        simp only [lev] at h1 h2 ⊢; omega
      · have h1 := size_xor_le.2 (hcells d (by omega))
        have h2 := g.first.first d hd
        simp only [lev] at h1 h2 ⊢; omega
    rw [code_lt_iff h0 l1 lm hfm, hmid]
    exact hs1
  · apply code_mono h0 lm l2
    intro d hd
    by_cases hds : d = s.dimSplit
    · rw [hds, hmid]; exact hs2
    · rw [g.mid d (by omega) hds]; exact (g.low d (by omega)).2
  · intro d hd
    have h1 := g.low d (by omega)
    have h2 := g.upp d (by omega)
    obtain ⟨f1, f2, -⟩ := h d hd
    exact ⟨le_min (biased_le_left h1.1 f1) (biased_le_left h1.2 f2), max_le (biased_le_right h2.1 f1) (biased_le_right h2.2 f2)⟩

-- (1, 5) and (10, -2): the signs of the second coordinate decide; mid is (0, 0)
example : (mortonSplitFloat strict .f32 2 (v2 0x3F800000#32 0xC0000000#32) (v2 0x41200000#32 0x40A00000#32)).map (fun s => (s.dimSplit, s.levelSplit, s.mid 0, s.mid 1)) =
    .ok (1, 129, 0#32, 0#32) := by decide +kernel
example : Splittable 0x3F800000#32 0x41200000#32 ∧ Splittable 0xC0000000#32 0x40A00000#32 := by
  unfold Splittable Spec.Finite; decide +kernel

theorem one_code {a b : ℕ} (ha : a < 2 ^ 279) (hb : b < 2 ^ 279) (f g : ℕ → ℕ) (hf : f 0 = a) (hg : g 0 = b) :
    Morton.Spec.code 279 1 f < Morton.Spec.code 279 1 g ↔ a < b := by
  have hfm : IsFirstMax (fun d => f d ^^^ g d) (1 - 1) 0 :=
    ⟨le_refl _, fun d hd => by rw [Nat.le_zero.1 hd], fun d hd => absurd hd (Nat.not_lt_zero d)⟩
  rw [code_lt_iff (by omega) (fun d hd => by rw [Nat.lt_one_iff.1 hd, hf]; exact ha) (fun d hd => by rw [Nat.lt_one_iff.1 hd, hg]; exact hb) hfm, hf, hg]

/-- Two negative numbers: for -6 before -5 the split vector is -6 itself, which is not after -6. -/
theorem C72_negative_violated : ∃ a b : BitVec 32, Spec.Finite a ∧ Spec.Finite b ∧
    Morton.Spec.code 279 1 (fun _ => biased a) < Morton.Spec.code 279 1 (fun _ => biased b) ∧ ¬ C72_at strict 1 (fun _ => a) (fun _ => b) := by
  have f1 : expo 0xC0C00000#32 ≤ 254 := by decide
  have f2 : expo 0xC0A00000#32 ≤ 254 := by decide
  refine ⟨0xC0C00000#32, 0xC0A00000#32, f1, f2, (one_code (biased_lt f1) (biased_lt f2) _ _ rfl rfl).2 (by decide +kernel), ?_⟩
  rintro ⟨s, hs, h, -⟩
  have e : (mortonSplitFloat strict .f32 1 (fun _ => 0xC0C00000#32) (fun _ => 0xC0A00000#32)).map (fun s => s.mid 0) = .ok 0xC0C00000#32 := by
    decide +kernel
  rw [hs] at e
  have e' : s.mid 0 = 0xC0C00000#32 := Except.ok.inj e
  have := (one_code (biased_lt f1) (biased_lt f1) (fun d => biased 0xC0C00000#32) (fun d => biased (s.mid d)) rfl (by rw [e'])).1 h
  omega

theorem C72_violated : ¬ C72_statement := by
  obtain ⟨a, b, ha, hb, h, hn⟩ := C72_negative_violated
  exact fun hs => hn (hs 1 _ _ (by omega) (fun _ _ => ⟨ha, hb⟩) h)

end Verif.MortonFloat
