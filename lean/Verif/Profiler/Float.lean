import Verif.Ieee.Cast
import Verif.Profiler.Props

/-!
C105: the statistics of the profiler in `double` arithmetic.
-/
namespace Verif.Profiler
open Ieee Fp Float.Model

variable {L : Type} [DecidableEq L]

/-- The statement of C105: the average is between the least and the greatest measurement and the sum of the squared differences is not negative. In `double`, for finite measurements. -/
def C105_statement : Prop := ∀ (h : List (ℕ × Dbl)) (l : ℕ) (s : Stat Dbl), (∀ x ∈ samples h l, x.Fin) → run h l = some s →
  s.timeMin ≤ s.timeAvg ∧ s.timeAvg ≤ s.timeMax ∧ (0 : Dbl) ≤ s.timeVar

/-- In exact arithmetic the statement holds. -/
theorem C105_exact_partial {K : Type} [Field K] [LinearOrder K] [IsStrictOrderedRing K] (h : List (L × K)) (l : L) (s : Stat K) (hs : run h l = some s) :
    s.timeMin ≤ s.timeAvg ∧ s.timeAvg ≤ s.timeMax ∧ 0 ≤ s.timeVar := by
  rw [run_eq] at hs
  cases hx : samples h l with
  | nil => rw [hx] at hs; cases hs
  | cons x xs =>
    rw [hx] at hs
    obtain rfl := Option.some.inj hs
    clear hs hx
    suffices hh : ∀ xs : List K, let s := xs.foldl Stat.update (Stat.new x); 1 ≤ s.count ∧ s.timeMin ≤ s.timeAvg ∧ s.timeAvg ≤ s.timeMax ∧ 0 ≤ s.timeVar from (hh xs).2
    intro xs
    induction xs using List.reverseRecOn with
    | nil => simp [Stat.new]
    | append_singleton xs t ih =>
      rw [List.foldl_append, List.foldl_cons, List.foldl_nil]
      generalize xs.foldl Stat.update (Stat.new x) = s at *
      obtain ⟨h1, h2, h3, h4⟩ := ih
      have hc : (1 : K) ≤ s.count := by exact_mod_cast h1
      obtain ⟨q, hq⟩ : ∃ q, q = (t - s.timeAvg) / s.count := ⟨_, rfl⟩
      have hq' : q * s.count = t - s.timeAvg := by rw [hq]; field_simp
      have hb : (0 ≤ q ∧ s.timeAvg + q ≤ t) ∨ (q ≤ 0 ∧ t ≤ s.timeAvg + q) := by
        rcases le_total 0 q with h0 | h0
        · exact Or.inl ⟨h0, by nlinarith⟩
        · exact Or.inr ⟨h0, by nlinarith⟩
      refine ⟨by simp [Stat.update], ?_, ?_, ?_⟩
      · show (if t < s.timeMin then t else s.timeMin) ≤ s.timeAvg + (t - s.timeAvg) / s.count
        rw [← hq]
        split <;> rcases hb with ⟨a, b⟩ | ⟨a, b⟩ <;> linarith
      · show s.timeAvg + (t - s.timeAvg) / s.count ≤ (if s.timeMax < t then t else s.timeMax)
        rw [← hq]
        split <;> rcases hb with ⟨a, b⟩ | ⟨a, b⟩ <;> linarith
      · show 0 ≤ s.timeVar + (t - (s.timeAvg + (t - s.timeAvg) / s.count)) * (t - s.timeAvg)
        rw [← hq]
        rcases hb with ⟨a, b⟩ | ⟨a, b⟩
        · exact add_nonneg h4 (mul_nonneg (by linarith) (by linarith))
        · exact add_nonneg h4 (mul_nonneg_of_nonpos_of_nonpos (by linarith) (by linarith))

theorem top64 : top Format.binary64 = 1023 := by decide
theorem min64 : Format.binary64.minExponent = -1074 := by decide
theorem mb64 : ((Format.binary64.mantissaBits : ℕ) : ℤ) = 53 := by decide

/-- Half of a distance between two numbers, rounded, is at most the distance. -/
theorem half_bound {x D : ℝ} {q : Dbl} (h : q.Is x) (n : ℤ) (hD : D = n * 2 ^ Format.binary64.minExponent) (h0 : 0 ≤ D) (hx : |x| ≤ D * (1 + 1 / 2 ^ 53) / 2) : |q.val| ≤ D := by
  have hp := two_pow_pos Format.binary64.minExponent
  have hn : 0 ≤ n := by
    by_contra hc
    have : (n : ℝ) < 0 := by exact_mod_cast not_le.1 hc
    nlinarith
  rcases le_or_gt n 1 with h1 | h1
  · have hg : Grid .binary64 D := by
      rw [hD]
      refine ⟨n, _, ?_, le_rfl, rfl⟩
      rw [abs_of_nonneg (by exact_mod_cast hn), mb64]
      have : (n : ℝ) ≤ 1 := by exact_mod_cast h1
      refine this.trans ?_
      norm_num
    have hx' : |x| ≤ D := hx.trans (by norm_num; linarith)
    rw [abs_le] at hx' ⊢
    exact ⟨h.2.mono_ge hg.neg hx'.1, h.2.mono_le hg hx'.2⟩
  · have h2 : 2 * (2 : ℝ) ^ Format.binary64.minExponent ≤ D := by
      rw [hD]
      have : (2 : ℝ) ≤ n := by exact_mod_cast h1
      nlinarith
    have h3 : |q.val| ≤ |q.val - x| + |x| := by
      have := abs_add_le (q.val - x) x
      rwa [sub_add_cancel] at this
    have hr := h.2.rel
    rw [mb64, two_pow_sub, zpow_one] at hr
    change |q.val - x| ≤ _ ∨ |q.val - x| ≤ _ at hr
    rcases hr with hr | hr
    · norm_num at hr hx ⊢
      linarith
    · norm_num at hx
      linarith

/-- An update of the average from the third measurement on stays between the old average and the measurement. -/
theorem avg_between {a t : Dbl} (ha : a.Fin) (ht : t.Fin) {M : ℝ} (hM' : M * 4 ≤ 2 ^ top Format.binary64) (ba : |a.val| ≤ M) (bt : |t.val| ≤ M) {c : ℕ} (hc : 2 ≤ c) (hc' : c ≤ 2 ^ 53) :
    let b := a + (t - a) / (c : Dbl)
    b.Fin ∧ ((a.val ≤ b.val ∧ b.val ≤ t.val) ∨ (t.val ≤ b.val ∧ b.val ≤ a.val)) := by
  intro b
  have hta : |t.val - a.val| ≤ 2 * M := by
    have := abs_sub t.val a.val
    linarith
  have hM0 : 0 ≤ M := le_trans (abs_nonneg _) ba
  have hs := sub_is ht ha (by linarith)
  have hr := (sub_rel ht ha (by linarith)).2
  rw [mb64] at hr
  have hcv := natCast_exact (spec := .binary64) (n := c) (by rw [mb64]; exact_mod_cast hc') (le_trans (show (c : ℝ) ≤ 2 ^ (53 : ℤ) by exact_mod_cast hc') (two_pow_le (by decide)))
  have hc2 : (2 : ℝ) ≤ c := by exact_mod_cast hc
  obtain ⟨d, hd⟩ : ∃ d, d = t - a := ⟨_, rfl⟩
  rw [← hd] at hs hr
  have hd1 : |d.val| ≤ |t.val - a.val| * (1 + 1 / 2 ^ 53) := by
    have := abs_add_le (d.val - (t.val - a.val)) (t.val - a.val)
    rw [sub_add_cancel] at this
    norm_num at hr ⊢
    linarith
  have hx : |d.val / c| ≤ |t.val - a.val| * (1 + 1 / 2 ^ 53) / 2 := by
    rw [abs_div, abs_of_pos (by linarith : (0 : ℝ) < c), div_le_iff₀ (by linarith)]
    have := abs_nonneg (t.val - a.val)
    have h2 : 0 ≤ |t.val - a.val| * (1 + 1 / 2 ^ 53) := by positivity
    nlinarith
  have hq := div_is (b := (c : Dbl)) hs.1 hcv.1 (by rw [hcv.2]; linarith) (by
    rw [hcv.2]
    refine hx.trans ?_
    norm_num
    linarith)
  rw [hcv.2] at hq
  obtain ⟨n, hn⟩ := multiple_sub t a
  have hqb : |(d / (c : Dbl)).val| ≤ |t.val - a.val| := by
    refine half_bound hq |n| ?_ (abs_nonneg _) hx
    rw [hn, abs_mul, abs_of_pos (two_pow_pos _)]
    push_cast
    rfl
  have hsg := sub_sign ht ha (by linarith)
  rw [← hd] at hsg
  obtain ⟨q, hqq⟩ : ∃ q, q = d / (c : Dbl) := ⟨_, rfl⟩
  rw [← hqq] at hq hqb
  have hqM : |a.val + q.val| ≤ 2 ^ top Format.binary64 := by
    have := abs_add_le a.val q.val
    linarith
  have hb : (a + q).Is (a.val + q.val) := add_is ha hq.1 hqM
  have eb : b = a + q := by simp only [b, hqq, hd]
  rw [eb]
  refine ⟨hb.1, ?_⟩
  rcases le_total a.val t.val with h | h
  · left
    rw [abs_of_nonneg (show 0 ≤ t.val - a.val by linarith)] at hqb
    have hd0 : 0 ≤ d.val := by
      by_contra hc
      have := hsg.2.1.1 (not_le.1 hc)
      linarith
    have q0 : 0 ≤ q.val := hq.2.mono_ge grid_zero (by positivity)
    rw [abs_of_nonneg q0] at hqb
    exact ⟨hb.2.mono_ge a.grid (by linarith), hb.2.mono_le t.grid (by linarith)⟩
  · right
    rw [abs_of_nonpos (show t.val - a.val ≤ 0 by linarith)] at hqb
    have hd0 : d.val ≤ 0 := by
      by_contra hc
      have := hsg.1.1 (not_le.1 hc)
      linarith
    have q0 : q.val ≤ 0 := hq.2.mono_le grid_zero (div_nonpos_of_nonpos_of_nonneg hd0 (by linarith))
    rw [abs_of_nonpos q0] at hqb
    exact ⟨hb.2.mono_ge t.grid (by linarith), hb.2.mono_le a.grid (by linarith)⟩

/-- The update with the second measurement differs from it by at most 2^-52 of the distance of the two. -/
theorem avg_second {a t : Dbl} (ha : a.Fin) (ht : t.Fin) {M : ℝ} (hM' : M * 4 ≤ 2 ^ top Format.binary64) (ba : |a.val| ≤ M) (bt : |t.val| ≤ M) :
    let b := a + (t - a) / ((1 : ℕ) : Dbl)
    b.Fin ∧ |b.val - t.val| ≤ |t.val - a.val| / 2 ^ 52 := by
  intro b
  have hta : |t.val - a.val| ≤ 2 * M := by
    have := abs_sub t.val a.val
    linarith
  have hM0 : 0 ≤ M := le_trans (abs_nonneg _) ba
  have hs := sub_is ht ha (by linarith)
  have hr := (sub_rel ht ha (by linarith)).2
  rw [mb64] at hr
  have h1 := natCast_exact (spec := .binary64) (n := 1) (by rw [mb64]; norm_num) (by rw [Nat.cast_one, ← zpow_zero (2 : ℝ)]; exact two_pow_le (by decide))
  obtain ⟨d, hd⟩ : ∃ d, d = t - a := ⟨_, rfl⟩
  rw [← hd] at hs hr
  have hda : |d.val| ≤ |t.val - a.val| * (1 + 1 / 2 ^ 53) := by
    have := abs_add_le (d.val - (t.val - a.val)) (t.val - a.val)
    rw [sub_add_cancel] at this
    norm_num at hr ⊢
    linarith
  have hd3 : |d.val| ≤ 3 * M := by
    refine hda.trans ?_
    norm_num
    linarith
  have hq := div_is (b := ((1 : ℕ) : Dbl)) hs.1 h1.1 (by rw [h1.2]; norm_num) (by
    rw [h1.2, Nat.cast_one, div_one]
    linarith)
  have hqv : (d / ((1 : ℕ) : Dbl)).val = d.val := by
    rw [h1.2, Nat.cast_one, div_one] at hq
    exact hq.2.exact d.grid
  have hb := add_is ha hq.1 (by
    rw [hqv]
    have := abs_add_le a.val d.val
    linarith)
  rw [hqv] at hb
  have eb : b = a + d / ((1 : ℕ) : Dbl) := by simp only [b, hd]
  rw [eb]
  refine ⟨hb.1, ?_⟩
  have hn := hb.2.nearest Fmt.good t.grid
  generalize (a + d / ((1 : ℕ) : Dbl)) = b' at *
  change |b'.val - _| ≤ _ at hn
  have h2 := abs_add_le (b'.val - (a.val + d.val)) (a.val + d.val - t.val)
  rw [show b'.val - (a.val + d.val) + (a.val + d.val - t.val) = b'.val - t.val by ring] at h2
  rw [show a.val + d.val - t.val = d.val - (t.val - a.val) by ring] at h2
  rw [show t.val - (a.val + d.val) = -(d.val - (t.val - a.val)) by ring, abs_neg] at hn
  norm_num at hr ⊢
  linarith

/-- A product of two differences: its sign, its size, and the sum of the squared differences after its addition. -/
theorem var_step {v t a b : Dbl} (hv : v.Fin) (ht : t.Fin) (ha : a.Fin) (hb : b.Fin) {M V : ℝ} (hM : 1 ≤ M) (bt : |t.val| ≤ M) (ba : |a.val| ≤ 2 * M) (bb : |b.val| ≤ 2 * M)
    (hV : |v.val| ≤ V) (hV0 : V ≤ 2 ^ 57 * M ^ 2) (hT : 2 ^ 60 * M ^ 2 ≤ 2 ^ top Format.binary64) :
    let w := v + (t - b) * (t - a)
    w.Fin ∧ |w.val| ≤ V + 64 * M ^ 2 ∧ (0 ≤ (t.val - b.val) * (t.val - a.val) → v.val ≤ w.val) ∧
      (v.val = 0 → |w.val| ≤ |t.val - b.val| * |t.val - a.val| * 2 + 2 ^ (-1074 : ℤ)) := by
  intro w
  obtain ⟨T, hTT⟩ : ∃ T : ℝ, T = 2 ^ top Format.binary64 := ⟨_, rfl⟩
  have hM2 : M ≤ M ^ 2 := by nlinarith
  rw [← hTT] at hT
  have htb : |t.val - b.val| ≤ 3 * M := by
    have := abs_sub t.val b.val
    linarith
  have hta : |t.val - a.val| ≤ 3 * M := by
    have := abs_sub t.val a.val
    linarith
  have s1 := sub_rel ht hb (by rw [← hTT]; norm_num at hT; linarith)
  have s2 := sub_rel ht ha (by rw [← hTT]; norm_num at hT; linarith)
  have g1 := sub_sign ht hb (by rw [← hTT]; norm_num at hT; linarith)
  have g2 := sub_sign ht ha (by rw [← hTT]; norm_num at hT; linarith)
  rw [mb64] at s1 s2
  obtain ⟨x, hx⟩ : ∃ x, x = t - b := ⟨_, rfl⟩
  obtain ⟨y, hy⟩ : ∃ y, y = t - a := ⟨_, rfl⟩
  rw [← hx] at s1 g1
  rw [← hy] at s2 g2
  have x1 : |x.val| ≤ |t.val - b.val| * (1 + 1 / 2 ^ 53) := by
    have := abs_add_le (x.val - (t.val - b.val)) (t.val - b.val)
    rw [sub_add_cancel] at this
    have := s1.2
    norm_num at this ⊢
    linarith
  have y1 : |y.val| ≤ |t.val - a.val| * (1 + 1 / 2 ^ 53) := by
    have := abs_add_le (y.val - (t.val - a.val)) (t.val - a.val)
    rw [sub_add_cancel] at this
    have := s2.2
    norm_num at this ⊢
    linarith
  have x4 : |x.val| ≤ 4 * M := x1.trans (by norm_num; linarith)
  have y4 : |y.val| ≤ 4 * M := y1.trans (by norm_num; linarith)
  have hxy : |x.val * y.val| ≤ 16 * M ^ 2 := by
    rw [abs_mul]
    calc _ ≤ (4 * M) * (4 * M) := mul_le_mul x4 y4 (abs_nonneg _) (by linarith)
      _ = _ := by ring
  have hxyT : |x.val * y.val| ≤ T := by norm_num at hT; linarith
  have p0 := mul_is s1.1 s2.1 (by rw [← hTT]; exact hxyT)
  have p1 := (mul_rel s1.1 s2.1 (by rw [← hTT]; exact hxyT)).2
  rw [mb64, min64] at p1
  obtain ⟨p, hp⟩ : ∃ p, p = x * y := ⟨_, rfl⟩
  rw [← hp] at p0 p1
  have tiny : (2 : ℝ) ^ (-1074 - 1 : ℤ) ≤ 1 := by
    rw [← zpow_zero (2 : ℝ)]
    exact two_pow_le (by decide)
  have p2 : |p.val| ≤ |x.val * y.val| * (1 + 1 / 2 ^ 53) + 2 ^ (-1074 - 1 : ℤ) := by
    have := abs_add_le (p.val - (x.val * y.val)) (x.val * y.val)
    rw [sub_add_cancel] at this
    generalize (2 : ℝ) ^ (-1074 - 1 : ℤ) = tt at *
    norm_num [-abs_mul] at p1 ⊢
    linarith
  have p32 : |p.val| ≤ 32 * M ^ 2 := by
    refine p2.trans ?_
    generalize (2 : ℝ) ^ (-1074 - 1 : ℤ) = tt at *
    norm_num [-abs_mul]
    linarith
  have hvp : |v.val + p.val| ≤ V + 32 * M ^ 2 := (abs_add_le _ _).trans (by linarith)
  have hvpT : |v.val + p.val| ≤ T := hvp.trans (by norm_num at hT hV0; linarith)
  have w0 := add_is hv p0.1 (by rw [← hTT]; exact hvpT)
  have w1 := w0.2.rel_multiple (multiple_add v p)
  rw [mb64] at w1
  have ew : w = v + p := by simp only [w, hp, hx, hy]
  rw [ew]
  refine ⟨w0.1, ?_, ?_, ?_⟩
  · change |(v + p).val - _| ≤ _ at w1
    have := abs_add_le ((v + p).val - (v.val + p.val)) (v.val + p.val)
    rw [sub_add_cancel] at this
    norm_num at w1 hV0
    linarith
  · intro hs
    have : 0 ≤ x.val * y.val := by
      rcases lt_trichotomy x.val 0 with hx0 | hx0 | hx0
      · have h1 := g1.2.1.1 hx0
        rcases lt_or_ge 0 y.val with hy0 | hy0
        · have h2 := g2.1.1 hy0
          nlinarith
        · exact mul_nonneg_of_nonpos_of_nonpos hx0.le hy0
      · rw [hx0]; simp
      · have h1 := g1.1.1 hx0
        rcases lt_or_ge y.val 0 with hy0 | hy0
        · have h2 := g2.2.1.1 hy0
          nlinarith
        · exact mul_nonneg hx0.le hy0
    have p3 : 0 ≤ p.val := p0.2.mono_ge grid_zero this
    exact w0.2.mono_ge v.grid (by linarith)
  · intro hv0
    have e : (v + p).val = p.val := by
      rw [hv0, zero_add] at w0
      exact w0.2.exact p.grid
    rw [e]
    refine p2.trans ?_
    have h1 : |x.val * y.val| ≤ |t.val - b.val| * |t.val - a.val| * ((1 + 1 / 2 ^ 53) * (1 + 1 / 2 ^ 53)) := by
      rw [abs_mul]
      calc _ ≤ (|t.val - b.val| * (1 + 1 / 2 ^ 53)) * (|t.val - a.val| * (1 + 1 / 2 ^ 53)) := mul_le_mul x1 y1 (abs_nonneg _) (by positivity)
        _ = _ := by ring
    have h2 : (2 : ℝ) ^ (-1074 - 1 : ℤ) ≤ 2 ^ (-1074 : ℤ) := two_pow_le (by decide)
    have h3 : 0 ≤ |t.val - b.val| * |t.val - a.val| := by positivity
    generalize (2 : ℝ) ^ (-1074 - 1 : ℤ) = tt at *
    generalize (2 : ℝ) ^ (-1074 : ℤ) = t2 at *
    generalize |t.val - b.val| * |t.val - a.val| = D at *
    norm_num at h1 ⊢
    nlinarith

/-- C105, partial: for every history whose measurements of the label are finite, of magnitude at most 2^400, and at most 2^50: the least and the greatest measurement are exact; the
average is finite and between them up to 2^-52 of their difference, exactly so with one measurement; the sum of the squared differences is finite and negative by at most 2^-51 of the
squared difference. Missing: the exact statement, which fails. -/
theorem C105_double_partial (h : List (L × Dbl)) (l : L) (s : Stat Dbl) (hs : run h l = some s) (hf : ∀ x ∈ samples h l, x.Fin ∧ |x.val| ≤ 2 ^ (400 : ℤ))
    (hn : (samples h l).length ≤ 2 ^ 50) :
    s.count = (samples h l).length ∧ (s.timeMin ∈ samples h l ∧ ∀ x ∈ samples h l, s.timeMin.val ≤ x.val) ∧ (s.timeMax ∈ samples h l ∧ ∀ x ∈ samples h l, x.val ≤ s.timeMax.val) ∧
      s.timeAvg.Fin ∧ s.timeMin.val - (s.timeMax.val - s.timeMin.val) / 2 ^ 52 ≤ s.timeAvg.val ∧ s.timeAvg.val ≤ s.timeMax.val + (s.timeMax.val - s.timeMin.val) / 2 ^ 52 ∧
      s.timeVar.Fin ∧ -((s.timeMax.val - s.timeMin.val) ^ 2 / 2 ^ 51 + 2 ^ (-1074 : ℤ)) ≤ s.timeVar.val := by
  rw [run_eq] at hs
  obtain ⟨M, hMM⟩ : ∃ M : ℝ, M = 2 ^ (400 : ℤ) := ⟨_, rfl⟩
  rw [← hMM] at hf
  have hM1 : 1 ≤ M := by
    rw [hMM, ← zpow_zero (2 : ℝ)]
    exact two_pow_le (by decide)
  have hMT : 2 ^ 60 * M ^ 2 ≤ 2 ^ top Format.binary64 := by
    rw [hMM, ← zpow_natCast, ← zpow_natCast, ← zpow_mul, ← two_pow_add]
    exact two_pow_le (by decide)
  clear hMM
  have hMT' : M * 4 * 2 ≤ 2 ^ top Format.binary64 := by
    refine le_trans ?_ hMT
    norm_num
    nlinarith
  cases hx : samples h l with
  | nil => rw [hx] at hs; cases hs
  | cons x xs =>
    rw [hx] at hs hf hn
    obtain rfl := Option.some.inj hs
    clear hs hx
    suffices hh : ∀ xs : List Dbl, (∀ y ∈ x :: xs, y.Fin ∧ |y.val| ≤ M) → (x :: xs).length ≤ 2 ^ 50 → let s := xs.foldl Stat.update (Stat.new x)
        (s.count = (x :: xs).length ∧ (s.timeMin ∈ x :: xs ∧ ∀ y ∈ x :: xs, s.timeMin.val ≤ y.val) ∧ (s.timeMax ∈ x :: xs ∧ ∀ y ∈ x :: xs, y.val ≤ s.timeMax.val) ∧
        s.timeAvg.Fin ∧ s.timeMin.val - (s.timeMax.val - s.timeMin.val) / 2 ^ 52 ≤ s.timeAvg.val ∧ s.timeAvg.val ≤ s.timeMax.val + (s.timeMax.val - s.timeMin.val) / 2 ^ 52 ∧
        s.timeVar.Fin ∧ -((s.timeMax.val - s.timeMin.val) ^ 2 / 2 ^ 51 + 2 ^ (-1074 : ℤ)) ≤ s.timeVar.val) ∧ |s.timeVar.val| ≤ s.count * (64 * M ^ 2) ∧
        (s.count = 1 → s.timeAvg = x ∧ s.timeVar = 0) from (hh xs hf hn).1
    clear hf hn xs
    intro xs
    have tiny : (0 : ℝ) ≤ 2 ^ (-1074 : ℤ) := (two_pow_pos _).le
    obtain ⟨tt, htt⟩ : ∃ tt : ℝ, tt = 2 ^ (-1074 : ℤ) := ⟨_, rfl⟩
    rw [← htt] at tiny ⊢
    induction xs using List.reverseRecOn with
    | nil =>
      intro hf _
      have := (hf x (by simp)).1
      simp only [Stat.new, List.foldl_nil, sub_self, List.mem_singleton, List.length_singleton, true_and, forall_eq, le_refl, zero_is.1, zero_is.2, this, zero_div, sub_zero, add_zero, and_self, implies_true, and_true, abs_zero]
      constructor
      · norm_num
        exact tiny
      · positivity
    | append_singleton xs t ih =>
      intro hf hn
      rw [List.length_cons, List.length_append, List.length_singleton] at hn
      obtain ⟨⟨i1, ⟨i2, i3⟩, ⟨i4, i5⟩, i6, i7, i8, i9, i10⟩, i11, i12⟩ := ih (fun y hy => hf y (by simp only [List.mem_cons, List.mem_append] at hy ⊢; tauto)) (by rw [List.length_cons]; omega)
      rw [List.foldl_append, List.foldl_cons, List.foldl_nil]
      have hmem : ∀ z, z ∈ x :: (xs ++ [t]) ↔ z ∈ x :: xs ∨ z = t := by intro z; simp [or_assoc]
      generalize xs.foldl Stat.update (Stat.new x) = s at *
      obtain ⟨ht, bt⟩ := hf t (by simp)
      obtain ⟨fmin, bmin⟩ := hf s.timeMin (by rw [hmem]; exact Or.inl i2)
      obtain ⟨fmax, bmax⟩ := hf s.timeMax (by rw [hmem]; exact Or.inl i4)
      have hmm : s.timeMin.val ≤ s.timeMax.val := i3 _ i4
      rw [List.length_cons] at i1
      have ba : |s.timeAvg.val| ≤ 2 * M := by
        rw [abs_le] at bmin bmax ⊢
        norm_num at i7 i8
        constructor <;> linarith
      have hcb : (s.count : ℝ) * (64 * M ^ 2) ≤ 2 ^ 57 * M ^ 2 := by
        have : (s.count : ℝ) ≤ 2 ^ 50 := by
          have : s.count ≤ 2 ^ 50 := by omega
          exact_mod_cast this
        have hM0 : 0 ≤ M ^ 2 := by positivity
        have h1 := mul_le_mul_of_nonneg_right this (by positivity : 0 ≤ 64 * M ^ 2)
        refine h1.trans ?_
        norm_num
        linarith
      -- the new extremes
      obtain ⟨mn, hmn⟩ : ∃ mn, mn = if t < s.timeMin then t else s.timeMin := ⟨_, rfl⟩
      obtain ⟨mx, hmx⟩ : ∃ mx, mx = if s.timeMax < t then t else s.timeMax := ⟨_, rfl⟩
      have hmn1 : (mn ∈ x :: (xs ++ [t])) ∧ mn.val ≤ s.timeMin.val ∧ mn.val ≤ t.val := by
        rw [hmn, hmem]
        split
        · rename_i hlt
          rw [lt_iff ht fmin] at hlt
          exact ⟨Or.inr rfl, hlt.le, le_rfl⟩
        · rename_i hlt
          rw [lt_iff ht fmin] at hlt
          exact ⟨Or.inl i2, le_rfl, not_lt.1 hlt⟩
      have hmx1 : (mx ∈ x :: (xs ++ [t])) ∧ s.timeMax.val ≤ mx.val ∧ t.val ≤ mx.val := by
        rw [hmx, hmem]
        split
        · rename_i hlt
          rw [lt_iff fmax ht] at hlt
          exact ⟨Or.inr rfl, hlt.le, le_rfl⟩
        · rename_i hlt
          rw [lt_iff fmax ht] at hlt
          exact ⟨Or.inl i4, le_rfl, not_lt.1 hlt⟩
      obtain ⟨mn1, mn2, mn3⟩ := hmn1
      obtain ⟨mx1, mx2, mx3⟩ := hmx1
      obtain ⟨b, hb⟩ : ∃ b, b = s.timeAvg + (t - s.timeAvg) / (s.count : Dbl) := ⟨_, rfl⟩
      obtain ⟨w, hw⟩ : ∃ w, w = s.timeVar + (t - b) * (t - s.timeAvg) := ⟨_, rfl⟩
      have hup : s.update t = ⟨b, w, mn, mx, s.count + 1⟩ := by rw [hw, hb, hmn, hmx]; rfl
      rw [hup]
      clear hup hmn hmx
      have hdd : (s.timeMax.val - s.timeMin.val) ^ 2 ≤ (mx.val - mn.val) ^ 2 := by
        apply pow_le_pow_left₀ <;> linarith
      have hbw : b.Fin ∧ (mn.val - (mx.val - mn.val) / 2 ^ 52 ≤ b.val ∧ b.val ≤ mx.val + (mx.val - mn.val) / 2 ^ 52) ∧ w.Fin ∧ |w.val| ≤ s.count * (64 * M ^ 2) + 64 * M ^ 2 ∧
          -((mx.val - mn.val) ^ 2 / 2 ^ 51 + tt) ≤ w.val := by
        rcases Nat.lt_or_ge s.count 2 with h2 | h2
        · have h1 : s.count = 1 := by omega
          obtain ⟨e1, e2⟩ := i12 h1
          rw [h1] at hb
          have hs2 := avg_second i6 ht (M := 2 * M) (by linarith) ba (by linarith)
          rw [← hb] at hs2
          obtain ⟨b1, b2⟩ := hs2
          have hxr : mn.val ≤ s.timeAvg.val ∧ s.timeAvg.val ≤ mx.val := by
            rw [e1]
            exact ⟨mn2.trans (i3 x (by simp)), (i5 x (by simp)).trans mx2⟩
          have hD : |t.val - s.timeAvg.val| ≤ mx.val - mn.val := by
            rw [abs_le]
            constructor <;> linarith
          have b3 : |b.val - t.val| ≤ (mx.val - mn.val) / 2 ^ 52 := b2.trans (by gcongr)
          have bb : |b.val| ≤ 2 * M := by
            obtain ⟨_, c1⟩ := hf mn mn1
            obtain ⟨_, c2⟩ := hf mx mx1
            rw [abs_le] at b3 c1 c2 ⊢
            norm_num at b3
            constructor <;> linarith
          obtain ⟨v1, v2, -, v4⟩ := var_step i9 ht i6 b1 hM1 bt ba bb i11 hcb hMT
          rw [← hw] at v1 v2 v4
          have hv4 := v4 (by rw [e2]; exact zero_is.2)
          refine ⟨b1, ?_, v1, v2, ?_⟩
          · rw [abs_le] at b3
            constructor <;> linarith
          · have : |t.val - b.val| * |t.val - s.timeAvg.val| ≤ (mx.val - mn.val) ^ 2 / 2 ^ 52 := by
              rw [abs_sub_comm] at b3
              calc _ ≤ ((mx.val - mn.val) / 2 ^ 52) * (mx.val - mn.val) := mul_le_mul b3 hD (abs_nonneg _) (le_trans (abs_nonneg _) b3)
                _ = _ := by ring
            have h3 := (abs_le.1 hv4).1
            change -(_ * 2 + 2 ^ (-1074 : ℤ)) ≤ _ at h3
            rw [← htt] at h3
            norm_num at this ⊢
            linarith
        · obtain ⟨b1, b2⟩ := avg_between i6 ht (M := 2 * M) (by linarith) ba (by linarith) h2 (by omega)
          rw [← hb] at b1 b2
          have bb : |b.val| ≤ 2 * M := by
            rw [abs_le] at ba bt ⊢
            rcases b2 with b2 | b2 <;> constructor <;> linarith
          obtain ⟨v1, v2, v3, -⟩ := var_step i9 ht i6 b1 hM1 bt ba bb i11 hcb hMT
          rw [← hw] at v1 v2 v3
          have hv3 := v3 (by
            rcases b2 with b2 | b2
            · exact mul_nonneg (by linarith) (by linarith)
            · exact mul_nonneg_of_nonpos_of_nonpos (by linarith) (by linarith))
          refine ⟨b1, ?_, v1, v2, ?_⟩
          · norm_num at i7 i8 ⊢
            rcases b2 with b2 | b2 <;> constructor <;> linarith
          · norm_num at i10 ⊢
            linarith
      obtain ⟨b1, ⟨b2, b3⟩, w1, w2, w3⟩ := hbw
      refine ⟨⟨?_, ⟨mn1, ?_⟩, ⟨mx1, ?_⟩, b1, b2, b3, w1, w3⟩, ?_, ?_⟩
      · show s.count + 1 = _
        simp [i1]
      · intro y hy
        rw [hmem] at hy
        rcases hy with hy | rfl
        · exact mn2.trans (i3 y hy)
        · exact mn3
      · intro y hy
        rw [hmem] at hy
        rcases hy with hy | rfl
        · exact (i5 y hy).trans mx2
        · exact mx3
      · show |w.val| ≤ ((s.count + 1 : ℕ) : ℝ) * _
        push_cast
        linarith
      · intro h1
        change s.count + 1 = 1 at h1
        omega

/-- The literals `1.0` and `1e-30`. -/
def w1 : Dbl := lit .binary64 10 (-1)
/-- The literals `1.0` and `1e-30`. -/
def w2 : Dbl := lit .binary64 1 (-30)

/-- Two measurements, 1.0 and 1e-30. -/
def wh : List (ℕ × Dbl) := [(0, w1), (0, w2)]

/-- C105 fails in `double`: after the measurements 1.0 and 1e-30 the average is 0, less than both, and the sum of the squared differences is negative. -/
theorem C105_violated : (∃ s, run wh 0 = some s ∧ s.timeAvg < s.timeMin ∧ s.timeVar < (0 : Dbl)) ∧ ¬ C105_statement := by
  have hr : run wh 0 = some ((Stat.new w1).update w2) := rfl
  have h1 : ((Stat.new w1).update w2).timeAvg < ((Stat.new w1).update w2).timeMin := by decide +kernel
  have h2 : ((Stat.new w1).update w2).timeVar < (0 : Dbl) := by decide +kernel
  have h3 : ¬ ((0 : Dbl) ≤ ((Stat.new w1).update w2).timeVar) := by decide +kernel
  refine ⟨⟨_, hr, h1, h2⟩, fun hs => ?_⟩
  have hf : ∀ x ∈ samples wh 0, x.Fin := by
    have e : samples wh 0 = [w1, w2] := rfl
    rw [e]
    intro x hx
    simp only [List.mem_cons, List.not_mem_nil, or_false] at hx
    rcases hx with rfl | rfl
    · decide +kernel
    · decide +kernel
  exact h3 (hs wh 0 _ hf hr).2.2

example : (run [(0, w1), (1, w2), (0, lit .binary64 35 (-1)), (0, lit .binary64 15 (-1))] 0).map (fun s => (s.timeAvg, s.timeVar, s.count)) =
    some (lit .binary64 25 (-1), lit .binary64 20 (-1), 3) := by
  decide +kernel

end Verif.Profiler
