import Verif.FunctionsFp.LutFar

/-! The values of a point of the look-up table in `double` arithmetic. -/
namespace Verif.FunctionsFp
open Verif Ieee Fp Float.Model

theorem set_len {v r : Vec Dbl} {k : ℤ} {a : Dbl} (h : v.set k a = .ok r) : r.len = v.len := by
  unfold Vec.set at h
  split at h
  · cases h; rfl
  · cases h

theorem backStep_len {n k : ℕ} {F : Dbl} {s s' : Functions.Seq Dbl} (h : backStep n F k s = .ok s') : s'.pnebis.len = s.pnebis.len := by
  unfold backStep at h
  dsimp only at h
  have key : ∀ t : Outcome (Vec Dbl), t = (if k ≤ n then s.pnebis.set k s.curr else .ok s.pnebis) → ∀ p, t = .ok p → p.len = s.pnebis.len := by
    intro t ht p hp
    rw [ht] at hp
    split at hp
    · exact set_len hp
    · cases hp; rfl
  generalize ht : (if k ≤ n then s.pnebis.set k s.curr else .ok s.pnebis) = t at h
  have hk := key t ht.symm
  cases t with
  | error e => cases h
  | ok p =>
    have := hk p rfl
    simp only [bind, Except.bind] at h
    split at h <;> cases h <;> exact this

theorem backLoop_len {n : ℕ} {F : Dbl} : ∀ (k : ℕ) {s s' : Functions.Seq Dbl}, backLoop n F k s = .ok s' → s'.pnebis.len = s.pnebis.len
  | 0, s, s', h => backStep_len h
  | k + 1, s, s', h => by
    rw [backLoop] at h
    generalize ht : backStep n F (k + 1) s = t at h
    cases t with
    | error e => cases h
    | ok p => exact (backLoop_len k h).trans (backStep_len ht)

/-- A call does not shorten the vector. -/
theorem vector_len {exp : Dbl → Dbl} {n : ℕ} {x : Dbl} {v r : Vec Dbl} (h : evaluatePnebiVector exp n x v = .ok r) : r.len = (growD v (n + 1)).len := by
  unfold evaluatePnebiVector at h
  generalize Cxx.int ((n : ℤ) + 1) = t at h
  cases t with
  | error e => cases h
  | ok p =>
    simp only [bind, Except.bind] at h
    generalize (if x < d 0 1 then -x else x) = y at h
    split at h
    · have h2 := set_len h
      exact h2
    · generalize startOrder n = t at h
      cases t with
      | error e => cases h
      | ok m =>
        simp only at h
        generalize ht : backLoop n (d 20 1 / y) m.toNat ⟨d 0 1, d 10 1, growD v (n + 1)⟩ = t at h
        cases t with
        | error e => cases h
        | ok s =>
          simp only at h
          generalize s.pnebis.get 0 = t at h
          cases t with
          | error e => cases h
          | ok p0 =>
            cases h
            exact backLoop_len _ ht

theorem vector_len_new {exp : Dbl → Dbl} {n : ℕ} {x : Dbl} {r : Vec Dbl} (h : evaluatePnebiVector exp n x ⟨n + 1, fun _ => d 0 1⟩ = .ok r) : r.len = n + 1 := by
  rw [vector_len h]
  unfold growD
  rw [if_neg (by simp)]

/-! ### Facts of the exact functions -/

/-- The slope of the order 0. -/
noncomputable def slope (x : ℝ) : ℝ := Bessel.pnebi 0 x - Bessel.pnebi 1 x

theorem poly_exact {x : ℝ} (h : 0 ≤ x) : |poly x - Bessel.pnebi 0 x| ≤ 5 / 10000000 * Bessel.pnebi 0 x := by
  have := Bessel.C111_accuracy x
  rwa [abs_of_nonneg h] at this

theorem slope_ratio {x : ℝ} (hx : 0 < x) : slope x = Bessel.pnebi 0 x * (1 - Bessel.besselI 1 x / Bessel.besselI 0 x) := by
  rw [slope, Bessel.pnebi_ratio 1 hx]
  ring

/-- Up to 2e8 the slope is at least 2e-9 of the value. -/
theorem slope_rel {x : ℝ} (h0 : 0 < x) (h1 : x ≤ 200000000) : 2 / 1000000000 * Bessel.pnebi 0 x ≤ slope x := by
  have hp := Bessel.pnebi_pos 0 h0
  rcases le_or_gt (15 / 4) x with h | h
  · refine le_trans ?_ (Bessel.slope_lower h)
    rw [le_div_iff₀ (by linarith)]
    nlinarith
  · have a := Bessel.slope_start.trans (Bessel.pnebi_slope_anti h.le)
    have b := Bessel.pnebi_zero_le h0.le
    rw [slope]
    linarith

theorem near_arith {f A P y0 y1 q t e τ M : ℝ} (hf : 0 < f) (hf2 : f ≤ 2) (hA : |A - f| ≤ 5 / 10000000 * f) (hP : |P - A| ≤ 2 / 10 ^ 12 * A)
    (h0 : P * (1 - e) ≤ y0) (h0' : y0 ≤ P * (1 + e)) (he : e ≤ 1 / 10 ^ 15) (hy1 : y1 ≤ P * q * M + τ) (hM : M ≤ 1 + 2 / 10 ^ 12) (hq0 : 0 ≤ q) (hq : q ≤ t) (ht : t ≤ 1)
    (hs : 2 / 1000000000 * f ≤ f * (1 - t)) (hτ : τ ≤ 1 / 10 ^ 15 * f) (hM0 : 0 ≤ M) (hy1' : P * q * (1 - 2 / 10 ^ 12) - τ ≤ y1) :
    |y0 - A| ≤ 3 / 10 ^ 12 * A ∧ 99 / 100 * (f * (1 - t)) ≤ y0 - y1 ∧ y0 - y1 ≤ 2005 / 1000 := by
  have a1 := abs_le.1 hA
  have a2 := abs_le.1 hP
  have A0 : 999 / 1000 * f ≤ A := by linarith
  have P0 : 9999 / 10000 * f ≤ P := by
    norm_num at a2
    linarith
  have P1 : P ≤ 1001 / 1000 * f := by
    norm_num at a2
    linarith
  have Pp : 0 < P := by linarith
  have PA : P ≤ 2 * A := by linarith
  have hPe : P * e ≤ P * (1 / 10 ^ 15) := mul_le_mul_of_nonneg_left he Pp.le
  have k1 : P * q * M ≤ P * q * (1 + 2 / 10 ^ 12) := mul_le_mul_of_nonneg_left hM (by positivity)
  have k2 : P * q ≤ P * t := mul_le_mul_of_nonneg_left hq Pp.le
  have k3 : P * t ≤ P := by nlinarith
  have k4 : 9999 / 10000 * (f * (1 - t)) ≤ P * (1 - t) := by
    have := mul_le_mul_of_nonneg_right P0 (show 0 ≤ 1 - t by linarith)
    linarith
  refine ⟨?_, ?_, ?_⟩
  · rw [abs_le]
    norm_num at a2 hPe ⊢
    constructor <;> linarith
  · norm_num at k1 hPe hτ ⊢
    linarith
  · have k5 : 0 ≤ P * q := by positivity
    norm_num at hy1' hPe hτ
    linarith

theorem pow_small {M : ℕ} (h : M ≤ 12000) : (1 + ulp) ^ M ≤ 1 + 2 / 10 ^ 12 ∧ 1 - 2 / 10 ^ 12 ≤ (1 - ulp) ^ M ∧ 0 ≤ (1 + ulp) ^ M := by
  obtain ⟨a, b, -⟩ := pow_bounds (N := M) (by omega)
  have c : (M : ℝ) * ulp ≤ 14 / 10 ^ 13 := by
    have : (M : ℝ) ≤ 12000 := by exact_mod_cast h
    calc (M : ℝ) * ulp ≤ 12000 * ulp := mul_le_mul_of_nonneg_right this ulp_pos.le
      _ ≤ _ := by unfold ulp; norm_num
  have p : 0 ≤ (1 + ulp) ^ M := pow_nonneg (by linarith [ulp_pos]) M
  refine ⟨?_, ?_, p⟩
  · have : (1 + ulp) ^ M * (1 - 14 / 10 ^ 13) ≤ (1 + ulp) ^ M * (1 - M * ulp) := mul_le_mul_of_nonneg_left (by linarith) p
    generalize (1 + ulp) ^ M = w at *
    norm_num at this ⊢
    linarith
  · norm_num at c ⊢
    linarith

/-- What is known about the values of a point. -/
structure Good (n : ℕ) (x : ℝ) (r : Vec Dbl) : Prop where
  len : r.len = n + 1
  fin : ∀ k ≤ n, (r.val k).Fin
  zero : |(r.val 0).val - poly x| ≤ 3 / 10 ^ 12 * poly x
  lower : 99 / 100 * slope x ≤ (r.val 0).val - (r.val 1).val
  upper : (r.val 0).val - (r.val 1).val ≤ 2005 / 1000
  near : x ≤ 5 → (r.val 0).val - (r.val 1).val ≤ slope x + 5 / 1000000

theorem values_near {exp : Dbl → Dbl} (he : ExpErr exp (1 / 10 ^ 12)) {n : ℕ} (hn1 : 1 ≤ n) (hn : n ≤ 290) {x : Dbl} (hx : x.Fin) (h0 : (d 1 6).val ≤ x.val) (h1 : x.val ≤ 200000000) :
    ∃ r, evaluatePnebiVector exp n x ⟨n + 1, fun _ => d 0 1⟩ = .ok r ∧ Good n x.val r := by
  have hm := micro_is.2.1.trans h0
  have hX : 0 < x.val := lt_of_lt_of_le (by norm_num) hm
  have hxn : ¬ x < d 0 1 := by rw [lt_iff hx zero_lit.1, zero_lit.2]; exact not_lt.2 hX.le
  have ha : |x.val| = x.val := abs_of_pos hX
  have hle : x.val ≤ 2 ^ (400 : ℤ) := h1.trans (le_trans (by norm_num : (200000000 : ℝ) ≤ 2 ^ (30 : ℤ)) (two_pow_le (by norm_num)))
  have hnr : (n : ℝ) ≤ 290 := by exact_mod_cast hn
  have hprod : (n : ℝ) ≤ 300000000 * x.val := by norm_num at hm; linarith
  obtain ⟨P1, P2, P3, P4, P5⟩ := zero_value he (by norm_num) hx (by rw [ha]; exact hle) rfl
  have hpn := (poly_near he hx hX.le).2
  obtain ⟨r, c, hr, hc, hrel, hcn, hc0, hv⟩ := vector_pow (exp := exp) hx (by rw [ha]; exact ⟨hn1, by omega, h0, hle, hprod⟩) ⟨n + 1, fun _ => d 0 1⟩ rfl P1 P2 P3
  rw [ha] at hc P5
  rw [if_neg hxn] at hrel hv P1 P2 P3 P4
  have hsq : Nat.sqrt (40 * n) ≤ 107 := (Nat.sqrt_le_sqrt (show 40 * n ≤ 11600 by omega)).trans (by decide +kernel)
  obtain ⟨M1, M2, M3⟩ := pow_small (M := 15 * (2 * (n + Nat.sqrt (40 * n)) + 1) + 2) (by omega)
  have hlow := Bessel.back_lower hX (even_two_mul _) (by omega) hc
  have p0 := Bessel.besselI_pos 0 hX
  have hq : c 1 / c 0 ≤ Bessel.besselI 1 x.val / Bessel.besselI 0 x.val := by
    have := Bessel.besselI_pos (2 * (n + Nat.sqrt (40 * n))) hX
    have := Bessel.besselI_pos (2 * (n + Nat.sqrt (40 * n)) + 1) hX
    refine hlow.trans (sub_le_self _ ?_)
    positivity
  have ht : Bessel.besselI 1 x.val / Bessel.besselI 0 x.val ≤ 1 := by
    rw [div_le_one p0]
    exact Bessel.besselI_succ_le hX 0
  have hq0 : 0 ≤ c 1 / c 0 := div_nonneg (hcn 1 hn1) hc0.le
  have hs := slope_rel hX h1
  have hA := poly_exact hX.le
  have hf := Bessel.pnebi_pos 0 hX
  have hf2 := Bessel.pnebi_zero_le hX.le
  have hτ : (2 : ℝ) ^ (-600 : ℤ) ≤ 1 / 10 ^ 15 * Bessel.pnebi 0 x.val := by
    calc (2 : ℝ) ^ (-600 : ℤ) ≤ 2 ^ (-50 + -201 : ℤ) := two_pow_le (by norm_num)
      _ = 2 ^ (-50 : ℤ) * 2 ^ (-201 : ℤ) := two_pow_add _ _
      _ ≤ _ := mul_le_mul (by norm_num) P5 (two_pow_pos _).le (by norm_num)
  obtain ⟨f1, v1, v2⟩ := hv 1 hn1
  have hPp : 0 < (evaluatePnebi0Polynom exp x).val := (two_pow_pos _).trans_le P2
  have e1 : 1 - 1 / 10 ^ 15 ≤ (1 - ulp) ^ 2 := by unfold ulp; norm_num
  have e2 : (1 + ulp) ^ 2 ≤ 1 + 1 / 10 ^ 15 := by unfold ulp; norm_num
  have w1 : (evaluatePnebi0Polynom exp x).val * (1 - 1 / 10 ^ 15) ≤ (r.val 0).val := (mul_le_mul_of_nonneg_left e1 hPp.le).trans hrel.1
  have w2 : (r.val 0).val ≤ (evaluatePnebi0Polynom exp x).val * (1 + 1 / 10 ^ 15) := hrel.2.trans (mul_le_mul_of_nonneg_left e2 hPp.le)
  have w3 : (evaluatePnebi0Polynom exp x).val * (c 1 / c 0) * (1 - 2 / 10 ^ 12) - 2 ^ (-600 : ℤ) ≤ (r.val 1).val := by
    refine le_trans ?_ v1
    exact sub_le_sub_right (mul_le_mul_of_nonneg_left M2 (mul_nonneg hPp.le hq0)) _
  rw [slope_ratio hX] at hs
  obtain ⟨g1, g2, g3⟩ := near_arith hf hf2 hA hpn w1 w2 le_rfl v2 M1 hq0 hq ht hs hτ M3 w3
  refine ⟨r, hr, vector_len_new hr, fun k hk => (hv k hk).1, g1, by rw [slope_ratio hX]; exact g2, g3, fun h5 => ?_⟩
  have hn' : (1 : ℝ) ≤ n := by exact_mod_cast hn1
  obtain ⟨r', hr', hw⟩ := C115_range_partial he (by norm_num) n (by omega) x hx (by rw [ha]; nlinarith) (Or.inr (by rw [ha]; exact hprod)) ⟨n + 1, fun _ => d 0 1⟩
  have : r = r' := Except.ok.inj (hr.symm.trans hr')
  subst this
  rw [ha] at hw
  have a0 := (abs_le.1 (hw 0 (by omega)).2).2
  have a1 := (abs_le.1 (hw 1 hn1).2).1
  rw [slope]
  norm_num at a0 a1 ⊢
  linarith

theorem values_mid {exp : Dbl → Dbl} (he : ExpErr exp (1 / 10 ^ 12)) {n : ℕ} (hn1 : 1 ≤ n) (hn : n ≤ 290) {x : Dbl} (hx : x.Fin) (h0 : 200000000 ≤ x.val) (h1 : x.val ≤ 2 ^ (400 : ℤ)) :
    ∃ r, evaluatePnebiVector exp n x ⟨n + 1, fun _ => d 0 1⟩ = .ok r ∧ Good n x.val r := by
  have hX : 0 < x.val := lt_of_lt_of_le (by norm_num) h0
  have hxn : ¬ x < d 0 1 := by rw [lt_iff hx zero_lit.1, zero_lit.2]; exact not_lt.2 hX.le
  have ha : |x.val| = x.val := abs_of_pos hX
  have hnr : (n : ℝ) ≤ 290 := by exact_mod_cast hn
  have hprod : (n : ℝ) ≤ 300000000 * x.val := by
    have : (0 : ℝ) ≤ n := Nat.cast_nonneg n
    refine le_trans hnr (le_trans (by norm_num) (mul_le_mul_of_nonneg_left h0 (by norm_num)))
  have hmic : (d 1 6).val ≤ x.val := micro_is.2.2.trans (le_trans (by norm_num) h0)
  obtain ⟨P1, P2, P3, P4, P5⟩ := zero_value he (by norm_num) hx (by rw [ha]; exact h1) rfl
  have hpn := (poly_near he hx hX.le).2
  obtain ⟨r, c, hr, hc, hrel, hcn, hc0, hv⟩ := vector_pow (exp := exp) hx (by rw [ha]; exact ⟨hn1, by omega, hmic, h1, hprod⟩) ⟨n + 1, fun _ => d 0 1⟩ rfl P1 P2 P3
  have hn2 : 2048 * (n : ℝ) ^ 2 ≤ |x.val| := by
    rw [ha]
    have : (n : ℝ) ^ 2 ≤ 290 ^ 2 := pow_le_pow_left₀ (Nat.cast_nonneg n) hnr 2
    refine le_trans ?_ h0
    norm_num at this ⊢
    linarith
  obtain ⟨r', hr', hf1, hw⟩ := C115_large_violated he (by norm_num) n hn1 (by omega) x hx hn2 (by rw [ha]; exact h1) ⟨n + 1, fun _ => d 0 1⟩
  have : r = r' := Except.ok.inj (hr.symm.trans hr')
  subst this
  rw [ha] at hw hc P5
  rw [if_neg hxn] at hrel hv P1 P2 P3 P4
  obtain ⟨f1, v1, -⟩ := hv 1 hn1
  have hA := abs_le.1 (poly_exact hX.le)
  have hf := Bessel.pnebi_pos 0 hX
  have hf1 := (Bessel.pnebi_pos 1 hX).le
  have hf2 := Bessel.pnebi_zero_le hX.le
  have hPp : 0 < (evaluatePnebi0Polynom exp x).val := (two_pow_pos _).trans_le P2
  have e1 : 1 - 1 / 10 ^ 15 ≤ (1 - ulp) ^ 2 := by unfold ulp; norm_num
  have e2 : (1 + ulp) ^ 2 ≤ 1 + 1 / 10 ^ 15 := by unfold ulp; norm_num
  have w1 : (evaluatePnebi0Polynom exp x).val * (1 - 1 / 10 ^ 15) ≤ (r.val 0).val := (mul_le_mul_of_nonneg_left e1 hPp.le).trans hrel.1
  have w2 : (r.val 0).val ≤ (evaluatePnebi0Polynom exp x).val * (1 + 1 / 10 ^ 15) := hrel.2.trans (mul_le_mul_of_nonneg_left e2 hPp.le)
  have w3 : - (1 / 1000 : ℝ) ≤ (r.val 1).val := by
    refine le_trans ?_ v1
    have h3 : 0 ≤ (evaluatePnebi0Polynom exp x).val * (c 1 / c 0) * (1 - ulp) ^ (15 * (2 * (n + Nat.sqrt (40 * n)) + 1) + 2) :=
      mul_nonneg (mul_nonneg hPp.le (div_nonneg (hcn 1 hn1) hc0.le)) (pow_nonneg (by linarith [ulp_lt]) _)
    have h4 : (2 : ℝ) ^ (-600 : ℤ) ≤ 1 / 1000 := by
      calc (2 : ℝ) ^ (-600 : ℤ) ≤ 2 ^ (-10 : ℤ) := two_pow_le (by norm_num)
        _ ≤ _ := by norm_num
    generalize (2 : ℝ) ^ (-600 : ℤ) = w at *
    linarith
  have hpn' := abs_le.1 hpn
  refine ⟨r, hr, vector_len_new hr, fun k hk => (hv k hk).1, ?_, ?_, ?_, fun h5 => ?_⟩
  · rw [abs_le]
    clear h1 P5 P2 hv v1
    norm_num at hpn' w1 w2 ⊢
    constructor <;> linarith
  · clear h1 P5 P2 hv v1
    rw [slope]
    norm_num at hpn' w1 w2 ⊢
    linarith
  · clear h1 P5 P2 hv v1
    norm_num at hpn' w1 w2 ⊢
    linarith
  · have := h0.trans h5
    norm_num at this

theorem values_far {exp : Dbl → Dbl} (he : ExpErr exp (1 / 10 ^ 12)) {n : ℕ} (hn1 : 1 ≤ n) (hn : n ≤ 290) {x : Dbl} (hx : x.Fin) (h0 : 2 ^ (400 : ℤ) ≤ x.val) :
    ∃ r, evaluatePnebiVector exp n x ⟨n + 1, fun _ => d 0 1⟩ = .ok r ∧ Good n x.val r := by
  have h6 : (6 : ℝ) ≤ x.val := le_trans (le_trans (by norm_num : (6 : ℝ) ≤ 2 ^ (3 : ℤ)) (two_pow_le (by norm_num))) h0
  have hX : 0 < x.val := lt_of_lt_of_le (by norm_num) h6
  have hpn := poly_near he hx hX.le
  have hA := abs_le.1 (poly_exact hX.le)
  have hf := Bessel.pnebi_pos 0 hX
  have hf1 := (Bessel.pnebi_pos 1 hX).le
  have hf2 := Bessel.pnebi_zero_le hX.le
  have hA0 : 0 < poly x.val := by
    have := hA.1
    clear h0
    linarith
  have hpn' := abs_le.1 hpn.2
  have P0 : 0 ≤ (evaluatePnebi0Polynom exp x).val := by clear h0; norm_num at hpn'; linarith
  have P1 : (evaluatePnebi0Polynom exp x).val ≤ 4 := by clear h0; norm_num at hpn'; linarith
  obtain ⟨r, hr, r1, r2, hv⟩ := vector_far (exp := exp) hn hx (le_trans (two_pow_le (by norm_num)) h0) rfl hpn.1 P0 P1 ⟨n + 1, fun _ => d 0 1⟩
  have hlow : (2 : ℝ) ^ (-1075 : ℤ) ≤ 1 / 1000 * Bessel.pnebi 0 x.val := by
    have hxt : x.val ≤ 2 ^ (1024 : ℤ) := ((le_abs_self _).trans_lt (val_lt x)).le
    have a1 := Bessel.pnebi_zero_anti hX.le hxt
    have a2 := (Bessel.pnebi_large (c := 2 ^ (512 : ℤ)) (le_trans (by norm_num) (two_pow_le (show (1 : ℤ) ≤ 512 by norm_num)))).1
    have e1 : ((2 : ℝ) ^ (512 : ℤ)) ^ 2 = 2 ^ (1024 : ℤ) := by rw [← zpow_natCast, ← zpow_mul]; norm_num
    rw [e1] at a2
    have a3 : (2 : ℝ) ^ (-513 : ℤ) ≤ 7976 / 10000 / 2 ^ (512 : ℤ) := by
      rw [show (-513 : ℤ) = -1 - 512 by norm_num, two_pow_sub]
      exact div_le_div_of_nonneg_right (by norm_num) (two_pow_pos _).le
    calc (2 : ℝ) ^ (-1075 : ℤ) ≤ 2 ^ (-30 + -513 : ℤ) := two_pow_le (by norm_num)
      _ = 2 ^ (-30 : ℤ) * 2 ^ (-513 : ℤ) := two_pow_add _ _
      _ ≤ 1 / 1000 * Bessel.pnebi 0 x.val := mul_le_mul (by norm_num) (a3.trans (a2.trans a1)) (two_pow_pos _).le (by norm_num)
  obtain ⟨k1, k2, k3, k4⟩ := hv 1 hn1
  have k5 := k4 rfl
  clear h0
  generalize (2 : ℝ) ^ (-1075 : ℤ) = w at *
  refine ⟨r, hr, vector_len_new hr, fun k hk => (hv k hk).1, ?_, ?_, ?_, fun h5 => ?_⟩
  · rw [r2]
    refine hpn.2.trans (mul_le_mul_of_nonneg_right (by norm_num) hA0.le)
  · rw [r2, slope]
    norm_num at hpn'
    linarith
  · rw [r2]
    norm_num at hpn'
    linarith
  · linarith

/-- The values of a point from 1e-6 on. -/
theorem values {exp : Dbl → Dbl} (he : ExpErr exp (1 / 10 ^ 12)) {n : ℕ} (hn1 : 1 ≤ n) (hn : n ≤ 290) {x : Dbl} (hx : x.Fin) (h0 : (d 1 6).val ≤ x.val) :
    ∃ r, evaluatePnebiVector exp n x ⟨n + 1, fun _ => d 0 1⟩ = .ok r ∧ Good n x.val r := by
  rcases le_total x.val 200000000 with h1 | h1
  · exact values_near he hn1 hn hx h0 h1
  · rcases le_total x.val (2 ^ (400 : ℤ)) with h2 | h2
    · exact values_mid he hn1 hn hx h1 h2
    · exact values_far he hn1 hn hx h2

end Verif.FunctionsFp
