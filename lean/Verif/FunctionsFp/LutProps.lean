import Verif.FunctionsFp.LutTable

/-! Property theorems C120 (see properties.jsonl). -/
namespace Verif.FunctionsFp
open Verif Ieee Fp Float.Model

attribute [local irreducible] derivMax

/-- Full statement of C120: with an `exp` accurate to 1e-12, orders up to 290 and tolerances from 1e-9 to 0.5, `init` makes a table that answers every order below the
maximal one within the tolerance, up to three per cent and 3e-6. -/
def C120_statement : Prop := ∀ exp : Dbl → Dbl, ExpErr exp (1 / 10 ^ 12) → ∀ (n : ℕ) (tol : Dbl), 1 ≤ n → n ≤ 290 → tol.Fin → 1 / 10 ^ 9 ≤ tol.val → tol.val ≤ 1 / 2 →
  ∃ l, Lut.init exp n tol = .ok l ∧ ∀ (k : ℕ) (x : Dbl), k < n → x.Fin →
    ∃ v, Lut.eval exp l k x = .ok v ∧ v.Fin ∧ |v.val - Bessel.pnebi k (|x.val|)| ≤ 103 / 100 * tol.val + 3 / 1000000

/-- The value of order 0 stored in a point. -/
theorem Node.zero {exp : Dbl → Dbl} {n : ℕ} {p : Functions.Point Dbl} (h : Node exp n p) :
    |(p.y.val 0).val - Bessel.pnebi 0 p.x.val| ≤ 51 / 100000000 * Bessel.pnebi 0 p.x.val ∧ |(p.y.val 0).val| ≤ 3 := by
  have a := abs_le.1 (poly_exact h.nonneg)
  have b := abs_le.1 h.good.zero
  have c := Bessel.pnebi_zero_le h.nonneg
  have e : 0 ≤ Bessel.pnebi 0 p.x.val := by
    by_contra hc
    linarith [a.1, a.2]
  rw [abs_le, abs_le]
  exact ⟨⟨by linarith, by linarith⟩, by linarith, by linarith⟩

/-- The values of all orders stored in a point. -/
theorem Node.orders {exp : Dbl → Dbl} (he : ExpErr exp (1 / 10 ^ 12)) {n : ℕ} (hn : n ≤ 290) {p : Functions.Point Dbl} (h : Node exp n p) (h1 : p.x.val ≤ 5 * n + n ^ 2 / 10) {k : ℕ}
    (hk : k ≤ n) : (p.y.val k).Fin ∧ |(p.y.val k).val - Bessel.pnebi k p.x.val| ≤ 201 / 100000000 ∧ |(p.y.val k).val| ≤ 3 := by
  have ha : |p.x.val| = p.x.val := abs_of_nonneg h.nonneg
  have hnr : (n : ℝ) ≤ 290 := by exact_mod_cast hn
  have hm := micro_is
  obtain ⟨r, hr, hv⟩ := C115_range_partial he (by norm_num) n (by omega) p.x h.fin (by rwa [ha]) (by
    rw [ha]
    rcases h.start with h2 | h2
    · left; rw [h2]; linarith
    · right; linarith) ⟨n + 1, fun _ => d 0 1⟩
  have e : r = p.y := Except.ok.inj (hr.symm.trans h.call)
  subst e
  obtain ⟨f, g⟩ := hv k hk
  rw [ha] at g
  have a1 := Bessel.pnebi_anti h.nonneg k
  have a2 := Bessel.pnebi_zero_le h.nonneg
  have a3 : 0 ≤ Bessel.pnebi k p.x.val := by
    unfold Bessel.pnebi
    exact mul_nonneg (mul_nonneg (by norm_num) (Real.exp_pos _).le) (Bessel.besselI_nonneg k h.nonneg)
  refine ⟨f, g.trans (by norm_num), ?_⟩
  rw [abs_le] at *
  constructor <;> linarith

/-- The neighbours of an argument before a point of the table. -/
theorem neighbours {exp : Dbl → Dbl} {n : ℕ} {tol : ℝ} {l : Functions.Lut Dbl} (h : Table exp n tol l) {x : Dbl} (hx : x.Fin) {q : Functions.Point Dbl} (hq : q ∈ l.lut)
    (hxq : |x.val| < q.x.val) : ∃ a ∈ l.lut, ∃ b ∈ l.lut, ∃ w : Dbl, a.x.val ≤ |x.val| ∧ |x.val| ≤ b.x.val ∧ b.x.val ≤ q.x.val ∧ Close tol a b ∧ w.Fin ∧ 0 ≤ w.val ∧ w.val ≤ 1 ∧
      (|x.val| = a.x.val → w.val = 0) ∧ ∀ k : ℕ, k < n → Lut.eval exp l k x = .ok ((d 10 1 - w) * a.y.val k + w * b.y.val k) := by
  obtain ⟨i, hi, h1, h2⟩ := eval_table h hx
  obtain ⟨j, hj, rfl⟩ := List.getElem_of_mem hq
  have hij : i < j := by
    by_contra hij
    rcases Nat.lt_or_ge j i with h3 | h3
    · have := h.lt hi h3
      linarith
    · have : i = j := by omega
      subst this
      linarith
  rcases h2 with ⟨h2, -⟩ | ⟨hi', w, h2, w1, w2, w3, w4, w5, -⟩
  · omega
  · refine ⟨_, List.getElem_mem hi, _, List.getElem_mem hi', w, h1, h2.le, ?_, h.close i hi', w1, w2, w3, w4, w5⟩
    rcases Nat.lt_or_ge (i + 1) j with h5 | h5
    · exact (h.lt hj h5).le
    · have : i + 1 = j := by omega
      subst this
      exact le_rfl

/-- `init` succeeds; the points are finite and increase from 0, the function of order 0 drops by at most 1.021 times the tolerance between consecutive points, and every
call of `eval` with a finite argument succeeds, as does the evaluation of all the orders, with the same values. -/
theorem C120_table {exp : Dbl → Dbl} (he : ExpErr exp (1 / 10 ^ 12)) (n : ℕ) (hn1 : 1 ≤ n) (hn : n ≤ 290) (tol : Dbl) (htf : tol.Fin) (ht : 2 / 1000000 ≤ tol.val) (ht1 : tol.val ≤ 1 / 2) :
    ∃ l, Lut.init exp n tol = .ok l ∧ 2 / tol.val * (1 - 1 / 10 ^ 12) + 20 ≤ l.lut.length ∧ (l.lut.length : ℝ) ≤ (2 + 1 / 1000000) / tol.val + 21 ∧
      (∀ p ∈ l.lut, p.x.Fin ∧ p.y.len = n + 1 ∧ ∀ k ≤ n, (p.y.val k).Fin) ∧ (∃ h : 0 < l.lut.length, l.lut[0].x.val = 0) ∧
      (∀ i (hi : i + 1 < l.lut.length), l.lut[i].x.val < l.lut[i + 1].x.val ∧ Bessel.pnebi 0 l.lut[i].x.val - Bessel.pnebi 0 l.lut[i + 1].x.val ≤ 1021 / 1000 * tol.val) ∧
      ∀ x : Dbl, x.Fin → ∀ y, ∃ r, Lut.evalVec exp l x y = .ok r ∧ r.len = max y.len (n + 1) ∧ ∀ k : ℕ, k < n → Lut.eval exp l k x = .ok (r.val k) := by
  obtain ⟨l, hl, T⟩ := init_table he hn1 hn htf ht ht1
  obtain ⟨c, hlen, c1, c2⟩ := T.size
  have ht0 : 0 < tol.val := by linarith
  have hlr : (l.lut.length : ℝ) = c + 20 := by rw [hlen]; push_cast; ring
  refine ⟨l, hl, ?_, ?_, fun p hp => ⟨(T.node p hp).fin, (T.node p hp).good.len, (T.node p hp).good.fin⟩, ⟨by omega, T.first (by omega)⟩,
    fun i hi => ⟨(T.close i hi).lt, (T.close i hi).drop⟩, fun x hx y => ?_⟩
  · rw [hlr]; linarith
  · rw [hlr]
    have : (c : ℝ) ≤ (2 + 1 / 1000000) / tol.val + 1 := by
      rw [← sub_le_iff_le_add, le_div_iff₀ ht0]
      linarith
    linarith
  · obtain ⟨i, hi, -, ⟨-, h2, h3⟩ | ⟨hi', w, -, -, -, -, -, h2, h3⟩⟩ := eval_table T hx
    · obtain ⟨r, hr, hrl, hv⟩ := h3 y
      exact ⟨r, hr, hrl, fun k hk => by rw [hv k hk.le]; exact h2 k hk⟩
    · obtain ⟨r, hr, hrl, hv⟩ := h3 y
      exact ⟨r, hr, hrl, fun k hk => by rw [hv k hk.le]; exact h2 k hk⟩

/-- The order 0 is within the tolerance for all arguments before the last point of the table.
Missing for C120: the other orders for large arguments, the arguments after the last point, tolerances below 2e-6. -/
theorem C120_zero_partial {exp : Dbl → Dbl} (he : ExpErr exp (1 / 10 ^ 12)) (n : ℕ) (hn1 : 1 ≤ n) (hn : n ≤ 290) (tol : Dbl) (htf : tol.Fin) (ht : 2 / 1000000 ≤ tol.val)
    (ht1 : tol.val ≤ 1 / 2) : ∃ l, Lut.init exp n tol = .ok l ∧ ∀ x : Dbl, x.Fin → (∃ q ∈ l.lut, |x.val| < q.x.val) →
      ∃ v, Lut.eval exp l 0 x = .ok v ∧ v.Fin ∧ |v.val - Bessel.pnebi 0 (|x.val|)| ≤ 1021 / 1000 * tol.val + 103 / 100000000 := by
  obtain ⟨l, hl, T⟩ := init_table he hn1 hn htf ht ht1
  refine ⟨l, hl, fun x hx ⟨q, hq, hxq⟩ => ?_⟩
  obtain ⟨a, ha, b, hb, w, h1, h2, -, hc, w1, w2, w3, -, hv⟩ := neighbours T hx hq hxq
  have na := T.node a ha
  have nb := T.node b hb
  obtain ⟨a1, a2⟩ := na.zero
  obtain ⟨b1, b2⟩ := nb.zero
  obtain ⟨m1, m2⟩ := mix_is w1 w2 w3 (na.good.fin 0 (Nat.zero_le n)) (nb.good.fin 0 (Nat.zero_le n)) a2 b2
  refine ⟨_, by exact_mod_cast hv 0 (by omega), m1, ?_⟩
  have p1 := Bessel.pnebi_zero_anti na.nonneg h1
  have p2 := Bessel.pnebi_zero_anti (abs_nonneg x.val) h2
  have p3 := hc.drop
  have p4 := Bessel.pnebi_zero_le na.nonneg
  have p5 := Bessel.pnebi_zero_le nb.nonneg
  have k := mean_within (a := (a.y.val 0).val) (b := (b.y.val 0).val) (w := Bessel.pnebi 0 |x.val|) (e := 1021 / 1000 * tol.val + 102 / 100000000) w2 w3
    (by rw [abs_le] at *; constructor <;> linarith) (by rw [abs_le] at *; constructor <;> linarith)
  rw [abs_le] at *
  constructor <;> linarith

/-- All the orders below the maximal one are within the tolerance between the points up to 5 n + n²/10.
Missing for C120: the larger arguments, tolerances below 2e-6. -/
theorem C120_orders_partial {exp : Dbl → Dbl} (he : ExpErr exp (1 / 10 ^ 12)) (n : ℕ) (hn : n ≤ 290) (tol : Dbl) (htf : tol.Fin) (ht : 2 / 1000000 ≤ tol.val)
    (ht1 : tol.val ≤ 1 / 2) (k : ℕ) (hk : k < n) : ∃ l, Lut.init exp n tol = .ok l ∧ ∀ x : Dbl, x.Fin → (∃ q ∈ l.lut, |x.val| < q.x.val ∧ q.x.val ≤ 5 * n + n ^ 2 / 10) →
      ∃ v, Lut.eval exp l k x = .ok v ∧ v.Fin ∧ |v.val - Bessel.pnebi k (|x.val|)| ≤ 1021 / 1000 * tol.val + 202 / 100000000 := by
  obtain ⟨l, hl, T⟩ := init_table he (show 1 ≤ n by omega) hn htf ht ht1
  refine ⟨l, hl, fun x hx ⟨q, hq, hxq, hr⟩ => ?_⟩
  obtain ⟨a, ha, b, hb, w, h1, h2, h3, hc, w1, w2, w3, -, hv⟩ := neighbours T hx hq hxq
  have na := T.node a ha
  have nb := T.node b hb
  obtain ⟨fa, a1, a2⟩ := na.orders he hn (by linarith) hk.le
  obtain ⟨fb, b1, b2⟩ := nb.orders he hn (by linarith) hk.le
  obtain ⟨m1, m2⟩ := mix_is w1 w2 w3 fa fb a2 b2
  refine ⟨_, hv k hk, m1, ?_⟩
  have p1 := Bessel.pnebi_change k h1
  have p2 := Bessel.pnebi_change k h2
  have n1 := Bessel.pnebi_zero_anti na.nonneg h1
  have n2 := Bessel.pnebi_zero_anti (abs_nonneg x.val) h2
  have p3 := hc.drop
  have key := mean_within (a := (a.y.val k).val) (b := (b.y.val k).val) (w := Bessel.pnebi k |x.val|) (e := 1021 / 1000 * tol.val + 201 / 100000000) w2 w3
    (by rw [abs_le] at *; constructor <;> linarith) (by rw [abs_le] at *; constructor <;> linarith)
  rw [abs_le] at *
  constructor <;> linarith

/-- The tolerance 0.01 of the examples. -/
theorem centi_is : (d 1 2).Fin ∧ 9 / 1000 ≤ (d 1 2).val ∧ (d 1 2).val ≤ 11 / 1000 := by
  have h1 : (d 1 2).x = .finite .positive 5764607523034235 (-59) (by decide) := by decide +kernel
  unfold Fp.Fin Fp.val
  rw [h1]
  refine ⟨trivial, ?_⟩
  simp only [Ieee.val, sgn]
  norm_num

-- the hypotheses hold below the second point: the table of order 3 and tolerance 0.01, its orders 0 and 2 at -5e-7
example : ∃ exp l v0 v2, Lut.init exp 3 (d 1 2) = .ok l ∧ Lut.eval exp l 0 (-d 5 7) = .ok v0 ∧ |v0.val - 2| ≤ 2 / 100 ∧ Lut.eval exp l 2 (-d 5 7) = .ok v2 ∧ |v2.val| ≤ 2 / 100 := by
  obtain ⟨exp, he⟩ := expErr_exists
  have hc := centi_is
  have h7 : (d 5 7).Fin ∧ (d 5 7).val ≤ 6 / 10000000 ∧ 0 ≤ (d 5 7).val := by
    have h1 : (d 5 7).x = .finite .positive 4722366482869645 (-73) (by decide) := by decide +kernel
    unfold Fp.Fin Fp.val
    rw [h1]
    refine ⟨trivial, ?_⟩
    simp only [Ieee.val, sgn]
    norm_num
  have ha : |(-d 5 7).val| = (d 5 7).val := by rw [neg_val, abs_neg, abs_of_nonneg h7.2.2]
  have hm := micro_is
  obtain ⟨l, hl, h0⟩ := C120_zero_partial he 3 (by norm_num) (by norm_num) (d 1 2) hc.1 (by linarith) (by linarith)
  obtain ⟨l', hl', h2⟩ := C120_orders_partial he 3 (by norm_num) (d 1 2) hc.1 (by linarith) (by linarith) 2 (by norm_num)
  obtain ⟨l'', hl'', T⟩ := init_table he (n := 3) (by norm_num) (by norm_num) hc.1 (by linarith) (by linarith)
  obtain rfl : l' = l := Except.ok.inj (hl'.symm.trans hl)
  obtain rfl : l'' = l' := Except.ok.inj (hl''.symm.trans hl)
  obtain ⟨c, hlen, -⟩ := T.size
  have h1 : 0 + 1 < l''.lut.length := by omega
  have hcl := T.close 0 h1
  have hq := T.node _ (List.getElem_mem h1)
  have hfar : l''.lut[0 + 1].x.val ≤ 4 := by
    by_contra hf
    have k1 := hcl.drop
    rw [T.first (by omega), Bessel.pnebi_at_zero, if_pos rfl] at k1
    have k2 := Bessel.pnebi_zero_anti (by norm_num) (not_le.1 hf).le
    have k3 := (Bessel.pnebi_drop (x := 0) (y := 4) (by norm_num)).1
    have k4 := Bessel.slope_four
    rw [Bessel.pnebi_at_zero, if_pos rfl] at k3
    linarith
  obtain ⟨v0, e0, -, b0⟩ := h0 (-d 5 7) (neg_fin.2 h7.1) ⟨_, List.getElem_mem h1, by rw [ha]; linarith [hcl.micro]⟩
  obtain ⟨v2, e2, -, b2⟩ := h2 (-d 5 7) (neg_fin.2 h7.1) ⟨_, List.getElem_mem h1, by rw [ha]; linarith [hcl.micro], by push_cast; linarith⟩
  rw [ha] at b0 b2
  have s := Bessel.pnebi_small h7.2.2 (by linarith)
  have s2 := s.2 2 (by norm_num)
  refine ⟨exp, l'', v0, v2, hl, e0, ?_, by exact_mod_cast e2, ?_⟩
  · have := s.1
    rw [abs_le] at *
    constructor <;> linarith
  · rw [abs_le] at *
    constructor <;> linarith

/-! ### Violations -/

theorem Node.one {exp : Dbl → Dbl} {n : ℕ} {p : Functions.Point Dbl} (h : Node exp n p) : |(p.y.val 1).val| ≤ 3 := by
  have a := abs_le.1 (poly_exact h.nonneg)
  have b := abs_le.1 h.good.zero
  have c := Bessel.pnebi_zero_le h.nonneg
  have e := h.good.lower
  have f := h.good.upper
  have g : 0 ≤ slope p.x.val := by
    have := Bessel.pnebi_anti h.nonneg 1
    unfold slope
    linarith
  have k : 0 ≤ Bessel.pnebi 0 p.x.val := by
    by_contra hc
    linarith [a.1, a.2]
  rw [abs_le]
  constructor <;> linarith

/-- Whatever the tolerance below 0.006/n, some order is wrong by more than 0.0059/n at some argument: the values of order 1 of the points after 2048 n² are wrong
(C115), and if there are no such points the order 0 is wrong after the last point. -/
theorem C120_large_violated {exp : Dbl → Dbl} (he : ExpErr exp (1 / 10 ^ 12)) (n : ℕ) (hn2 : 2 ≤ n) (hn : n ≤ 290) (tol : Dbl) (htf : tol.Fin) (ht : 2 / 1000000 ≤ tol.val)
    (ht' : tol.val * n ≤ 6 / 1000) : ∃ l, Lut.init exp n tol = .ok l ∧
      ∃ (k : ℕ) (x v : Dbl), k < n ∧ x.Fin ∧ 0 ≤ x.val ∧ Lut.eval exp l k x = .ok v ∧ v.Fin ∧ 59 / 10000 < |v.val - Bessel.pnebi k x.val| * n := by
  have hn' : (2 : ℝ) ≤ n := by exact_mod_cast hn2
  have hnr : (n : ℝ) ≤ 290 := by exact_mod_cast hn
  have ht1 : tol.val ≤ 1 / 2 := by nlinarith
  obtain ⟨l, hl, T⟩ := init_table he (show 1 ≤ n by omega) hn htf ht ht1
  refine ⟨l, hl, ?_⟩
  obtain ⟨c, hlen, -⟩ := T.size
  have f1 := Bessel.pnebi_large (c := 50 * n) (by linarith)
  have f2 := Bessel.pnebi_large (c := 100 * n) (by linarith)
  have f3 := Bessel.pnebi_large (c := 500 * n) (by linarith)
  have scale : ∀ c d : ℝ, c / (d * n) * n = c / d := fun c d => by field_simp
  have g1 := mul_le_mul_of_nonneg_right f1.1 (show (0 : ℝ) ≤ n by linarith)
  have g2 := mul_le_mul_of_nonneg_right f2.1 (show (0 : ℝ) ≤ n by linarith)
  have g2' := mul_le_mul_of_nonneg_right f2.2 (show (0 : ℝ) ≤ n by linarith)
  have g3 := mul_le_mul_of_nonneg_right f3.2 (show (0 : ℝ) ≤ n by linarith)
  rw [scale] at g1 g2 g2' g3
  norm_num at g1 g2 g2' g3
  by_cases hex : ∃ q ∈ l.lut, (50 * n : ℝ) ^ 2 ≤ q.x.val ∧ q.x.val ≤ (100 * n : ℝ) ^ 2
  · obtain ⟨q, hq, h1, h2⟩ := hex
    have nq := T.node q hq
    have hq0 : 0 < q.x.val := by nlinarith
    have ha : |q.x.val| = q.x.val := abs_of_pos hq0
    have hbig : q.x.val ≤ 2 ^ (400 : ℤ) := by
      refine le_trans ?_ (two_pow_le (show (40 : ℤ) ≤ 400 by norm_num))
      norm_num
      nlinarith
    obtain ⟨r, hr, -, hv⟩ := C115_large_violated he (by norm_num) n (by omega) (by omega) q.x nq.fin (by rw [ha]; nlinarith) (by rwa [ha]) ⟨n + 1, fun _ => d 0 1⟩
    have e3 : r = q.y := Except.ok.inj (hr.symm.trans nq.call)
    rw [e3, ha] at hv
    clear hbig
    have h3 := (Bessel.ratio q.x.val hq0 0).2
    have h4 : 999 / 1000 * Bessel.pnebi 0 q.x.val ≤ Bessel.pnebi 1 q.x.val := by
      rw [Bessel.pnebi, Bessel.pnebi]
      have he := Real.exp_pos (-q.x.val)
      have p0 := Bessel.besselI_pos 0 hq0
      have hq1 : 1000 ≤ q.x.val := by nlinarith
      push_cast at h3
      rw [zero_add] at h3
      have h5 : 999 / 1000 * Bessel.besselI 0 q.x.val ≤ Bessel.besselI 1 q.x.val := by
        have : q.x.val * (999 / 1000 * Bessel.besselI 0 q.x.val) ≤ q.x.val * Bessel.besselI 1 q.x.val := by nlinarith
        exact le_of_mul_le_mul_left this hq0
      nlinarith
    have h5 := Bessel.pnebi_zero_anti hq0.le h2
    -- the value of the table at the point
    obtain ⟨v, hev, hvf, hvv⟩ : ∃ v, Lut.eval exp l (1 : ℕ) q.x = .ok v ∧ v.Fin ∧ |v.val - (q.y.val 1).val| ≤ 1 / 10 ^ 14 := by
      obtain ⟨j, hj, rfl⟩ := List.getElem_of_mem hq
      obtain ⟨i, hi, s1, s2⟩ := eval_table T nq.fin
      rw [ha] at s1 s2
      have hij : i = j := by
        rcases Nat.lt_trichotomy i j with h6 | h6 | h6
        · rcases s2 with ⟨s2, -⟩ | ⟨hi', w, s2, -⟩
          · omega
          · rcases Nat.lt_or_ge (i + 1) j with h7 | h7
            · have := T.lt hj h7
              linarith
            · have : i + 1 = j := by omega
              subst this
              linarith
        · exact h6
        · have := T.lt hi h6
          linarith
      subst hij
      rcases s2 with ⟨-, s2, -⟩ | ⟨hi', w, -, w1, w2, w3, w4, s2, -⟩
      · exact ⟨_, s2 1 (by omega), nq.good.fin 1 (by omega), by rw [sub_self, abs_zero]; norm_num⟩
      · have nb := T.node _ (List.getElem_mem hi')
        obtain ⟨m1, m2⟩ := mix_is w1 w2 w3 (nq.good.fin 1 (by omega)) (nb.good.fin 1 (by omega)) nq.one nb.one
        rw [w4 rfl, sub_zero, one_mul, zero_mul, add_zero] at m2
        exact ⟨_, s2 1 (by omega), m1, m2⟩
    refine ⟨1, q.x, v, by omega, nq.fin, hq0.le, hev, hvf, ?_⟩
    have h6 : Bessel.pnebi 1 q.x.val * (3 / 4) - 1 / 10 ^ 14 ≤ |v.val - Bessel.pnebi 1 q.x.val| := by
      rw [abs_sub_comm]
      refine le_trans ?_ (le_abs_self _)
      linarith [(abs_le.1 hvv).2]
    have h7 := mul_le_mul_of_nonneg_right h6 (show (0 : ℝ) ≤ n by linarith)
    have h8 := mul_le_mul_of_nonneg_right (h5.trans (show Bessel.pnebi 0 q.x.val ≤ 1000 / 999 * Bessel.pnebi 1 q.x.val by linarith)) (show (0 : ℝ) ≤ n by linarith)
    refine lt_of_lt_of_le ?_ h7
    have h9 : (Bessel.pnebi 1 q.x.val * (3 / 4) - 1 / 10 ^ 14) * n = 3 / 4 * (Bessel.pnebi 1 q.x.val * n) - 1 / 10 ^ 14 * n := by ring
    have h10 : 1000 / 999 * Bessel.pnebi 1 q.x.val * n = 1000 / 999 * (Bessel.pnebi 1 q.x.val * n) := by ring
    rw [h9]
    rw [h10] at h8
    linarith
  · push Not at hex
    have hlast : ∀ i (hi : i < l.lut.length), l.lut[i].x.val < (50 * n : ℝ) ^ 2 := by
      intro i
      induction i with
      | zero => intro hi; rw [T.first hi]; positivity
      | succ i ih =>
        intro hi
        have h1 := ih (by omega)
        by_contra h2
        rw [not_lt] at h2
        have h3 := hex _ (List.getElem_mem hi) h2
        have h4 := (T.close i hi).drop
        have h5 := Bessel.pnebi_zero_anti (T.node _ (List.getElem_mem (by omega : i < l.lut.length))).nonneg h1.le
        have h6 := Bessel.pnebi_zero_anti (by positivity) h3.le
        have h7 := mul_le_mul_of_nonneg_right (show Bessel.pnebi 0 ((50 * n : ℝ) ^ 2) - Bessel.pnebi 0 ((100 * n : ℝ) ^ 2) ≤ 1021 / 1000 * tol.val by linarith)
          (show (0 : ℝ) ≤ n by linarith)
        rw [sub_mul, mul_assoc] at h7
        linarith
    have hxv : (((500 * n) ^ 2 : ℕ) : Dbl).Fin ∧ (((500 * n) ^ 2 : ℕ) : Dbl).val = (500 * n : ℝ) ^ 2 := by
      have hb : (500 * n : ℝ) ^ 2 ≤ 2 ^ (40 : ℤ) := by norm_num; nlinarith
      have := natCast_exact (spec := Format.binary64) (n := (500 * n) ^ 2) (by push_cast; exact hb.trans (by rw [mb.1]; exact two_pow_le (by norm_num)))
        (by push_cast; exact hb.trans (two_pow_le (by decide)))
      push_cast at this ⊢
      exact this
    have hxa : |(((500 * n) ^ 2 : ℕ) : Dbl).val| = (500 * n : ℝ) ^ 2 := by rw [hxv.2]; exact abs_of_nonneg (by positivity)
    obtain ⟨i, hi, h1, h2⟩ := eval_table T hxv.1
    rw [hxa] at h1 h2
    rcases h2 with ⟨h2, h3, -⟩ | ⟨hi', w, h2, -⟩
    · have nd := T.node _ (List.getElem_mem hi)
      refine ⟨0, _, _, by omega, hxv.1, by rw [hxv.2]; positivity, h3 0 (by omega), nd.good.fin 0 (Nat.zero_le _), ?_⟩
      rw [hxv.2]
      have h4 := nd.zero.1
      have h5 := Bessel.pnebi_zero_anti nd.nonneg (hlast i hi).le
      rw [abs_le] at h4
      have h6 := le_abs_self ((l.lut[i].y.val 0).val - Bessel.pnebi 0 ((500 * n : ℝ) ^ 2))
      have h7 : 999 / 1000 * Bessel.pnebi 0 ((50 * n : ℝ) ^ 2) - Bessel.pnebi 0 ((500 * n : ℝ) ^ 2) ≤ |(l.lut[i].y.val 0).val - Bessel.pnebi 0 ((500 * n : ℝ) ^ 2)| := by linarith
      have h8 := mul_le_mul_of_nonneg_right h7 (show (0 : ℝ) ≤ n by linarith)
      refine lt_of_lt_of_le ?_ h8
      generalize Bessel.pnebi 0 ((50 * n : ℝ) ^ 2) = A at *
      generalize Bessel.pnebi 0 ((500 * n : ℝ) ^ 2) = B at *
      have h9 : (999 / 1000 * A - B) * n = 999 / 1000 * (A * n) - B * n := by ring
      rw [h9]
      linarith
    · exfalso
      have := hlast (i + 1) hi'
      have e1 : (500 * n : ℝ) ^ 2 = 250000 * n ^ 2 := by ring
      have e2 : (50 * n : ℝ) ^ 2 = 2500 * n ^ 2 := by ring
      have e3 : (0 : ℝ) ≤ n ^ 2 := by positivity
      rw [e1] at h2
      rw [e2] at this
      linarith

/-- The first step for a tolerance below 1.9e-6. -/
theorem tiny_step {tol : Dbl} (htf : tol.Fin) (h0 : 1 / 10 ^ 9 ≤ tol.val) (h1 : tol.val ≤ 19 / 10000000) :
    (d 0 1 - tol / (d 0 1 - d 20 1)).Fin ∧ 0 ≤ (d 0 1 - tol / (d 0 1 - d 20 1)).val ∧ (d 0 1 - tol / (d 0 1 - d 20 1)).val ≤ 96 / 100000000 ∧
    stdMin (stdMax (d 0 1 - d 20 1) ((d 0 1 - d 20 1) * (d 20 1 - d 20 1) / tol)) derivMax = derivMax := by
  have hul : ulp ≤ 12 / 10 ^ 17 := by unfold ulp; norm_num
  have hti : halfMin ≤ 1 / 10 ^ 30 := by
    unfold halfMin
    calc (2 : ℝ) ^ (-1075 : ℤ) ≤ 2 ^ (-100 : ℤ) := two_pow_le (by norm_num)
      _ ≤ 1 / 10 ^ 30 := by norm_num
  have hd : (d 0 1 - d 20 1).Fin ∧ (d 0 1 - d 20 1).val = -2 := by
    have h1 := sub_is zero_lit.1 two_is.1 (by rw [zero_lit.2, two_is.2, zero_sub, abs_neg]; exact dbl_top' (by norm_num) (by norm_num))
    rw [zero_lit.2, two_is.2, zero_sub] at h1
    refine ⟨h1.1, h1.2.exact ?_⟩
    have h2 := (d 20 1).grid
    rw [two_is.2] at h2
    exact h2.neg
  have hz : (d 20 1 - d 20 1).Fin ∧ (d 20 1 - d 20 1).val = 0 := by
    have h1 := sub_is two_is.1 two_is.1 (by rw [sub_self]; exact dbl_top' le_rfl (by norm_num))
    rw [sub_self] at h1
    exact ⟨h1.1, h1.2.exact grid_zero⟩
  generalize d 0 1 - d 20 1 = a at *
  generalize d 20 1 - d 20 1 = b at *
  have q := div_is htf hd.1 (by rw [hd.2]; norm_num) (by rw [hd.2, div_neg, abs_neg]; exact dbl_top' (by linarith) (by linarith))
  rw [hd.2] at q
  have e1 := round_err q
  have qa : |tol.val / -2| ≤ 1 / 1000000 := by rw [abs_le]; constructor <;> linarith
  have u1 : ulp * |tol.val / -2| ≤ 12 / 10 ^ 17 * (1 / 1000000) := mul_le_mul hul qa (abs_nonneg _) (by norm_num)
  have qf := q.1
  generalize tol / a = z at *
  rw [abs_le] at e1
  have s := sub_is zero_lit.1 qf (by rw [zero_lit.2, zero_sub]; exact dbl_top' (by linarith) (by linarith))
  rw [zero_lit.2, zero_sub] at s
  have sx : (d 0 1 - z).val = -z.val := s.2.exact z.grid.neg
  refine ⟨s.1, by rw [sx]; linarith, by rw [sx]; linarith, ?_⟩
  have p := mul_is hd.1 hz.1 (by rw [hz.2, mul_zero]; exact dbl_top' le_rfl (by norm_num))
  rw [hz.2, mul_zero] at p
  have pv : (a * b).val = 0 := p.2.exact grid_zero
  have r := div_is p.1 htf (by linarith) (by rw [pv, zero_div]; exact dbl_top' le_rfl (by norm_num))
  rw [pv, zero_div] at r
  have rv : (a * b / tol).val = 0 := r.2.exact grid_zero
  have m := stdMax_is hd.1 r.1
  rw [hd.2, rv] at m
  unfold stdMin
  rw [if_pos]
  rw [lt_iff limit_is.1 m.1, limit_is.2, m.2]
  have := cap_pos
  norm_num
  exact this

/-- The second step: to a point after 1e8. -/
theorem tiny_jump {tol x : Dbl} (htf : tol.Fin) (h0 : 1 / 10 ^ 9 ≤ tol.val) (h1 : tol.val ≤ 19 / 10000000) (hx : x.Fin) (hx0 : 0 ≤ x.val) (hx1 : x.val ≤ 1) :
    (x - tol / derivMax).Fin ∧ 100000000 ≤ (x - tol / derivMax).val ∧ cap * (x - tol / derivMax).val ≤ 14 := by
  have hc := cap_pos
  have hcs : cap ≤ 1 / 10 ^ 20 := by
    unfold cap
    have : (2 : ℝ) ^ (-1022 : ℤ) ≤ 2 ^ (-80 : ℤ) := two_pow_le (by norm_num)
    have : (2 : ℝ) ^ (-80 : ℤ) ≤ 1 / 10 ^ 21 := by norm_num
    generalize (2 : ℝ) ^ (-1022 : ℤ) = t at *
    generalize (2 : ℝ) ^ (-80 : ℤ) = u at *
    linarith
  have hul : ulp ≤ 12 / 10 ^ 17 := by unfold ulp; norm_num
  have hti : halfMin ≤ 1 / 10 ^ 30 := by
    unfold halfMin
    calc (2 : ℝ) ^ (-1075 : ℤ) ≤ 2 ^ (-100 : ℤ) := two_pow_le (by norm_num)
      _ ≤ 1 / 10 ^ 30 := by norm_num
  have hl := limit_is
  generalize derivMax = a at *
  obtain ⟨D, hD⟩ : ∃ D, D = tol.val / cap := ⟨_, rfl⟩
  have hDc : cap * D = tol.val := by rw [hD]; field_simp
  have D0 : 10 ^ 10 ≤ D := by
    rw [hD, le_div_iff₀ hc]
    linarith
  have e : tol.val / a.val = -D := by rw [hl.2, div_neg, hD]
  have q := div_is htf hl.1 (by rw [hl.2]; linarith) (by rw [e, abs_neg]; exact cap_top (by linarith) (by linarith))
  rw [e] at q
  have e1 := round_err q
  have qf := q.1
  generalize tol / a = z at *
  rw [abs_neg, abs_of_nonneg (show 0 ≤ D by linarith)] at e1
  have u1 : ulp * D ≤ 12 / 10 ^ 17 * D := mul_le_mul_of_nonneg_right hul (by linarith)
  rw [abs_le] at e1
  have b1 : 0 ≤ x.val - z.val := by linarith
  have b2 : x.val - z.val ≤ 2 * D := by linarith
  have b3 : cap * (x.val - z.val) ≤ 1 := by
    have := mul_le_mul_of_nonneg_left b2 hc.le
    linarith
  have s := sub_is hx qf (cap_top b1 (by linarith))
  have e2 := round_err s
  rw [abs_of_nonneg b1] at e2
  have u2 : ulp * (x.val - z.val) ≤ 12 / 10 ^ 17 * (2 * D) := mul_le_mul hul b2 b1 (by norm_num)
  rw [abs_le] at e2
  refine ⟨s.1, by linarith, ?_⟩
  have : (x - z).val ≤ 3 * D := by linarith
  have := mul_le_mul_of_nonneg_left this hc.le
  linarith

theorem lutLoop_cons {exp : Dbl → Dbl} {n : ℕ} (hn : 1 ≤ n) {tol x dv y0 : Dbl} {m : ℕ} {y : Vec Dbl} (hy : evaluatePnebiVector exp n (x - tol / dv) ⟨n + 1, fun _ => d 0 1⟩ = .ok y)
    (hl : y.len = n + 1) {r : List (Functions.Point Dbl)} (h : lutLoop exp n tol (m + 1) x dv y0 = .ok r) :
    ∃ r', lutLoop exp n tol m (x - tol / dv) (stdMin (stdMax (y.val 1 - y.val 0) (dv * (y0 - y.val 0) / tol)) derivMax) (y.val 0) = .ok r' ∧ r = ⟨x - tol / dv, y⟩ :: r' := by
  have g0 : y.get 0 = .ok (y.val 0) := y.get_nat (i := 0) (by rw [hl]; omega)
  have g1 : y.get 1 = .ok (y.val 1) := y.get_nat (i := 1) (by rw [hl]; omega)
  have hpt : Point.new exp n (x - tol / dv) = .ok ⟨x - tol / dv, y⟩ := by unfold Point.new; rw [hy]; rfl
  rw [lutLoop] at h
  dsimp only at h
  rw [hpt, Functions.bind_okP] at h
  dsimp only at h
  rw [g0, Functions.bind_okP, g1, Functions.bind_okP] at h
  generalize lutLoop exp n tol m (x - tol / dv) (stdMin (stdMax (y.val 1 - y.val 0) (dv * (y0 - y.val 0) / tol)) derivMax) (y.val 0) = t at *
  cases t with
  | error e => cases h
  | ok r' => exact ⟨r', rfl, (Except.ok.inj h).symm⟩

/-- For tolerances from 1e-9 to 1.9e-6 the second point is before 1e-6, where the values are constant: the step after it is larger than 1e8, and a table that answers at all
interpolates between 2 and about 0 over it. -/
theorem C120_tiny_violated {exp : Dbl → Dbl} (he : ExpErr exp (1 / 10 ^ 12)) (n : ℕ) (hn1 : 1 ≤ n) (hn : n ≤ 290) (tol : Dbl) (htf : tol.Fin) (h0 : 1 / 10 ^ 9 ≤ tol.val)
    (h1 : tol.val ≤ 19 / 10000000) : ¬ ∃ l v, Lut.init exp n tol = .ok l ∧ Lut.eval exp l 0 (d 1000 1) = .ok v ∧ v.val - Bessel.pnebi 0 100 < 19 / 10 := by
  rintro ⟨l, v, hl, hv, hw⟩
  have hx100 : (d 1000 1).Fin ∧ (d 1000 1).val = 100 := by
    have h1 : (d 1000 1).x = .finite .positive 7036874417766400 (-46) (by decide) := by decide +kernel
    unfold Fp.Fin Fp.val
    rw [h1]
    refine ⟨trivial, ?_⟩
    simp only [Ieee.val, sgn]
    norm_num
  have ht0 : 0 < tol.val := lt_of_lt_of_le (by norm_num) h0
  -- the number of points
  obtain ⟨c, hc, hc3⟩ : ∃ c : ℕ, castCeil (d 20 1 / tol) = .ok (c : ℤ) ∧ c ≤ 2000000002 := by
    have q0 : 0 < 2 / tol.val := by positivity
    have q1 : 2 / tol.val ≤ 2000000000 := by rw [div_le_iff₀ ht0]; norm_num at h0; linarith
    have hq : (d 20 1 / tol).Is (2 / tol.val) := by
      have := div_is two_is.1 htf ht0.ne' (by rw [two_is.2]; exact dbl_top' q0.le (q1.trans (by norm_num)))
      rwa [two_is.2] at this
    have e := round_err hq
    have hul : ulp ≤ 12 / 10 ^ 17 := by unfold ulp; norm_num
    have hti : halfMin ≤ 1 / 10 ^ 30 := by
      unfold halfMin
      calc (2 : ℝ) ^ (-1075 : ℤ) ≤ 2 ^ (-100 : ℤ) := two_pow_le (by norm_num)
        _ ≤ 1 / 10 ^ 30 := by norm_num
    have hge : 0 ≤ (d 20 1 / tol).val := hq.2.mono_ge grid_zero q0.le
    rw [abs_of_pos q0, abs_le] at e
    have u1 : ulp * (2 / tol.val) ≤ 12 / 10 ^ 17 * 2000000000 := mul_le_mul hul q1 q0.le (by norm_num)
    obtain ⟨c, hc⟩ := Int.eq_ofNat_of_zero_le (Int.ceil_nonneg hge)
    have hc1 := Int.ceil_lt_add_one (d 20 1 / tol).val
    rw [hc] at hc1
    push_cast at hc1
    have hc3 : c ≤ 2000000002 := by
      have : (c : ℝ) < 2000000003 := by linarith
      have : c < 2000000003 := by exact_mod_cast this
      omega
    refine ⟨c, ?_, hc3⟩
    unfold castCeil
    rw [ceil_fin hq.1, hc]
    exact int_ok (by omega) (by omega)
  -- the first three points
  obtain ⟨z, hz⟩ : ∃ z : Vec Dbl, z = ⟨n + 1, fun j => if j = 0 then d 20 1 else d 0 1⟩ := ⟨_, rfl⟩
  have hx0 : |(d 0 1).val| < (d 1 6).val := by rw [zero_lit.2, abs_zero]; exact lt_of_lt_of_le (by norm_num) micro_is.2.1
  have v0 := vector_small exp hn zero_lit.1 hx0
  rw [← hz] at v0
  have z0 : z.val 0 = d 20 1 := by rw [hz]; rfl
  have z1 : z.val 1 = d 0 1 := by rw [hz]; rfl
  have zl : z.len = n + 1 := by rw [hz]
  have g0 : z.get 0 = .ok (d 20 1) := by rw [← z0]; exact Vec.get_nat _ (i := 0) (by rw [zl]; omega)
  have g1 : z.get 1 = .ok (d 0 1) := by rw [← z1]; exact Vec.get_nat _ (i := 1) (by rw [zl]; omega)
  have hpt : Point.new exp n (d 0 1) = .ok ⟨d 0 1, z⟩ := by unfold Point.new; rw [v0]; rfl
  obtain ⟨s1, s2, s3, s4⟩ := tiny_step htf h0 h1
  obtain ⟨t1, t2, t3⟩ := tiny_jump htf h0 h1 s1 s2 (by linarith)
  have v1 := vector_small exp hn s1 (by rw [abs_of_nonneg s2]; exact lt_of_le_of_lt s3 (lt_of_lt_of_le (by norm_num) micro_is.2.1))
  rw [← hz] at v1
  obtain ⟨y, v2, gy⟩ := values he hn1 hn t1 (micro_is.2.2.trans (le_trans (by norm_num) t2))
  obtain ⟨r, hlr⟩ : ∃ r, l = ⟨⟨d 0 1, z⟩ :: ⟨d 0 1 - tol / (d 0 1 - d 20 1), z⟩ :: ⟨d 0 1 - tol / (d 0 1 - d 20 1) - tol / derivMax, y⟩ :: r, n⟩ := by
    unfold Lut.init at hl
    rw [hc, Functions.bind_okP, int_ok (by omega) (by omega), Functions.bind_okP, if_neg (by omega), hpt, Functions.bind_okP] at hl
    dsimp only at hl
    rw [g1, Functions.bind_okP, g0, Functions.bind_okP, show ((c : ℤ) + 20 - 1).toNat = c + 17 + 1 + 1 by omega] at hl
    generalize ht : lutLoop exp n tol (c + 17 + 1 + 1) (d 0 1) (d 0 1 - d 20 1) (d 20 1) = t at hl
    cases t with
    | error e => cases hl
    | ok t =>
      obtain ⟨r1, hr1, rfl⟩ := lutLoop_cons hn1 v1 zl ht
      rw [z0, z1, s4] at hr1
      obtain ⟨r2, -, rfl⟩ := lutLoop_cons hn1 v2 gy.len hr1
      exact ⟨r2, (Except.ok.inj hl).symm⟩
  generalize d 0 1 - tol / (d 0 1 - d 20 1) = x1 at *
  generalize x1 - tol / derivMax = x2 at *
  subst hlr
  -- the search
  have hxn : ¬ d 1000 1 < d 0 1 := by rw [lt_iff hx100.1 zero_lit.1, hx100.2, zero_lit.2]; norm_num
  have hxn1 : ¬ d 1000 1 < x1 := by rw [lt_iff hx100.1 s1, hx100.2]; linarith
  have hxn2 : d 1000 1 < x2 := by rw [lt_iff hx100.1 t1, hx100.2]; linarith
  obtain ⟨y', hy'⟩ := vector_order0 exp (d 1000 1)
  have hp' : Point.new exp 0 (d 1000 1) = .ok ⟨d 1000 1, y'⟩ := by unfold Point.new; rw [hy']; rfl
  obtain ⟨w1, -, w3, w4⟩ := weight_is hx100.1 s1 t1 s2 (by rw [hx100.2]; linarith) (by rw [hx100.2]; linarith) t3
  have hy0 : y.get 0 = .ok (y.val 0) := y.get_nat (i := 0) (by rw [gy.len]; omega)
  have hass : Cxx.assert (0 ≤ (0 : ℤ) ∧ (0 : ℤ) < (n : ℤ)) = .ok () := by
    unfold Cxx.assert
    rw [if_pos ⟨le_rfl, by exact_mod_cast hn1⟩]
  have hev : v = (d 10 1 - (d 1000 1 - x1) / (x2 - x1)) * d 20 1 + (d 1000 1 - x1) / (x2 - x1) * y.val 0 := by
    unfold Lut.eval at hv
    simp only [List.isEmpty_cons, Bool.false_eq_true, if_false, if_neg hxn] at hv
    rw [hass, Functions.bind_okP] at hv
    unfold bracket at hv
    rw [hp', Functions.bind_okP] at hv
    dsimp only at hv
    split at hv
    · have hfi : List.findIdx (fun p : Functions.Point Dbl => decide (d 1000 1 < p.x)) (⟨d 0 1, z⟩ :: ⟨x1, z⟩ :: ⟨x2, y⟩ :: r) = 2 := by
        simp [List.findIdx_cons, hxn, hxn1, hxn2]
      rw [hfi] at hv
      simp only [List.getElem?_cons_succ, List.getElem?_cons_zero, Functions.bind_okP] at hv
      rw [g0, Functions.bind_okP, hy0, Functions.bind_okP] at hv
      exact (Except.ok.inj hv).symm
    · cases hv
  -- the weight
  have n2 : Node exp n ⟨x2, y⟩ := ⟨t1, Or.inr (micro_is.2.2.trans (le_trans (by norm_num) t2)), t3, v2, gy⟩
  obtain ⟨m1, m2⟩ := mix_is w1.1 w3 w4 two_is.1 (gy.fin 0 (Nat.zero_le _)) (by rw [two_is.2]; norm_num) n2.zero.2
  rw [← hev] at m2
  have hwt : ((d 1000 1 - x1) / (x2 - x1)).val ≤ 1 / 10000 := by
    have hul : ulp ≤ 12 / 10 ^ 17 := by unfold ulp; norm_num
    have hti : halfMin ≤ 1 / 10 ^ 30 := by
      unfold halfMin
      calc (2 : ℝ) ^ (-1075 : ℤ) ≤ 2 ^ (-100 : ℤ) := two_pow_le (by norm_num)
        _ ≤ 1 / 10 ^ 30 := by norm_num
    have hcp := cap_pos
    have a0 : 0 ≤ x2.val - x1.val := by linarith
    have a1 := round_err (sub_is t1 s1 (cap_top a0 (by nlinarith)))
    have a2 := sub_is hx100.1 s1 (by rw [hx100.2]; exact dbl_top' (by linarith) (by linarith))
    have a3 : (d 1000 1 - x1).val ≤ 100 := by
      have := a2.2.mono_le (d 1000 1).grid (by linarith)
      rwa [hx100.2] at this
    rw [abs_of_nonneg a0] at a1
    have u1 : ulp * (x2.val - x1.val) ≤ 12 / 10 ^ 17 * (x2.val - x1.val) := mul_le_mul_of_nonneg_right hul a0
    have a4 : 10000000 ≤ (x2 - x1).val := by linarith [(abs_le.1 a1).1]
    have a5 : (d 1000 1 - x1).val / (x2 - x1).val ≤ 1 / 100000 := by
      rw [div_le_iff₀ (by linarith)]
      linarith
    have a6 : 0 ≤ (d 1000 1 - x1).val / (x2 - x1).val := div_nonneg (a2.2.mono_ge grid_zero (by rw [hx100.2]; linarith)) (by linarith)
    have a7 := round_err w1
    rw [abs_of_nonneg a6] at a7
    have u2 : ulp * ((d 1000 1 - x1).val / (x2 - x1).val) ≤ 12 / 10 ^ 17 * (1 / 100000) := mul_le_mul hul a5 a6 (by norm_num)
    linarith [(abs_le.1 a7).2]
  have f := (Bessel.pnebi_large (c := 10) (by norm_num)).2
  norm_num at f
  have a1 := abs_le.1 n2.zero.2
  rw [two_is.2] at m2
  rw [abs_le] at m2
  have := mul_nonneg w3 (show 0 ≤ (y.val 0).val + 3 by linarith)
  nlinarith

/-- Negation of C120: with n = 2 and the tolerance 0.001. -/
theorem C120_violated : ¬ C120_statement := by
  intro h
  obtain ⟨exp, he⟩ := expErr_exists
  have h3 : (d 1 3).Fin ∧ 9 / 10000 ≤ (d 1 3).val ∧ (d 1 3).val ≤ 11 / 10000 := by
    have h1 : (d 1 3).x = .finite .positive 4611686018427388 (-62) (by decide) := by decide +kernel
    unfold Fp.Fin Fp.val
    rw [h1]
    refine ⟨trivial, ?_⟩
    simp only [Ieee.val, sgn]
    norm_num
  obtain ⟨l, hl, k, x, v, hk, hxf, hx, hv, hvf, hw⟩ := C120_large_violated he 2 le_rfl (by norm_num) (d 1 3) h3.1 (by linarith [h3.2.1]) (by push_cast; linarith [h3.2.2])
  obtain ⟨l', hl', hall⟩ := h exp he 2 (d 1 3) (by norm_num) (by norm_num) h3.1 (by linarith [h3.2.1]) (by linarith [h3.2.2])
  have e : l' = l := Except.ok.inj (hl'.symm.trans hl)
  subst e
  obtain ⟨v', hv', -, hw'⟩ := hall k x hk hxf
  have : v' = v := Except.ok.inj (hv'.symm.trans hv)
  subst this
  rw [abs_of_nonneg hx] at hw'
  push_cast at hw
  linarith [h3.2.2]

end Verif.FunctionsFp
