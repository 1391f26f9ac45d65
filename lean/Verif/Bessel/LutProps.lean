import Verif.Bessel.Lut

/-! Property theorems C113 (see properties.jsonl). -/
namespace Verif.Bessel
open Functions

/-- Full statement of C113: the table answers every order below the maximal one within the tolerance, up to two per cent and 2e-6. -/
def C113_statement : Prop := ∀ (n : ℕ) (tol : ℝ) (l : Lut ℝ), 1 ≤ n → 0 < tol → ⌈2 / tol⌉ + 20 ≤ 2147483647 → Lut.init Spec.real n tol = .ok l →
  ∀ (k : ℕ) (x : ℝ), k < n → ∃ v, l.eval k x = .ok v ∧ |v - pnebi k (|x|)| ≤ 102 / 100 * tol + 2 / 1000000

theorem ceil_small {tol : ℝ} (ht : 2 / 1000000 ≤ tol) : ⌈2 / tol⌉ + 20 ≤ 2147483647 := by
  have h0 : 0 < tol := by linarith
  have : 2 / tol ≤ (1000000 : ℤ) := by
    rw [div_le_iff₀ h0]
    push_cast
    linarith
  have := Int.ceil_le.2 this
  omega

theorem pnebi_at_zero (k : ℕ) : pnebi k 0 = if k = 0 then 2 else 0 := by
  rw [pnebi, besselI_zero]
  split_ifs <;> simp

/-- The table: its points, and the drop between consecutive points. -/
theorem init_close {n : ℕ} (hn : 1 ≤ n) {tol : ℝ} (ht : 2 / 1000000 ≤ tol) {l : Lut ℝ} (h : Lut.init Spec.real n tol = .ok l) :
    Built Spec.real n l ∧ (∀ q ∈ l.lut, IsPoint Spec.real n q ∧ 0 ≤ q.x) ∧ l.lut.Pairwise (fun p q => p.x < q.x) ∧ (∃ h : 0 < l.lut.length, l.lut[0].x = 0) ∧
    ∀ i (hi : i + 1 < l.lut.length), Close tol l.lut[i] l.lut[i + 1] := by
  have h0 : 0 < tol := by linarith
  have hb : Built Spec.real n l := ⟨tol, h0, ceil_small ht, h⟩
  obtain ⟨l', p, r, hl', ho, hlr, hp, hlen, hpts, hs⟩ := init_ok Spec.real hn h0 (ceil_small ht)
  have : l' = l := Except.ok.inj (hl'.symm.trans h)
  subst this
  obtain ⟨lut, om⟩ := l'
  dsimp only at hlr
  subst hlr
  refine ⟨hb, fun q hq => ⟨hpts q hq, ?_⟩, hs, ⟨by simp, hp⟩, ?_⟩
  · rcases List.mem_cons.1 hq with rfl | hq
    · rw [hp]
    · have := List.rel_of_pairwise_cons hs hq
      rw [hp] at this
      exact this.le
  · have hpp := hpts p (List.mem_cons_self ..)
    have e := hpp.1
    rw [hp] at e
    have g0 : p.y.get 0 = .ok (p.y.val 0) := p.y.get_nat (i := 0) (by rw [hpp.2]; omega)
    have g1 : p.y.get 1 = .ok (p.y.val 1) := p.y.get_nat (i := 1) (by rw [hpp.2]; omega)
    have hv : p.y.val 0 = 2 ∧ p.y.val 1 = 0 := by
      obtain ⟨r, hr, -, hv, -⟩ := pnebiVector_ok Spec.real n 0 ⟨n + 1, fun _ => 0⟩
      have e' : Point.new Spec.real n 0 = .ok ⟨0, r⟩ := by unfold Point.new; rw [hr]; rfl
      rw [e'] at e
      have := Except.ok.inj e
      have hv := hv (by rw [fabs_eq (le_refl _)]; norm_num)
      rw [← this]
      exact ⟨hv.1, hv.2 1 one_ne_zero⟩
    have hi : Inv 0 (-2) 2 := by
      refine ⟨Or.inl ⟨rfl, rfl⟩, ?_, by norm_num, ?_, fun h => ?_⟩
      · rw [poly_small 0 (by norm_num)]
        norm_num [small]
      · rw [pnebi_at_zero, pnebi_at_zero]
        norm_num
      · norm_num at h
    obtain ⟨r', hr', hc⟩ := lutLoop_close hn ht (⌈2 / tol⌉ + 20 - 1).toNat 0 (-2) 2 hi p hp
    have i1 : Cxx.int ⌈2 / tol⌉ = .ok ⌈2 / tol⌉ := if_pos (by
      have := Int.ceil_nonneg (div_pos (show (0 : ℝ) < 2 by norm_num) h0).le
      have := ceil_small ht
      omega)
    have i2 : Cxx.int (⌈2 / tol⌉ + 20) = .ok (⌈2 / tol⌉ + 20) := if_pos (by
      have := Int.ceil_nonneg (div_pos (show (0 : ℝ) < 2 by norm_num) h0).le
      have := ceil_small ht
      omega)
    have hini : Lut.init Spec.real n tol = .ok ⟨p :: r', n⟩ := by
      unfold Lut.init
      rw [if_neg h0.ne', i1, bind_okP, i2, bind_okP, e, bind_okP, g1, bind_okP, g0, bind_okP]
      dsimp only
      rw [hv.1, hv.2, zero_sub, hr']
      rfl
    have e2 : p :: r' = p :: r := congrArg Lut.lut (Except.ok.inj (hini.symm.trans h))
    intro i hi
    have := hc i (by rw [e2]; exact hi)
    simpa only [e2] using this

/-- The value of order 0 stored in a point. -/
theorem point_zero {n : ℕ} {p : Point ℝ} (hn : 1 ≤ n) (hp : IsPoint Spec.real n p) (h0 : 0 ≤ p.x) (h : p.x = 0 ∨ 1 / 1000000 ≤ p.x) :
    |p.y.val 0 - pnebi 0 p.x| ≤ 5 / 10000000 * pnebi 0 p.x := by
  rcases h with h | h
  · obtain ⟨r, hr, -, hv, -⟩ := pnebiVector_ok Spec.real n 0 ⟨n + 1, fun _ => 0⟩
    have e' : Point.new Spec.real n 0 = .ok ⟨0, r⟩ := by unfold Point.new; rw [hr]; rfl
    have e := hp.1
    rw [h, e'] at e
    have := Except.ok.inj e
    have hv := hv (by rw [fabs_eq (le_refl _)]; norm_num)
    rw [← this, hv.1, pnebi_at_zero]
    norm_num
  · have := C111_accuracy p.x
    rw [abs_of_nonneg h0] at this
    rw [(point_values hn hp h).1]
    exact this

/-- The values of all orders stored in a point. -/
theorem point_orders {n : ℕ} {p : Point ℝ} (hp : IsPoint Spec.real n p) (h0 : 0 ≤ p.x) (h1 : p.x ≤ 5 * n + n ^ 2 / 10) (k : ℕ) (hk : k ≤ n) :
    |p.y.val k - pnebi k p.x| ≤ 2 / 1000000 := by
  obtain ⟨r, hr, hv⟩ := C112_range_partial n p.x (by rwa [abs_of_nonneg h0]) ⟨n + 1, fun _ => 0⟩
  have e := hp.1
  unfold Point.new at e
  rw [hr] at e
  have : (⟨p.x, r⟩ : Point ℝ) = p := Except.ok.inj e
  have := hv k hk
  rw [abs_of_nonneg h0] at this
  rw [← (show r = p.y by rw [← ‹(⟨p.x, r⟩ : Point ℝ) = p›])]
  exact this

/-- The points around an argument before a point of the table. -/
theorem eval_between {n : ℕ} (hn : 1 ≤ n) {tol : ℝ} (ht : 2 / 1000000 ≤ tol) {l : Lut ℝ} (h : Lut.init Spec.real n tol = .ok l) {k : ℕ} (hk : k < n) {x : ℝ}
    {q : Point ℝ} (hq : q ∈ l.lut) (hx : |x| < q.x) : ∃ v a b, l.eval k x = .ok v ∧ a ∈ l.lut ∧ b ∈ l.lut ∧ a.x ≤ |x| ∧ |x| ≤ b.x ∧ b.x ≤ q.x ∧ Close tol a b ∧
      (a.x = 0 ∨ 1 / 1000000 ≤ a.x) ∧ min (a.y.val k) (b.y.val k) ≤ v ∧ v ≤ max (a.y.val k) (b.y.val k) := by
  obtain ⟨hb, hpts, hs, ⟨hne, hz⟩, hc⟩ := init_close hn ht h
  obtain ⟨v, i, hi, hv, hl, h2⟩ := C54_eval_partial Spec.real n hn l hb k hk x
  rw [fabs_abs] at hl h2
  obtain ⟨j, hj, rfl⟩ := List.getElem_of_mem hq
  have hlt := List.pairwise_iff_getElem.1 hs
  have hij : i < j := by
    by_contra hij
    rcases Nat.lt_or_ge j i with h3 | h3
    · have := hlt j i hj hi h3
      linarith
    · have : i = j := by omega
      subst this
      linarith
  rcases h2 with ⟨h2, -⟩ | ⟨hi', h2, -, h3, h4⟩
  · omega
  · refine ⟨v, l.lut[i], l.lut[i + 1], hv, List.getElem_mem _, List.getElem_mem _, hl, h2.le, ?_, hc i hi', ?_, h3, h4⟩
    · rcases Nat.lt_or_ge (i + 1) j with h5 | h5
      · exact (hlt (i + 1) j hi' hj h5).le
      · have : i + 1 = j := by omega
        subst this
        exact le_rfl
    · cases i with
      | zero => exact Or.inl hz
      | succ i => exact Or.inr (hc i hi).2

theorem within {a b v w e : ℝ} (h1 : min a b ≤ v) (h2 : v ≤ max a b) (ha : |a - w| ≤ e) (hb : |b - w| ≤ e) : |v - w| ≤ e := by
  rw [abs_le] at *
  constructor
  · rcases min_choice a b with h | h <;> rw [h] at h1 <;> linarith
  · rcases max_choice a b with h | h <;> rw [h] at h2 <;> linarith

/-- The order 0 is within the tolerance for all arguments before the last point of the table.
Missing for C113: the other orders for large arguments, the arguments after the last point, tolerances below 2e-6. -/
theorem C113_zero_partial (n : ℕ) (hn : 1 ≤ n) (tol : ℝ) (ht : 2 / 1000000 ≤ tol) : ∃ l, Lut.init Spec.real n tol = .ok l ∧
    ∀ x, (∃ q ∈ l.lut, |x| < q.x) → ∃ v, l.eval 0 x = .ok v ∧ |v - pnebi 0 (|x|)| ≤ 102 / 100 * tol + 1 / 1000000 := by
  obtain ⟨l, -, -, hl, -⟩ := init_ok Spec.real hn (show 0 < tol by linarith) (ceil_small ht)
  refine ⟨l, hl, fun x ⟨q, hq, hx⟩ => ?_⟩
  obtain ⟨v, a, b, hv, ha, hb, h1, h2, -, hc, h3, h4, h5⟩ := eval_between hn ht hl (k := 0) (by omega) hq hx
  obtain ⟨-, hpts, -⟩ := init_close hn ht hl
  refine ⟨v, by exact_mod_cast hv, ?_⟩
  have a1 := point_zero hn (hpts a ha).1 (hpts a ha).2 h3
  have b1 := point_zero hn (hpts b hb).1 (hpts b hb).2 (Or.inr hc.2)
  have m1 := pnebi_zero_anti (hpts a ha).2 h1
  have m2 := pnebi_zero_anti (abs_nonneg x) h2
  have c1 := hc.1
  have a2 := pnebi_zero_le (hpts a ha).2
  have b2 := pnebi_zero_le (hpts b hb).2
  rw [abs_le] at a1 b1
  refine within h4 h5 ?_ ?_ <;> rw [abs_le] <;> constructor <;> linarith

/-- All the orders below the maximal one are within the tolerance between the points up to 5 n + n²/10.
Missing for C113: the larger arguments, tolerances below 2e-6. -/
theorem C113_orders_partial (n : ℕ) (tol : ℝ) (ht : 2 / 1000000 ≤ tol) (k : ℕ) (hk : k < n) : ∃ l, Lut.init Spec.real n tol = .ok l ∧
    ∀ x, (∃ q ∈ l.lut, |x| < q.x ∧ q.x ≤ 5 * n + n ^ 2 / 10) → ∃ v, l.eval k x = .ok v ∧ |v - pnebi k (|x|)| ≤ 102 / 100 * tol + 2 / 1000000 := by
  have hn : 1 ≤ n := by omega
  obtain ⟨l, -, -, hl, -⟩ := init_ok Spec.real hn (show 0 < tol by linarith) (ceil_small ht)
  refine ⟨l, hl, fun x ⟨q, hq, hx, hr⟩ => ?_⟩
  obtain ⟨v, a, b, hv, ha, hb, h1, h2, h2', hc, h3, h4, h5⟩ := eval_between hn ht hl hk hq hx
  obtain ⟨-, hpts, -⟩ := init_close hn ht hl
  refine ⟨v, hv, ?_⟩
  have a1 := point_orders (hpts a ha).1 (hpts a ha).2 (by linarith) k hk.le
  have b1 := point_orders (hpts b hb).1 (hpts b hb).2 (by linarith) k hk.le
  have m1 := pnebi_change k h1
  have m2 := pnebi_change k h2
  have n1 := pnebi_zero_anti (hpts a ha).2 h1
  have n2 := pnebi_zero_anti (abs_nonneg x) h2
  have c1 := hc.1
  rw [abs_le] at a1 b1 m1 m2
  refine within h4 h5 ?_ ?_ <;> rw [abs_le] <;> constructor <;> linarith

-- the hypothesis holds below the second point: the table of tolerance 0.01 at 1e-7
example : ∃ l v, Lut.init Spec.real 3 (1 / 100) = .ok l ∧ l.eval 0 (1 / 10000000) = .ok v ∧ |v - pnebi 0 (1 / 10000000)| ≤ 103 / 10000 := by
  obtain ⟨l, hl, h⟩ := C113_zero_partial 3 (by norm_num) (1 / 100) (by norm_num)
  obtain ⟨l', p, r, hl', -, hlr, -, hlen, -⟩ := init_ok Spec.real (n := 3) (by norm_num) (tol := 1 / 100) (by norm_num) (ceil_small (by norm_num))
  have : l' = l := Except.ok.inj (hl'.symm.trans hl)
  subst this
  obtain ⟨-, -, -, -, hc⟩ := init_close (by norm_num) (by norm_num) hl
  have h1 : 1 < l'.lut.length := by
    rw [hlr]
    have := Int.ceil_nonneg (show (0 : ℝ) ≤ 2 / (1 / 100) by norm_num)
    omega
  have h2 := (hc 0 h1).2
  obtain ⟨v, hv, hw⟩ := h (1 / 10000000) ⟨l'.lut[1], List.getElem_mem h1, by rw [abs_of_pos (by norm_num)]; exact lt_of_lt_of_le (by norm_num) h2⟩
  rw [abs_of_pos (show (0 : ℝ) < 1 / 10000000 by norm_num)] at hw
  exact ⟨l', v, hl, hv, by linarith⟩

/-! ### Violations -/

theorem pnebi_large {c : ℝ} (hc : 2 ≤ c) : 7976 / 10000 / c ≤ pnebi 0 (c ^ 2) ∧ pnebi 0 (c ^ 2) ≤ 832 / 1000 / c := by
  have hx : 15 / 4 ≤ c ^ 2 := by nlinarith
  rw [pnebi_gB (by linarith), Real.sqrt_sq (by linarith)]
  have h1 := gB_le hx
  have h2 := gB_ge hx
  constructor <;> refine div_le_div_of_nonneg_right ?_ (by linarith) <;> linarith

/-- Whatever the tolerance below 0.006/n, some order is wrong by more than 0.006/n at some argument: the values of order 1 of the points after 2048 n² are wrong
(C112), and if there are no such points the order 0 is wrong after the last point. -/
theorem C113_large_violated (n : ℕ) (hn : 2 ≤ n) (tol : ℝ) (ht : 2 / 1000000 ≤ tol) (ht' : tol * n ≤ 6 / 1000) : ∃ l, Lut.init Spec.real n tol = .ok l ∧
    ∃ (k : ℕ) (x v : ℝ), k < n ∧ 0 ≤ x ∧ l.eval k x = .ok v ∧ 6 / 1000 < |v - pnebi k x| * n := by
  have hn' : (2 : ℝ) ≤ n := by exact_mod_cast hn
  have hn1 : 1 ≤ n := by omega
  obtain ⟨l, -, -, hl, -⟩ := init_ok Spec.real hn1 (show 0 < tol by linarith) (ceil_small ht)
  refine ⟨l, hl, ?_⟩
  obtain ⟨hb, hpts, hs, ⟨hne, hz⟩, hc⟩ := init_close hn1 ht hl
  have f1 := pnebi_large (c := 50 * n) (by linarith)
  have f2 := pnebi_large (c := 100 * n) (by linarith)
  have f3 := pnebi_large (c := 500 * n) (by linarith)
  have scale : ∀ c d : ℝ, c / (d * n) * n = c / d := fun c d => by field_simp
  have g1 := mul_le_mul_of_nonneg_right f1.1 (show (0 : ℝ) ≤ n by linarith)
  have g2 := mul_le_mul_of_nonneg_right f2.1 (show (0 : ℝ) ≤ n by linarith)
  have g2' := mul_le_mul_of_nonneg_right f2.2 (show (0 : ℝ) ≤ n by linarith)
  have g3 := mul_le_mul_of_nonneg_right f3.2 (show (0 : ℝ) ≤ n by linarith)
  rw [scale] at g1 g2 g2' g3
  norm_num at g1 g2 g2' g3
  by_cases hex : ∃ q ∈ l.lut, (50 * n : ℝ) ^ 2 ≤ q.x ∧ q.x ≤ (100 * n : ℝ) ^ 2
  · obtain ⟨q, hq, h1, h2⟩ := hex
    have hq0 : 0 < q.x := by nlinarith
    obtain ⟨r, hr, hv⟩ := C112_large_violated n hn1 q.x (by nlinarith) ⟨n + 1, fun _ => 0⟩
    have e := (hpts q hq).1.1
    unfold Point.new at e
    rw [hr] at e
    have e2 : (⟨q.x, r⟩ : Point ℝ) = q := Except.ok.inj e
    have e3 : r = q.y := by rw [← e2]
    refine ⟨1, q.x, q.y.val 1, by omega, hq0.le, C54_nodes_partial Spec.real n hn1 l hb 1 (by omega) q hq q.x (fabs_eq hq0.le), ?_⟩
    rw [e3] at hv
    have h3 := (ratio q.x hq0 0).2
    have h4 : 999 / 1000 * pnebi 0 q.x ≤ pnebi 1 q.x := by
      rw [pnebi, pnebi]
      have he := Real.exp_pos (-q.x)
      have p0 := besselI_pos 0 hq0
      have hq1 : 1000 ≤ q.x := by nlinarith
      push_cast at h3
      rw [zero_add] at h3
      have h5 : 999 / 1000 * besselI 0 q.x ≤ besselI 1 q.x := by
        have : q.x * (999 / 1000 * besselI 0 q.x) ≤ q.x * besselI 1 q.x := by nlinarith
        exact le_of_mul_le_mul_left this hq0
      nlinarith
    have h5 := pnebi_zero_anti hq0.le h2
    have h6 : pnebi 1 q.x * (4 / 5) ≤ |q.y.val 1 - pnebi 1 q.x| := by
      rw [abs_sub_comm]
      refine le_trans ?_ (le_abs_self _)
      linarith
    nlinarith
  · push Not at hex
    -- no point beyond
    have hlast : ∀ i (hi : i < l.lut.length), l.lut[i].x < (50 * n : ℝ) ^ 2 := by
      intro i
      induction i with
      | zero => intro hi; rw [hz]; positivity
      | succ i ih =>
        intro hi
        have h1 := ih (by omega)
        by_contra h2
        rw [not_lt] at h2
        have h3 := hex _ (List.getElem_mem hi) h2
        have h4 := (hc i hi).1
        have h5 := pnebi_zero_anti (hpts _ (List.getElem_mem (by omega : i < l.lut.length))).2 h1.le
        have h6 := pnebi_zero_anti (by positivity) h3.le
        nlinarith
    obtain ⟨v, i, hi, hv, h1, h2⟩ := C54_eval_partial Spec.real n hn1 l hb 0 (by omega) ((500 * n : ℝ) ^ 2)
    refine ⟨0, (500 * n : ℝ) ^ 2, v, by omega, by positivity, hv, ?_⟩
    rcases h2 with ⟨h2, h3⟩ | ⟨hi', h2, -⟩
    · rw [h3]
      have hp := hpts _ (List.getElem_mem hi)
      have h4 := point_zero hn1 hp.1 hp.2 (by
        cases i with
        | zero => exact Or.inl hz
        | succ i => exact Or.inr (hc i hi).2)
      have h5 := pnebi_zero_anti hp.2 (hlast i hi).le
      rw [abs_le] at h4
      have h6 := le_abs_self (l.lut[i].y.val 0 - pnebi 0 ((500 * n : ℝ) ^ 2))
      have h7 : 999 / 1000 * pnebi 0 ((50 * n : ℝ) ^ 2) - pnebi 0 ((500 * n : ℝ) ^ 2) ≤ |l.lut[i].y.val 0 - pnebi 0 ((500 * n : ℝ) ^ 2)| := by linarith
      nlinarith
    · exfalso
      have := hlast (i + 1) hi'
      rw [fabs_eq (by positivity)] at h2
      nlinarith

theorem lutLoop_cons {n : ℕ} (hn : 1 ≤ n) {tol x d y0 : ℝ} {m : ℕ} {p : Point ℝ} (hp : Point.new Spec.real n (x - tol / d) = .ok p) (hl : p.y.len = n + 1)
    {r : List (Point ℝ)}
    (hr : lutLoop Spec.real n tol m (x - tol / d) (min (max (p.y.val 1 - p.y.val 0) (d * (y0 - p.y.val 0) / tol)) derivMax) (p.y.val 0) = .ok r) :
    lutLoop Spec.real n tol (m + 1) x d y0 = .ok (p :: r) := by
  have h0 : p.y.get 0 = .ok (p.y.val 0) := p.y.get_nat (i := 0) (by rw [hl]; omega)
  have h1 : p.y.get 1 = .ok (p.y.val 1) := p.y.get_nat (i := 1) (by rw [hl]; omega)
  rw [lutLoop]
  dsimp only
  rw [hp, bind_okP, h0, bind_okP, h1, bind_okP, hr]
  rfl

theorem point_near_zero {n : ℕ} {x : ℝ} (h0 : 0 ≤ x) (h : x < 1 / 1000000) : ∃ p, Point.new Spec.real n x = .ok p ∧ p.x = x ∧ p.y.len = n + 1 ∧ p.y.val 0 = 2 ∧
    p.y.val 1 = 0 := by
  obtain ⟨r, hr, hl, hv, -⟩ := pnebiVector_ok Spec.real n x ⟨n + 1, fun _ => 0⟩
  have hv := hv (by rwa [fabs_eq h0])
  exact ⟨⟨x, r⟩, by unfold Point.new; rw [hr]; rfl, rfl, by rw [hl]; exact max_self _, hv.1, hv.2 1 one_ne_zero⟩

/-- For tolerances below 2e-6 the second point is before 1e-6, where the values are constant: the step after it is larger than 1e8, and the table
interpolates between 2 and about 0 over it. -/
theorem C113_tiny_violated (n : ℕ) (hn : 1 ≤ n) (tol : ℝ) (h0 : 0 < tol) (ht : tol < 2 / 1000000) (hb : ⌈2 / tol⌉ + 20 ≤ 2147483647) :
    ∃ l v, Lut.init Spec.real n tol = .ok l ∧ l.eval 0 100 = .ok v ∧ 19 / 10 ≤ v - pnebi 0 100 := by
  obtain ⟨p0, hp0, x0, l0, y00, y01⟩ := point_near_zero (n := n) (x := 0) le_rfl (by norm_num)
  obtain ⟨p1, hp1, x1, l1, y10, y11⟩ := point_near_zero (n := n) (x := tol / 2) (by linarith) (by linarith)
  obtain ⟨p2, hp2, x2, hpp2⟩ := point_new Spec.real n (tol / 2 - tol / derivMax)
  have hm := derivMax_neg (K := ℝ)
  have hc := Int.ceil_nonneg (div_pos (show (0 : ℝ) < 2 by norm_num) h0).le
  obtain ⟨m, hm2⟩ : ∃ m, (⌈2 / tol⌉ + 20 - 1).toNat = m + 2 := ⟨(⌈2 / tol⌉ + 20 - 1).toNat - 2, by omega⟩
  obtain ⟨r, hr, -⟩ := lutLoop_ok Spec.real hn h0 m (tol / 2 - tol / derivMax)
    (min (max (p2.y.val 1 - p2.y.val 0) (derivMax * (2 - p2.y.val 0) / tol)) derivMax) (p2.y.val 0) (lt_of_le_of_lt (min_le_right _ _) hm)
  have r2 := lutLoop_cons hn hp2 hpp2.2 hr
  have e1 : (0 : ℝ) - tol / -2 = tol / 2 := by ring
  have r1 : lutLoop Spec.real n tol (m + 1 + 1) 0 (-2) 2 = .ok (p1 :: p2 :: r) := by
    refine lutLoop_cons hn (by rw [e1]; exact hp1) l1 ?_
    rw [e1, y10, y11]
    have : min (max ((0 : ℝ) - 2) (-2 * (2 - 2) / tol)) derivMax = derivMax := by
      rw [sub_self, mul_zero, zero_div]
      exact min_eq_right (hm.le.trans (le_max_right _ _))
    rw [this]
    exact r2
  have i1 : Cxx.int ⌈2 / tol⌉ = .ok ⌈2 / tol⌉ := if_pos (by omega)
  have i2 : Cxx.int (⌈2 / tol⌉ + 20) = .ok (⌈2 / tol⌉ + 20) := if_pos (by omega)
  have g0 : p0.y.get 0 = .ok (p0.y.val 0) := p0.y.get_nat (i := 0) (by rw [l0]; omega)
  have g1 : p0.y.get 1 = .ok (p0.y.val 1) := p0.y.get_nat (i := 1) (by rw [l0]; omega)
  have hini : Lut.init Spec.real n tol = .ok ⟨p0 :: p1 :: p2 :: r, n⟩ := by
    unfold Lut.init
    rw [if_neg h0.ne', i1, bind_okP, i2, bind_okP, hp0, bind_okP, g1, bind_okP, g0, bind_okP]
    dsimp only
    rw [y00, y01, zero_sub, hm2, r1]
    rfl
  have hbt : Built Spec.real n ⟨p0 :: p1 :: p2 :: r, n⟩ := ⟨tol, h0, hb, hini⟩
  obtain ⟨v, i, hi, hv, h1, h2⟩ := C54_eval_partial Spec.real n hn _ hbt 0 (by omega) 100
  obtain ⟨-, -, -, hs, -⟩ := built_bracket hn hbt 100
  have hlt := List.pairwise_iff_getElem.1 hs
  rw [fabs_eq (by norm_num)] at h1 h2
  dsimp only at hi h1 h2 hlt
  -- the step after the second point
  have hstep : 100000000 ≤ p2.x - p1.x := by
    have a : 2 / tol ≤ 2147483647 := by
      have := Int.le_ceil (2 / tol)
      have h3 : (⌈2 / tol⌉ : ℝ) ≤ 2147483647 := by exact_mod_cast (show ⌈2 / tol⌉ ≤ 2147483647 by omega)
      linarith
    rw [div_le_iff₀ h0] at a
    have b : -(derivMax : ℝ) ≤ 10 * (1 / 2 ^ 60) := by
      unfold derivMax
      have : (1 : ℝ) / 2 ^ 1022 ≤ 1 / 2 ^ 60 := one_div_le_one_div_of_le (by positivity) (pow_le_pow_right₀ (by norm_num) (by norm_num))
      linarith
    have c : p2.x - p1.x = tol / -derivMax := by rw [x2, x1, div_neg]; ring
    rw [c, le_div_iff₀ (by linarith)]
    norm_num at b
    linarith
  have hi1 : i = 1 := by
    have h3 : i < 2 := by
      by_contra h
      rcases Nat.lt_or_ge 2 i with h4 | h4
      · have := hlt 2 i (by simp) hi h4
        simp only [List.getElem_cons_succ, List.getElem_cons_zero] at this h1
        linarith
      · have : i = 2 := by omega
        subst this
        simp only [List.getElem_cons_succ, List.getElem_cons_zero] at h1
        linarith
    rcases h2 with ⟨h2, -⟩ | ⟨hi', h2, -⟩
    · simp only [List.length_cons] at h2
      omega
    · by_contra h
      have : i = 0 := by omega
      subst this
      simp only [List.getElem_cons_succ, List.getElem_cons_zero] at h2
      linarith
  subst hi1
  rcases h2 with ⟨h2, -⟩ | ⟨hi', h2, h3, -⟩
  · simp only [List.length_cons] at h2
    omega
  simp only [List.getElem_cons_succ, List.getElem_cons_zero] at h3
  refine ⟨_, v, hini, hv, ?_⟩
  have f := (pnebi_large (c := 10) (by norm_num)).2
  norm_num at f
  have hx2 : 1 / 1000000 ≤ p2.x := by linarith
  have hp2' := (point_values hn hpp2 hx2).1
  have ha := C111_accuracy p2.x
  rw [abs_of_pos (show 0 < p2.x by linarith)] at ha
  have hf0 := pnebi_pos 0 (show 0 < p2.x by linarith)
  have hy : 0 ≤ p2.y.val 0 := by rw [hp2']; linarith [(abs_le.1 ha).1]
  rw [y10] at h3
  have : 199 / 100 ≤ v := by
    by_contra hc
    rw [not_le] at hc
    nlinarith
  linarith

/-- Negation of C113: with n = 2 and the tolerance 0.001. -/
theorem C113_violated : ¬ C113_statement := by
  intro h
  obtain ⟨l, hl, k, x, v, hk, hx, hv, he⟩ := C113_large_violated 2 le_rfl (1 / 1000) (by norm_num) (by norm_num)
  obtain ⟨v', hv', hw⟩ := h 2 (1 / 1000) l (by norm_num) (by norm_num) (ceil_small (by norm_num)) hl k x hk
  have : v' = v := Except.ok.inj (hv'.symm.trans hv)
  subst this
  rw [abs_of_nonneg hx] at hw
  push_cast at he
  linarith

end Verif.Bessel
