import Verif.Functions.Pnebi
import Verif.Functions.Spec

/-! Property theorems C54 and C73 (see properties.jsonl). -/
namespace Verif.Functions
variable {K : Type} [Field K] [LinearOrder K] [IsStrictOrderedRing K] [FloorRing K]

/-! ### C54 -/

/-- C54, full statement: the table can be built for every order and tolerance, has increasing abscissae from 0 on, and every order up to the
one it was built for is interpolated between the values of the functions at the points of the table. -/
def C54_statement (L : Libm K) : Prop := ∀ (n : ℕ) (tol : K), 0 < tol → ⌈2 / tol⌉ + 20 ≤ 2147483647 →
  ∃ l, Lut.init L n tol = .ok l ∧ l.lut.Pairwise (fun p q => p.x < q.x) ∧ ∀ k ≤ n, ∀ x, ∃ v, l.eval k x = .ok v

/-- The table: the first abscissa is 0, they are strictly increasing, and each point holds the `n + 1` values of evaluatePnebiVector at
its abscissa. Missing for C54: the order 0. -/
theorem C54_table_partial (L : Libm K) (n : ℕ) (hn : 1 ≤ n) (tol : K) (ht : 0 < tol) (h : ⌈2 / tol⌉ + 20 ≤ 2147483647) :
    ∃ l : Lut K, Lut.init L n tol = .ok l ∧ l.orderMax = n ∧ (l.lut.length : ℤ) = ⌈2 / tol⌉ + 20 ∧ (l.lut.map (·.x)).head? = some 0 ∧
      l.lut.Pairwise (fun p q => p.x < q.x) ∧
      ∀ p ∈ l.lut, p.y.len = n + 1 ∧ evaluatePnebiVector L n p.x ⟨n + 1, fun _ => 0⟩ = .ok p.y := by
  obtain ⟨l, p, r, hl, ho, hlr, hp, hlen, hpts, hs⟩ := init_ok L hn ht h
  refine ⟨l, hl, ho, by rw [hlr]; exact hlen, by rw [hlr]; simp [hp], by rw [hlr]; exact hs, fun q hq => ?_⟩
  rw [hlr] at hq
  obtain ⟨h1, h2⟩ := hpts q hq
  refine ⟨h2, ?_⟩
  unfold Point.new at h1
  cases hv : evaluatePnebiVector L n q.x ⟨n + 1, fun _ => 0⟩ with
  | error e => rw [hv] at h1; cases h1
  | ok y =>
    rw [hv] at h1
    have : (⟨q.x, y⟩ : Point K) = q := Except.ok.inj h1
    rw [← this]

/-- The tables that `init` can leave in the object. -/
def Built (L : Libm K) (n : ℕ) (l : Lut K) : Prop := ∃ tol : K, 0 < tol ∧ ⌈2 / tol⌉ + 20 ≤ 2147483647 ∧ Lut.init L n tol = .ok l

theorem built_bracket {L : Libm K} {n : ℕ} (hn : 1 ≤ n) {l : Lut K} (h : Built L n l) (x : K) :
    l.lut.isEmpty = false ∧ l.orderMax = n ∧ (∀ q ∈ l.lut, q.y.len = n + 1) ∧ l.lut.Pairwise (fun p q => p.x < q.x) ∧
    ∃ (i : ℕ) (hi : i < l.lut.length), bracket l.lut (fabs x) = .ok (l.lut[i], l.lut[i + 1]?) ∧ l.lut[i].x ≤ fabs x ∧
      ∀ (h : i + 1 < l.lut.length), fabs x < l.lut[i + 1].x := by
  obtain ⟨tol, ht, hb, hl⟩ := h
  obtain ⟨l', p, r, hl', ho, hlr, hp, hlen, hpts, hs⟩ := init_ok L hn ht hb
  have : l' = l := Except.ok.inj (hl'.symm.trans hl)
  subst this
  rw [hlr]
  refine ⟨rfl, ho, fun q hq => (hpts q hq).2, hs, bracket_ok hs ⟨by simp, ?_⟩⟩
  show p.x ≤ _
  rw [hp]; exact fabs_nonneg x

/-- The evaluation for the orders below the maximal one is the linear interpolation of the two points around |x|; after the last point
it is the last value. Missing for C54: the maximal order. -/
theorem C54_eval_partial (L : Libm K) (n : ℕ) (hn : 1 ≤ n) (l : Lut K) (h : Built L n l) (k : ℕ) (hk : k < n) (x : K) :
    ∃ (v : K) (i : ℕ) (hi : i < l.lut.length), l.eval k x = .ok v ∧ l.lut[i].x ≤ fabs x ∧
      ((i + 1 = l.lut.length ∧ v = l.lut[i].y.val k) ∨
        ∃ hi' : i + 1 < l.lut.length, fabs x < l.lut[i + 1].x ∧
          (v - l.lut[i].y.val k) * (l.lut[i + 1].x - l.lut[i].x) = (l.lut[i + 1].y.val k - l.lut[i].y.val k) * (fabs x - l.lut[i].x) ∧
          min (l.lut[i].y.val k) (l.lut[i + 1].y.val k) ≤ v ∧ v ≤ max (l.lut[i].y.val k) (l.lut[i + 1].y.val k)) := by
  obtain ⟨he, ho, hpts, hs, i, hi, hb, h1, h2⟩ := built_bracket hn h x
  have ha : Cxx.assert (0 ≤ (k : ℤ) ∧ (k : ℤ) < l.orderMax) = .ok () := if_pos (by rw [ho]; omega)
  have hg : ∀ j (hj : j < l.lut.length), l.lut[j].y.get k = .ok (l.lut[j].y.val k) := fun j hj =>
    Vec.get_nat _ (by rw [hpts _ (List.getElem_mem hj)]; omega)
  unfold Lut.eval
  rw [he]
  simp only [Bool.false_eq_true, if_false]
  rw [ha, bind_okP, hb, bind_okP]
  by_cases hlast : i + 1 < l.lut.length
  · rw [List.getElem?_eq_getElem hlast]
    dsimp only
    rw [hg i hi, bind_okP, hg (i + 1) hlast, bind_okP]
    have hx := h2 hlast
    have hd : 0 < l.lut[i + 1].x - l.lut[i].x := by linarith
    refine ⟨_, i, hi, rfl, h1, Or.inr ⟨hlast, hx, ?_, ?_⟩⟩
    · field_simp
      ring
    · have w0 : 0 ≤ (fabs x - l.lut[i].x) / (l.lut[i + 1].x - l.lut[i].x) := div_nonneg (by linarith) hd.le
      have w1 : (fabs x - l.lut[i].x) / (l.lut[i + 1].x - l.lut[i].x) ≤ 1 := by rw [div_le_one hd]; linarith
      generalize (fabs x - l.lut[i].x) / (l.lut[i + 1].x - l.lut[i].x) = w at w0 w1
      generalize l.lut[i].y.val k = a
      generalize l.lut[i + 1].y.val k = b
      have m1 := min_le_left a b
      have m2 := min_le_right a b
      have m3 := le_max_left a b
      have m4 := le_max_right a b
      constructor <;> nlinarith
  · rw [List.getElem?_eq_none (by omega)]
    dsimp only
    rw [hg i hi]
    exact ⟨_, i, hi, rfl, h1, Or.inl ⟨by omega, rfl⟩⟩

/-- At a point of the table (and at its opposite) the stored value is returned. -/
theorem C54_nodes_partial (L : Libm K) (n : ℕ) (hn : 1 ≤ n) (l : Lut K) (h : Built L n l) (k : ℕ) (hk : k < n) (p : Point K) (hp : p ∈ l.lut) (x : K)
    (hx : fabs x = p.x) : l.eval k x = .ok (p.y.val k) := by
  obtain ⟨he, ho, hpts, hs, -⟩ := built_bracket hn h x
  obtain ⟨v, i, hi, hv, h1, h2⟩ := C54_eval_partial L n hn l h k hk x
  obtain ⟨j, hj, rfl⟩ := List.getElem_of_mem hp
  have hlt := List.pairwise_iff_getElem.1 hs
  have hij : i = j := by
    rcases Nat.lt_trichotomy i j with hij | hij | hij
    · rcases h2 with ⟨h2, -⟩ | ⟨hi', h2, -⟩
      · omega
      · exfalso
        rcases Nat.lt_or_ge (i + 1) j with h3 | h3
        · have := hlt (i + 1) j hi' hj h3
          rw [hx] at h2
          exact lt_asymm h2 this
        · have : i + 1 = j := by omega
          subst this
          rw [hx] at h2
          exact lt_irrefl _ h2
    · exact hij
    · exfalso
      have := hlt j i hj hi hij
      rw [hx] at h1
      exact absurd this (not_lt.2 h1)
  subst hij
  rw [hv]
  rcases h2 with ⟨-, h2⟩ | ⟨hi', h2, h3, -⟩
  · rw [h2]
  · rw [hx, sub_self, mul_zero] at h3
    have hd : 0 < l.lut[i + 1].x - l.lut[i].x := by linarith [hlt i (i + 1) hi hi' (by omega)]
    have := (mul_eq_zero.1 h3).resolve_right hd.ne'
    rw [sub_eq_zero.1 this]

/-- The other overload writes the values of all the orders, the maximal one included; for the orders below it agrees with the first one. -/
theorem C54_vector_partial (L : Libm K) (n : ℕ) (hn : 1 ≤ n) (l : Lut K) (h : Built L n l) (x : K) (y : Vec K) :
    ∃ r, l.evalVec x y = .ok r ∧ r.len = max y.len (n + 1) ∧ (∀ k < n, l.eval k x = .ok (r.val k)) ∧
      (∀ p ∈ l.lut, fabs x = p.x → ∀ k ≤ n, r.val k = p.y.val k) ∧ ∀ k, n < k → k < y.len → r.val k = y.val k := by
  obtain ⟨he, ho, hpts, hs, i, hi, hb, h1, h2⟩ := built_bracket hn h x
  have ha : ∀ k : ℕ, k < n → Cxx.assert (0 ≤ (k : ℤ) ∧ (k : ℤ) < l.orderMax) = .ok () := fun k hk => if_pos (by rw [ho]; omega)
  have hg : ∀ k : ℕ, k < n → ∀ j (hj : j < l.lut.length), l.lut[j].y.get k = .ok (l.lut[j].y.val k) := fun k hk j hj =>
    Vec.get_nat _ (by rw [hpts _ (List.getElem_mem hj)]; omega)
  have hlt := List.pairwise_iff_getElem.1 hs
  have hl : (grow y (l.orderMax + 1).toNat).len = max y.len (n + 1) := by rw [grow_len, ho]; rfl
  have hgr : ∀ k, n < k → k < y.len → (grow y (l.orderMax + 1).toNat).val k = y.val k := by
    intro k h1 h2
    unfold grow
    split
    · exact if_pos h2
    · rfl
  unfold Lut.evalVec Lut.eval
  rw [he]
  simp only [Bool.false_eq_true, if_false]
  rw [hb, bind_okP]
  by_cases hlast : i + 1 < l.lut.length
  · rw [List.getElem?_eq_getElem hlast]
    have hx := h2 hlast
    have l1 := hpts _ (List.getElem_mem hi)
    have l2 := hpts _ (List.getElem_mem hlast)
    refine ⟨_, rfl, hl, fun k hk => ?_, fun p hp hxp k hk => ?_, fun k hk hk' => ?_⟩
    · rw [ha k hk, bind_okP, bind_okP]
      dsimp only
      rw [hg k hk i hi, bind_okP, hg k hk (i + 1) hlast, bind_okP, l1, l2, hl, if_pos (by omega)]
      rfl
    · dsimp only
      rw [l1, l2, hl, if_pos (by omega)]
      obtain ⟨j, hj, rfl⟩ := List.getElem_of_mem hp
      have hij : i = j := by
        rcases Nat.lt_trichotomy i j with hij | hij | hij
        · exfalso
          rw [hxp] at hx
          rcases Nat.lt_or_ge (i + 1) j with h3 | h3
          · exact lt_asymm hx (hlt (i + 1) j hlast hj h3)
          · have : i + 1 = j := by omega
            subst this
            exact lt_irrefl _ hx
        · exact hij
        · exfalso
          have := hlt j i hj hi hij
          rw [hxp] at h1
          exact absurd this (not_lt.2 h1)
      subst hij
      rw [hxp, sub_self, zero_div, sub_zero, one_mul, zero_mul, add_zero]
    · dsimp only
      rw [l1, if_neg (by omega)]
      exact hgr k hk hk'
  · rw [List.getElem?_eq_none (by omega)]
    have l1 := hpts _ (List.getElem_mem hi)
    dsimp only
    rw [if_pos (by rw [l1, hl]; omega)]
    refine ⟨_, rfl, hl, fun k hk => ?_, fun p hp hxp k hk => ?_, fun k hk hk' => ?_⟩
    · rw [ha k hk, bind_okP, bind_okP]
      dsimp only
      rw [hg k hk i hi, l1, if_pos (by omega)]
    · dsimp only
      rw [l1, if_pos (by omega)]
      obtain ⟨j, hj, rfl⟩ := List.getElem_of_mem hp
      have hij : i = j := by
        rcases Nat.lt_or_ge j i with hij | hij
        · exfalso
          have := hlt j i hj hi hij
          rw [hxp] at h1
          exact absurd this (not_lt.2 h1)
        · omega
      subst hij
      rfl
    · dsimp only
      rw [l1, if_neg (by omega)]
      exact hgr k hk hk'

/-- The maximal order, which is stored in the table, cannot be evaluated: the assertion fails for every argument. -/
theorem C54_order_violated (L : Libm K) (n : ℕ) (hn : 1 ≤ n) (l : Lut K) (h : Built L n l) (x : K) : l.eval l.orderMax x = .error .abort := by
  obtain ⟨he, ho, -⟩ := built_bracket hn h x
  unfold Lut.eval
  rw [he]
  simp only [Bool.false_eq_true, if_false]
  rw [show Cxx.assert (0 ≤ l.orderMax ∧ l.orderMax < l.orderMax) = .error .abort from if_neg (by omega)]
  rfl

/-- A table of order 0 cannot be built: the value of order 1 is read out of bounds. -/
theorem C54_zero_violated (L : Libm K) (tol : K) (ht : 0 < tol) (h : ⌈2 / tol⌉ + 20 ≤ 2147483647) : Lut.init L 0 tol = .error (.ub .outOfBounds) := by
  have hc : 0 ≤ ⌈2 / tol⌉ := Int.ceil_nonneg (div_pos (by norm_num) ht).le
  obtain ⟨p, hp, hpx, hpp⟩ := point_new L 0 0
  have i1 : Cxx.int ⌈2 / tol⌉ = .ok ⌈2 / tol⌉ := if_pos (by omega)
  have i2 : Cxx.int (⌈2 / tol⌉ + 20) = .ok (⌈2 / tol⌉ + 20) := if_pos (by omega)
  unfold Lut.init
  rw [if_neg ht.ne', i1, bind_okP, i2, bind_okP, hp, bind_okP, p.y.get_oob (by rw [hpp.2]; omega)]
  rfl

theorem C54_violated (L : Libm K) : ¬ C54_statement L := by
  intro h
  have hc : ⌈(2 : K) / 2⌉ = 1 := by norm_num
  obtain ⟨l, hl, -⟩ := h 0 2 (by norm_num) (by rw [hc]; norm_num)
  rw [C54_zero_violated L 2 (by norm_num) (by rw [hc]; norm_num)] at hl
  cases hl

/-! ### C73 -/

/-- C73: the values written by evaluatePnebiVector satisfy the recurrence of the Bessel functions, f(k-1) - f(k+1) = 2k/|x| f(k), the
first value is the one of evaluatePnebi0Polynom, and near zero they are 2, 0, 0, …; the call has no undefined behaviour. -/
theorem C73_pnebiVector (L : Libm K) (n : ℕ) (x : K) (v : Vec K) : ∃ r, evaluatePnebiVector L n x v = .ok r ∧ r.len = max v.len (n + 1) ∧
    (|x| < 1 / 1000000 → r.val 0 = 2 ∧ ∀ k, k ≠ 0 → r.val k = 0) ∧
    (1 / 1000000 ≤ |x| → r.val 0 = evaluatePnebi0Polynom L |x| ∧
      (∀ k, 0 < k → k < n → r.val (k - 1) - r.val (k + 1) = 2 * k / |x| * r.val k) ∧
      (0 < evaluatePnebi0Polynom L |x| → ∀ k ≤ n, 0 < r.val k)) := by
  have e : fabs x = |x| := by
    unfold fabs
    split
    · rename_i h; rw [abs_of_neg h]
    · rename_i h; rw [abs_of_nonneg (not_lt.1 h)]
  obtain ⟨r, hr, hl, h1, h2⟩ := pnebiVector_ok L n x v
  rw [e] at h1 h2
  refine ⟨r, hr, hl, h1, fun hx => ?_⟩
  obtain ⟨a, b, c⟩ := h2 hx
  exact ⟨a, fun k hk hk' => by rw [b k hk hk']; ring, c⟩

/-- In exact arithmetic the values are positive and the ones two orders apart decrease. -/
theorem C73_positive (n : ℕ) (x : ℝ) (hx : 1 / 1000000 ≤ |x|) (v : Vec ℝ) : ∃ r, evaluatePnebiVector Spec.real n x v = .ok r ∧
    (∀ k ≤ n, 0 < r.val k) ∧ ∀ k, k + 2 ≤ n → r.val (k + 2) < r.val k := by
  obtain ⟨r, hr, hl, -, h2⟩ := C73_pnebiVector Spec.real n x v
  obtain ⟨a, b, c⟩ := h2 hx
  have hx0 : 0 < |x| := lt_of_lt_of_le (by norm_num) hx
  have hpos : 0 < evaluatePnebi0Polynom Spec.real |x| := by
    unfold evaluatePnebi0Polynom
    rw [fabs_eq (abs_nonneg x)]
    dsimp only
    generalize |x| = y at hx0
    by_cases ht : y / (375 / 100) < 1
    · rw [if_pos ht]
      have : 0 < Spec.real.exp (-y) := Real.exp_pos _
      positivity
    · rw [if_neg ht]
      have hs : 0 < Spec.real.sqrt y := Real.sqrt_pos.2 hx0
      have ht' := not_lt.1 ht
      have u0 : 0 < 1 / (y / (375 / 100)) := by positivity
      have u1 : 1 / (y / (375 / 100)) ≤ 1 := by rw [div_le_one (by positivity)]; exact ht'
      generalize 1 / (y / (375 / 100)) = u at u0 u1
      apply div_pos _ hs
      apply mul_pos (by norm_num)
      have p1 : 0 ≤ u ∧ u ≤ 1 := ⟨u0.le, u1⟩
      have neg1 : ∀ a w : ℝ, -a / 100 ≤ w → 0 ≤ a → -a / 100 ≤ u * w := fun a w hw ha => by nlinarith
      -- the inner sums are at least the following negative numbers
      have e1 : (-2 : ℝ) / 100 ≤ -1647633 / 100000000 + u * (392377 / 100000000) := by nlinarith
      have e2 : 0 ≤ 2635537 / 100000000 + u * (-1647633 / 100000000 + u * (392377 / 100000000)) := by
        have := neg1 2 _ e1 (by norm_num); linarith
      have e3 : (-3 : ℝ) / 100 ≤ -2057706 / 100000000 + u * (2635537 / 100000000 + u * (-1647633 / 100000000 + u * (392377 / 100000000))) := by
        have := mul_nonneg p1.1 e2; linarith
      have e4 : (-3 : ℝ) / 100 ≤ 916281 / 100000000 + u * (-2057706 / 100000000 + u * (2635537 / 100000000 + u * (-1647633 / 100000000 +
          u * (392377 / 100000000)))) := by
        have := neg1 3 _ e3 (by norm_num); linarith
      have e5 : (-4 : ℝ) / 100 ≤ -157565 / 100000000 + u * (916281 / 100000000 + u * (-2057706 / 100000000 + u * (2635537 / 100000000 +
          u * (-1647633 / 100000000 + u * (392377 / 100000000))))) := by
        have := neg1 3 _ e4 (by norm_num); linarith
      have e6 : (-4 : ℝ) / 100 ≤ 225319 / 100000000 + u * (-157565 / 100000000 + u * (916281 / 100000000 + u * (-2057706 / 100000000 +
          u * (2635537 / 100000000 + u * (-1647633 / 100000000 + u * (392377 / 100000000)))))) := by
        have := neg1 4 _ e5 (by norm_num); linarith
      have e7 : (-4 : ℝ) / 100 ≤ 1328592 / 100000000 + u * (225319 / 100000000 + u * (-157565 / 100000000 + u * (916281 / 100000000 +
          u * (-2057706 / 100000000 + u * (2635537 / 100000000 + u * (-1647633 / 100000000 + u * (392377 / 100000000))))))) := by
        have := neg1 4 _ e6 (by norm_num); linarith
      have e8 := neg1 4 _ e7 (by norm_num)
      linarith
  refine ⟨r, hr, c hpos, fun k hk => ?_⟩
  have h1 := b (k + 1) (by omega) (by omega)
  have h3 := c hpos (k + 1) (by omega)
  rw [Nat.add_sub_cancel] at h1
  have h4 : (0 : ℝ) < 2 * (k + 1 : ℕ) / |x| * r.val (k + 1) := by
    have : (0 : ℝ) < (k + 1 : ℕ) := by exact_mod_cast Nat.succ_pos k
    positivity
  have h5 : r.val (k + 1 + 1) = r.val (k + 2) := rfl
  rw [h5] at h1
  linarith

/-- A toy `<cmath>` for the examples. -/
def toy : Libm ℚ := ⟨3, id, id, fun _ => 1, fun _ => 1, fun _ _ => 0⟩

-- order 2 at 1: f(0) = f(2) + 2 f(1)
example : ((evaluatePnebiVector toy 2 1 ⟨3, fun _ => 0⟩).map fun r => decide (r.val 0 = r.val 2 + 2 * r.val 1 ∧ 0 < r.val 2)) = .ok true := by
  decide +kernel

-- a table of order 1 and tolerance 2 has 21 points; at 1/2 the order 0 is interpolated between 0 and 1
example : ((Lut.init toy 1 2).map fun l => (l.lut.length, (l.lut.map (·.x)).take 2)) = .ok (21, [0, 1]) := by decide +kernel

end Verif.Functions
