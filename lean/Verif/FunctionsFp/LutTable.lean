import Verif.FunctionsFp.LutStep

/-! The look-up table in `double` arithmetic: its points and the interpolation between them. -/
namespace Verif.FunctionsFp
open Verif Ieee Fp Float.Model

attribute [local irreducible] derivMax

/-! ### The number of points -/

/-- `ceil?` is the least integer above a finite number. -/
theorem ceil_fin {a : Dbl} (h : a.Fin) : ceil? a = some ⌈a.val⌉ := by
  unfold ceil? Fp.val Fp.Fin at *
  cases hx : a.x with
  | infinity s => rw [hx] at h; cases h
  | notANumber => rw [hx] at h; cases h
  | zero s =>
    show some 0 = some ⌈(0 : ℝ)⌉
    simp
  | finite s m e hm =>
    show some _ = some _
    congr 1
    have hv : Ieee.val (.finite s m e hm) = ((s.apply (m : ℤ) : ℤ) : ℝ) * 2 ^ e := by
      cases s <;> simp [Ieee.val, sgn, UnpackedFloat.Sign.apply]
    rw [hv]
    split
    · rename_i he
      obtain ⟨k, rfl⟩ := Int.eq_ofNat_of_zero_le he
      have : ((s.apply (m : ℤ) : ℤ) : ℝ) * 2 ^ (k : ℤ) = ((s.apply (((m * 2 ^ k : ℕ)) : ℤ) : ℤ) : ℝ) := by
        rw [zpow_natCast]
        cases s <;> simp [UnpackedFloat.Sign.apply]
      simp only [Int.toNat_natCast]
      rw [this, Int.ceil_intCast]
    · rename_i he
      obtain ⟨k, hk⟩ := Int.eq_ofNat_of_zero_le (show 0 ≤ -e by omega)
      obtain rfl : e = -(k : ℤ) := by omega
      simp only [neg_neg, Int.toNat_natCast]
      generalize s.apply (m : ℤ) = M
      rw [zpow_neg, zpow_natCast, ← div_eq_mul_inv]
      have hP : (0 : ℤ) < 2 ^ k := by positivity
      have hPr : (0 : ℝ) < 2 ^ k := by positivity
      symm
      rw [Int.ceil_eq_iff]
      have h1 := Int.ediv_mul_le (-M) hP.ne'
      have h2 := Int.lt_ediv_add_one_mul_self (-M) hP
      constructor
      · rw [lt_div_iff₀ hPr]
        have : (((-M : ℤ)) : ℝ) < ((-M / 2 ^ k : ℤ) + 1) * 2 ^ k := by exact_mod_cast h2
        push_cast at this ⊢
        linarith
      · rw [div_le_iff₀ hPr]
        have : ((-M / 2 ^ k : ℤ) : ℝ) * 2 ^ k ≤ ((-M : ℤ) : ℝ) := by exact_mod_cast h1
        push_cast at this ⊢
        linarith

/-- The number of points less 20. -/
theorem count_is {tol : Dbl} (htf : tol.Fin) (ht : 2 / 1000000 ≤ tol.val) (ht1 : tol.val ≤ 1 / 2) :
    ∃ c : ℕ, castCeil (d 20 1 / tol) = .ok (c : ℤ) ∧ c ≤ 1000001 ∧ (c : ℝ) * tol.val ≤ 2 + 1 / 1000000 + tol.val ∧ 2 / tol.val * (1 - 1 / 10 ^ 12) ≤ c := by
  have h0 : 0 < tol.val := by linarith
  have q0 : 0 < 2 / tol.val := by positivity
  have q1 : 2 / tol.val ≤ 1000000 := by rw [div_le_iff₀ h0]; linarith
  have hq : (d 20 1 / tol).Is (2 / tol.val) := by
    have := div_is two_is.1 htf h0.ne' (by rw [two_is.2]; exact dbl_top' q0.le (q1.trans (by norm_num)))
    rwa [two_is.2] at this
  have he := round_err hq
  have hul : ulp ≤ 12 / 10 ^ 17 := by unfold ulp; norm_num
  have hti : halfMin ≤ 1 / 10 ^ 30 := by
    unfold halfMin
    calc (2 : ℝ) ^ (-1075 : ℤ) ≤ 2 ^ (-100 : ℤ) := two_pow_le (by norm_num)
      _ ≤ 1 / 10 ^ 30 := by norm_num
  rw [abs_of_pos q0, abs_le] at he
  have u1 : ulp * (2 / tol.val) ≤ 12 / 10 ^ 17 * (2 / tol.val) := mul_le_mul_of_nonneg_right hul q0.le
  have q2 : 4 ≤ 2 / tol.val := by rw [le_div_iff₀ h0]; linarith
  generalize hv : (d 20 1 / tol).val = v at he
  have hv0 : 0 ≤ v := by linarith
  have hc0 := Int.ceil_nonneg hv0
  obtain ⟨c, hc⟩ := Int.eq_ofNat_of_zero_le hc0
  have hc1 := Int.ceil_lt_add_one v
  have hc2 := Int.le_ceil v
  rw [hc] at hc1 hc2
  push_cast at hc1 hc2
  have hc3 : c ≤ 1000001 := by
    have : (c : ℝ) < 1000002 := by linarith
    have : c < 1000002 := by exact_mod_cast this
    omega
  refine ⟨c, ?_, hc3, ?_, by linarith⟩
  · unfold castCeil
    rw [ceil_fin hq.1, hv, hc]
    exact int_ok (by omega) (by omega)
  · have e : 2 / tol.val * tol.val = 2 := div_mul_cancel₀ _ h0.ne'
    have : (c : ℝ) ≤ 2 / tol.val * (1 + 1 / 10 ^ 12) + 1 := by linarith
    calc (c : ℝ) * tol.val ≤ (2 / tol.val * (1 + 1 / 10 ^ 12) + 1) * tol.val := mul_le_mul_of_nonneg_right this h0.le
      _ = 2 / tol.val * tol.val * (1 + 1 / 10 ^ 12) + tol.val := by ring
      _ ≤ _ := by rw [e]; linarith

/-! ### The points -/

/-- The values for arguments below 1e-6. -/
theorem vector_small (exp : Dbl → Dbl) {n : ℕ} (hn : n ≤ 290) {x : Dbl} (hx : x.Fin) (h0 : |x.val| < (d 1 6).val) :
    evaluatePnebiVector exp n x ⟨n + 1, fun _ => d 0 1⟩ = .ok ⟨n + 1, fun j => if j = 0 then d 20 1 else d 0 1⟩ := by
  obtain ⟨y1, y2⟩ := fabs_is hx
  have hlt : (if x < d 0 1 then -x else x) < d 1 6 := by rw [lt_iff y1 micro_is.1, y2]; exact h0
  have hint : Cxx.int ((n : ℤ) + 1) = .ok (n + 1 : ℤ) := int_ok (by omega) (by omega)
  have hg : growD ⟨n + 1, fun _ => d 0 1⟩ (n + 1) = ⟨n + 1, fun _ => d 0 1⟩ := if_neg (lt_irrefl _)
  have hset : Vec.set ⟨n + 1, fun _ => d 0 1⟩ 0 (d 20 1) = .ok ⟨n + 1, fun j => if j = 0 then d 20 1 else d 0 1⟩ :=
    Vec.set_nat ⟨n + 1, fun _ => d 0 1⟩ (i := 0) (by simp) _
  unfold evaluatePnebiVector
  rw [hint]
  simp only [bind, Except.bind, if_pos hlt, hg, hset]

theorem poly_zero : poly 0 = 2 := by
  unfold poly
  rw [Bessel.poly_small 0 (by norm_num)]
  norm_num [Bessel.small]

theorem slope_zero : slope 0 = 2 := by
  unfold slope
  rw [Bessel.pnebi_at_zero, Bessel.pnebi_at_zero]
  norm_num

theorem good_zero (n : ℕ) : Good n 0 ⟨n + 1, fun j => if j = 0 then d 20 1 else d 0 1⟩ := by
  refine ⟨rfl, fun k _ => ?_, ?_, ?_, ?_, fun _ => ?_⟩
  · dsimp only
    split
    · exact two_is.1
    · exact zero_lit.1
  all_goals
    simp only [if_true, one_ne_zero, if_false, two_is.2, zero_lit.2, poly_zero, slope_zero]
    norm_num

/-- What is known about a point of the table. -/
structure Node (exp : Dbl → Dbl) (n : ℕ) (p : Functions.Point Dbl) : Prop where
  fin : p.x.Fin
  start : p.x.val = 0 ∨ (d 1 6).val ≤ p.x.val
  far : cap * p.x.val ≤ 14
  call : evaluatePnebiVector exp n p.x ⟨n + 1, fun _ => d 0 1⟩ = .ok p.y
  good : Good n p.x.val p.y

theorem Node.nonneg {exp : Dbl → Dbl} {n : ℕ} {p : Functions.Point Dbl} (h : Node exp n p) : 0 ≤ p.x.val := by
  rcases h.start with h | h
  · rw [h]
  · exact le_trans (by norm_num) (micro_is.2.1.trans h)

/-- Consecutive points. -/
structure Close (tol : ℝ) (p q : Functions.Point Dbl) : Prop where
  lt : p.x.val < q.x.val
  drop : Bessel.pnebi 0 p.x.val - Bessel.pnebi 0 q.x.val ≤ 1021 / 1000 * tol
  micro : (d 1 6).val ≤ q.x.val

theorem lutLoop_close {exp : Dbl → Dbl} (he : ExpErr exp (1 / 10 ^ 12)) {n : ℕ} (hn1 : 1 ≤ n) (hn : n ≤ 290) {tol : Dbl} (htf : tol.Fin) (ht : 2 / 1000000 ≤ tol.val)
    (ht1 : tol.val ≤ 1 / 2) (m i : ℕ) (hi : (i + m) * tol.val ≤ 13) (x dv y0 : Dbl) (h : LInv tol.val i x dv y0) (q : Functions.Point Dbl) (hq : q.x = x) :
    ∃ r, lutLoop exp n tol m x dv y0 = .ok r ∧ r.length = m ∧ (∀ p ∈ r, Node exp n p) ∧ ∀ j (hj : j + 1 < (q :: r).length), Close tol.val (q :: r)[j] (q :: r)[j + 1] := by
  induction m generalizing i x dv y0 q with
  | zero => exact ⟨[], rfl, rfl, fun p hp => by simp at hp, fun j hj => by simp at hj⟩
  | succ m ih =>
    push_cast at hi
    have h0 : 0 ≤ (m : ℝ) * tol.val := mul_nonneg (Nat.cast_nonneg _) (by linarith)
    have hi1 : ((i : ℝ) + 1) * tol.val ≤ 13 := by nlinarith
    have δ0 : 0 < -dv.val := cap_pos.trans_le h.least
    obtain ⟨f1, -, f3, f4⟩ := h.move htf ht ht1 hi1 (D := tol.val / -dv.val) (div_mul_cancel₀ _ δ0.ne')
    obtain ⟨y, hy, hg⟩ := values he hn1 hn f1 f3
    have hs := h.step htf ht ht1 hi1 hn1 hg
    have hcl := h.close htf ht ht1 hi1
    have g0 : y.get 0 = .ok (y.val 0) := y.get_nat (i := 0) (by rw [hg.len]; omega)
    have g1 : y.get 1 = .ok (y.val 1) := y.get_nat (i := 1) (by rw [hg.len]; omega)
    obtain ⟨r, hr, hl, hp, hc⟩ := ih (i + 1) (by push_cast; linarith) _ _ _ hs ⟨x - tol / dv, y⟩ rfl
    have hpt : Point.new exp n (x - tol / dv) = .ok ⟨x - tol / dv, y⟩ := by unfold Point.new; rw [hy]; rfl
    refine ⟨⟨x - tol / dv, y⟩ :: r, ?_, by simp [hl], fun p hp' => ?_, fun j hj => ?_⟩
    · rw [lutLoop]
      dsimp only
      rw [hpt, Functions.bind_okP]
      dsimp only
      rw [g0, Functions.bind_okP]
      rw [g1, Functions.bind_okP, hr]
      rfl
    · rcases List.mem_cons.1 hp' with rfl | hp'
      · refine ⟨f1, Or.inr f3, ?_, hy, hg⟩
        refine f4.trans ?_
        push_cast
        linarith
      · exact hp p hp'
    · cases j with
      | zero =>
        refine ⟨?_, ?_, f3⟩
        · simp only [List.getElem_cons_zero, List.getElem_cons_succ, hq]
          exact hcl.1
        · simp only [List.getElem_cons_zero, List.getElem_cons_succ, hq]
          exact hcl.2
      | succ j => exact hc j (by simpa using hj)

/-- The table made by `init`. -/
structure Table (exp : Dbl → Dbl) (n : ℕ) (tol : ℝ) (l : Functions.Lut Dbl) : Prop where
  size : ∃ c : ℕ, l.lut.length = c + 20 ∧ 2 / tol * (1 - 1 / 10 ^ 12) ≤ c ∧ c * tol ≤ 2 + 1 / 1000000 + tol
  order : l.orderMax = n
  node : ∀ p ∈ l.lut, Node exp n p
  first : ∀ h : 0 < l.lut.length, l.lut[0].x.val = 0
  close : ∀ j (hj : j + 1 < l.lut.length), Close tol l.lut[j] l.lut[j + 1]

theorem init_table {exp : Dbl → Dbl} (he : ExpErr exp (1 / 10 ^ 12)) {n : ℕ} (hn1 : 1 ≤ n) (hn : n ≤ 290) {tol : Dbl} (htf : tol.Fin) (ht : 2 / 1000000 ≤ tol.val)
    (ht1 : tol.val ≤ 1 / 2) : ∃ l, Lut.init exp n tol = .ok l ∧ Table exp n tol.val l := by
  obtain ⟨c, hc, hc1, hc2, hc3⟩ := count_is htf ht ht1
  obtain ⟨p, hpd⟩ : ∃ p : Functions.Point Dbl, p = ⟨d 0 1, ⟨n + 1, fun j => if j = 0 then d 20 1 else d 0 1⟩⟩ := ⟨_, rfl⟩
  have hx0 : |(d 0 1).val| < (d 1 6).val := by rw [zero_lit.2, abs_zero]; exact lt_of_lt_of_le (by norm_num) micro_is.2.1
  have hv := vector_small exp hn zero_lit.1 hx0
  have hpt : Point.new exp n (d 0 1) = .ok p := by unfold Point.new; rw [hv, hpd]; rfl
  have g0 : p.y.get 0 = .ok (d 20 1) := by rw [hpd]; exact Vec.get_nat _ (i := 0) (by show 0 < n + 1; omega)
  have g1 : p.y.get 1 = .ok (d 0 1) := by rw [hpd]; exact Vec.get_nat _ (i := 1) (by show 1 < n + 1; omega)
  have hd : (d 0 1 - d 20 1).Fin ∧ (d 0 1 - d 20 1).val = -2 := by
    have h1 := sub_is zero_lit.1 two_is.1 (by rw [zero_lit.2, two_is.2, zero_sub, abs_neg]; exact dbl_top' (by norm_num) (by norm_num))
    rw [zero_lit.2, two_is.2, zero_sub] at h1
    refine ⟨h1.1, h1.2.exact ?_⟩
    have := two_is.1
    have h2 := (d 20 1).grid
    rw [two_is.2] at h2
    exact h2.neg
  have hcs := cap_small
  have hinv : LInv tol.val 0 (d 0 1) (d 0 1 - d 20 1) (d 20 1) := by
    refine ⟨zero_lit.1, hd.1, two_is.1, Or.inl ⟨zero_lit.2, hd.2⟩, ?_, ?_, ?_, ?_, ?_, ?_, fun h3 => ?_⟩
    · rw [zero_lit.2, two_is.2, poly_zero]; norm_num
    · rw [hd.2]; linarith
    · rw [hd.2]; norm_num
    · rw [zero_lit.2]; norm_num
    · rw [zero_lit.2]; norm_num
    · rw [zero_lit.2, hd.2, slope_zero]; norm_num
    · rw [zero_lit.2] at h3; norm_num at h3
  obtain ⟨r, hr, hl, hnode, hcl⟩ := lutLoop_close he hn1 hn htf ht ht1 (c + 19) 0 (by push_cast; nlinarith) _ _ _ hinv p (by rw [hpd])
  refine ⟨⟨p :: r, n⟩, ?_, ⟨c, by simp [hl], hc3, hc2⟩, rfl, fun q hq => ?_, fun _ => by rw [hpd]; exact zero_lit.2, hcl⟩
  · unfold Lut.init
    rw [hc, Functions.bind_okP, int_ok (by omega) (by omega), Functions.bind_okP, if_neg (by omega), hpt, Functions.bind_okP, g1, Functions.bind_okP, g0, Functions.bind_okP]
    have : ((c : ℤ) + 20 - 1).toNat = c + 19 := by omega
    dsimp only
    rw [this, hr]
    rfl
  · rcases List.mem_cons.1 hq with rfl | hq
    · rw [hpd]
      refine ⟨zero_lit.1, Or.inl zero_lit.2, by show cap * (d 0 1).val ≤ 14; rw [zero_lit.2]; norm_num, hv, ?_⟩
      show Good n (d 0 1).val _
      rw [zero_lit.2]
      exact good_zero n
    · exact hnode q hq

/-- The points increase. -/
theorem Table.lt {exp : Dbl → Dbl} {n : ℕ} {tol : ℝ} {l : Functions.Lut Dbl} (h : Table exp n tol l) {i j : ℕ} (hj : j < l.lut.length) (hij : i < j) :
    l.lut[i].x.val < l.lut[j].x.val := by
  induction j with
  | zero => omega
  | succ j ih =>
    have := (h.close j hj).lt
    rcases Nat.lt_succ_iff_lt_or_eq.1 hij with h1 | h1
    · exact (ih (by omega) h1).trans this
    · subst h1
      exact this

/-! ### The search -/

theorem vector_order0 (exp : Dbl → Dbl) (x : Dbl) : ∃ r, evaluatePnebiVector exp 0 x ⟨0 + 1, fun _ => d 0 1⟩ = .ok r := by
  have hg : growD ⟨0 + 1, fun _ => d 0 1⟩ (0 + 1) = ⟨0 + 1, fun _ => d 0 1⟩ := if_neg (lt_irrefl _)
  have hint : Cxx.int (((0 : ℕ) : ℤ) + 1) = .ok (((0 : ℕ) : ℤ) + 1 : ℤ) := int_ok (by omega) (by omega)
  have hset : ∀ a, Vec.set ⟨0 + 1, fun _ => d 0 1⟩ 0 a = .ok ⟨0 + 1, fun j => if j = 0 then a else d 0 1⟩ := fun a =>
    Vec.set_nat ⟨0 + 1, fun _ => d 0 1⟩ (i := 0) (by simp) _
  have hst : startOrder 0 = .ok 0 := by
    have := startOrder_eq (n := 0) (by norm_num)
    simpa using this
  unfold evaluatePnebiVector
  rw [hint, Functions.bind_okP, hg]
  dsimp only
  generalize (if x < d 0 1 then -x else x) = z
  by_cases hz : z < d 1 6
  · rw [if_pos hz]
    exact ⟨_, hset _⟩
  · rw [if_neg hz, hst, Functions.bind_okP]
    have h1 : Vec.set ⟨0 + 1, fun _ => d 0 1⟩ ((0 : ℕ) : ℤ) (d 10 1) = .ok ⟨0 + 1, fun j => if j = 0 then d 10 1 else d 0 1⟩ := hset (d 10 1)
    have h2 : ∀ f : ℕ → Dbl, Vec.get ⟨0 + 1, f⟩ 0 = .ok (f 0) := fun f => Vec.get_nat ⟨0 + 1, f⟩ (i := 0) (by simp)
    obtain ⟨a, b, f, hs⟩ : ∃ a b f, backLoop 0 (d 20 1 / z) (0 : ℤ).toNat ⟨d 0 1, d 10 1, ⟨0 + 1, fun _ => d 0 1⟩⟩ = .ok ⟨a, b, ⟨0 + 1, f⟩⟩ := by
      show ∃ a b f, backStep 0 _ 0 _ = .ok ⟨a, b, ⟨0 + 1, f⟩⟩
      unfold backStep
      dsimp only
      rw [if_pos le_rfl, h1, Functions.bind_okP]
      split
      · exact ⟨_, _, _, rfl⟩
      · exact ⟨_, _, _, rfl⟩
    rw [hs, Functions.bind_okP]
    dsimp only
    rw [h2]
    exact ⟨_, rfl⟩

theorem bracket_table {exp : Dbl → Dbl} {n : ℕ} {tol : ℝ} {l : Functions.Lut Dbl} (h : Table exp n tol l) {x : Dbl} (hx : x.Fin) (h0 : 0 ≤ x.val) :
    ∃ (i : ℕ) (hi : i < l.lut.length), bracket exp l.lut x = .ok (l.lut[i], l.lut[i + 1]?) ∧ l.lut[i].x.val ≤ x.val ∧
      ∀ h' : i + 1 < l.lut.length, x.val < l.lut[i + 1].x.val := by
  obtain ⟨c, hlen, -⟩ := h.size
  obtain ⟨y, hy⟩ := vector_order0 exp x
  have hpt : Point.new exp 0 x = .ok ⟨x, y⟩ := by unfold Point.new; rw [hy]; rfl
  have fin : ∀ i (hi : i < l.lut.length), l.lut[i].x.Fin := fun i hi => (h.node _ (List.getElem_mem hi)).fin
  have hpart : partitioned l.lut x := by
    intro i j hij h1
    change x < l.lut[i.1].x at h1
    show x < l.lut[j.1].x
    rw [lt_iff hx (fin _ i.2)] at h1
    rw [lt_iff hx (fin _ j.2)]
    exact h1.trans (h.lt j.2 hij)
  obtain ⟨u, hu⟩ : ∃ u, u = l.lut.findIdx fun p => decide (x < p.x) := ⟨_, rfl⟩
  have hle : u ≤ l.lut.length := by rw [hu]; exact List.findIdx_le_length
  have hlt : ∀ j (hj : j < u) (hj' : j < l.lut.length), l.lut[j].x.val ≤ x.val := fun j hj hj' => by
    rw [hu] at hj
    have := List.not_of_lt_findIdx hj
    rw [Bool.eq_false_iff, ne_eq, decide_eq_true_eq] at this
    rw [lt_iff hx (fin _ hj')] at this
    exact not_lt.1 this
  have hge : ∀ (h' : u < l.lut.length), x.val < l.lut[u].x.val := fun h' => by
    have hw := h'
    rw [hu] at hw
    have := List.findIdx_getElem (w := hw)
    simp only [decide_eq_true_eq, ← hu] at this
    rwa [lt_iff hx (fin _ h')] at this
  have hu0 : u ≠ 0 := fun he => by
    have := hge (by omega)
    simp only [he] at this
    rw [h.first (by omega)] at this
    linarith
  obtain ⟨i, hi⟩ := Nat.exists_eq_succ_of_ne_zero hu0
  have hil : i < l.lut.length := by omega
  refine ⟨i, hil, ?_, hlt i (by omega) (by omega), fun h' => ?_⟩
  · unfold bracket
    rw [hpt, Functions.bind_okP]
    dsimp only
    rw [if_pos hpart, ← hu, hi]
    dsimp only
    rw [List.getElem?_eq_getElem (by omega)]
  · have := hge (by omega)
    simpa only [hi] using this

/-! ### The interpolation -/

/-- The weight of the interpolation. -/
theorem weight_is {x lo hi : Dbl} (hx : x.Fin) (hlo : lo.Fin) (hhi : hi.Fin) (h0 : 0 ≤ lo.val) (h1 : lo.val ≤ x.val) (h2 : x.val < hi.val) (hf : cap * hi.val ≤ 14) :
    ((x - lo) / (hi - lo)).Is ((x - lo).val / (hi - lo).val) ∧ 0 < (hi - lo).val ∧ 0 ≤ ((x - lo) / (hi - lo)).val ∧ ((x - lo) / (hi - lo)).val ≤ 1 := by
  have hc := cap_pos
  have t1 : |hi.val - lo.val| ≤ 2 ^ top Format.binary64 := cap_top (by linarith) (by nlinarith)
  have t2 : |x.val - lo.val| ≤ 2 ^ top Format.binary64 := cap_top (by linarith) (by nlinarith)
  have s1 := sub_is hhi hlo t1
  have s2 := sub_is hx hlo t2
  have p1 := (sub_sign hhi hlo t1).1.2 (by linarith)
  have p2 : 0 ≤ (x - lo).val := s2.2.mono_ge grid_zero (by linarith)
  have p3 := s2.mono s1 (by linarith)
  have q0 : 0 ≤ (x - lo).val / (hi - lo).val := div_nonneg p2 p1.le
  have q1 : (x - lo).val / (hi - lo).val ≤ 1 := (div_le_one p1).2 p3
  have w := div_is s2.1 s1.1 p1.ne' (dbl_top' q0 (q1.trans (by norm_num)))
  refine ⟨w, p1, w.2.mono_ge grid_zero q0, ?_⟩
  have := w.2.mono_le (d 10 1).grid (by rw [one_is.2]; exact q1)
  rwa [one_is.2] at this

/-- The interpolated value. -/
theorem mix_is {w a b : Dbl} (hw : w.Fin) (w0 : 0 ≤ w.val) (w1 : w.val ≤ 1) (ha : a.Fin) (hb : b.Fin) (ha3 : |a.val| ≤ 3) (hb3 : |b.val| ≤ 3) :
    ((d 10 1 - w) * a + w * b).Fin ∧ |((d 10 1 - w) * a + w * b).val - ((1 - w.val) * a.val + w.val * b.val)| ≤ 1 / 10 ^ 14 := by
  have hul : ulp ≤ 12 / 10 ^ 17 := by unfold ulp; norm_num
  have hu := ulp_pos
  have hti : halfMin ≤ 1 / 10 ^ 30 := by
    unfold halfMin
    calc (2 : ℝ) ^ (-1075 : ℤ) ≤ 2 ^ (-100 : ℤ) := two_pow_le (by norm_num)
      _ ≤ 1 / 10 ^ 30 := by norm_num
  have top : ∀ v : ℝ, |v| ≤ 7 → |v| ≤ 2 ^ top Format.binary64 := fun v h => dbl_top (h.trans (le_trans (by norm_num) (two_pow_le (show (3 : ℤ) ≤ 1000 by norm_num))))
  have s := sub_is one_is.1 hw (top _ (by rw [one_is.2, abs_le]; constructor <;> linarith))
  rw [one_is.2] at s
  have e1 := round_err s
  have b1 : |1 - w.val| ≤ 1 := by rw [abs_le]; constructor <;> linarith
  have u1 : ulp * |1 - w.val| ≤ 12 / 10 ^ 17 * 1 := mul_le_mul hul b1 (abs_nonneg _) (by norm_num)
  have u0 : 0 ≤ (d 10 1 - w).val := s.2.mono_ge grid_zero (by linarith)
  have u2 : (d 10 1 - w).val ≤ 1 := by
    have := s.2.mono_le (d 10 1).grid (by rw [one_is.2]; linarith)
    rwa [one_is.2] at this
  have hsf := s.1
  generalize d 10 1 - w = u at *
  have m1 : |u.val * a.val| ≤ 3 := by
    rw [abs_mul, abs_of_nonneg u0]
    calc u.val * |a.val| ≤ 1 * 3 := mul_le_mul u2 ha3 (abs_nonneg _) (by norm_num)
      _ = 3 := by norm_num
  have m2 : |w.val * b.val| ≤ 3 := by
    rw [abs_mul, abs_of_nonneg w0]
    calc w.val * |b.val| ≤ 1 * 3 := mul_le_mul w1 hb3 (abs_nonneg _) (by norm_num)
      _ = 3 := by norm_num
  have p1 := mul_is hsf ha (top _ (m1.trans (by norm_num)))
  have p2 := mul_is hw hb (top _ (m2.trans (by norm_num)))
  have e2 := round_err p1
  have e3 := round_err p2
  have v1 : ulp * |u.val * a.val| ≤ 12 / 10 ^ 17 * 3 := mul_le_mul hul m1 (abs_nonneg _) (by norm_num)
  have v2 : ulp * |w.val * b.val| ≤ 12 / 10 ^ 17 * 3 := mul_le_mul hul m2 (abs_nonneg _) (by norm_num)
  have hpf := p1.1
  have hqf := p2.1
  generalize u * a = p at *
  generalize w * b = q at *
  have e4 : |(u.val - (1 - w.val)) * a.val| ≤ (12 / 10 ^ 17 + 1 / 10 ^ 30) * 3 := by
    rw [abs_mul]
    exact mul_le_mul (by linarith) ha3 (abs_nonneg _) (by norm_num)
  rw [sub_mul] at e4
  rw [abs_le] at e2 e3 m1 m2 e4
  have m3 : |p.val + q.val| ≤ 7 := by rw [abs_le]; constructor <;> linarith
  have r := add_is hpf hqf (top _ m3)
  have e5 := round_err r
  have v3 : ulp * |p.val + q.val| ≤ 12 / 10 ^ 17 * 7 := mul_le_mul hul m3 (abs_nonneg _) (by norm_num)
  refine ⟨r.1, ?_⟩
  rw [abs_le] at e5 ⊢
  constructor <;> linarith

/-- A mean of two numbers near a third one is near it. -/
theorem mean_within {a b t w e : ℝ} (h0 : 0 ≤ t) (h1 : t ≤ 1) (ha : |a - w| ≤ e) (hb : |b - w| ≤ e) : |(1 - t) * a + t * b - w| ≤ e := by
  have : (1 - t) * a + t * b - w = (1 - t) * (a - w) + t * (b - w) := by ring
  rw [abs_le] at *
  rw [this]
  constructor <;> nlinarith

theorem eval_table {exp : Dbl → Dbl} {n : ℕ} {tol : ℝ} {l : Functions.Lut Dbl} (h : Table exp n tol l) {x : Dbl} (hx : x.Fin) :
    ∃ (i : ℕ) (hi : i < l.lut.length), l.lut[i].x.val ≤ |x.val| ∧
      ((i + 1 = l.lut.length ∧ (∀ k : ℕ, k < n → Lut.eval exp l k x = .ok (l.lut[i].y.val k)) ∧
        ∀ y, ∃ r, Lut.evalVec exp l x y = .ok r ∧ r.len = max y.len (n + 1) ∧ ∀ k ≤ n, r.val k = l.lut[i].y.val k) ∨
      ∃ (hi' : i + 1 < l.lut.length) (w : Dbl), |x.val| < l.lut[i + 1].x.val ∧ w.Fin ∧ 0 ≤ w.val ∧ w.val ≤ 1 ∧ (|x.val| = l.lut[i].x.val → w.val = 0) ∧
        (∀ k : ℕ, k < n → Lut.eval exp l k x = .ok ((d 10 1 - w) * l.lut[i].y.val k + w * l.lut[i + 1].y.val k)) ∧
        ∀ y, ∃ r, Lut.evalVec exp l x y = .ok r ∧ r.len = max y.len (n + 1) ∧ ∀ k ≤ n, r.val k = (d 10 1 - w) * l.lut[i].y.val k + w * l.lut[i + 1].y.val k) := by
  obtain ⟨z1, z2⟩ := fabs_is hx
  obtain ⟨c, hlen, -⟩ := h.size
  have hne : l.lut.isEmpty = false := by
    cases hl : l.lut with
    | nil => rw [hl] at hlen; simp at hlen
    | cons a b => rfl
  have glen : ∀ y, (growD y (l.orderMax + 1).toNat).len = max y.len (n + 1) := fun y => by
    rw [h.order]
    unfold growD
    split
    · dsimp only; omega
    · omega
  have hass : ∀ k : ℕ, k < n → Cxx.assert (0 ≤ (k : ℤ) ∧ (k : ℤ) < l.orderMax) = .ok () := fun k hk => by
    unfold Cxx.assert
    rw [if_pos ⟨by omega, by rw [h.order]; exact_mod_cast hk⟩]
  unfold Lut.eval Lut.evalVec
  simp only [hne, Bool.false_eq_true, if_false]
  generalize (if x < d 0 1 then -x else x) = z at *
  rw [← z2]
  obtain ⟨i, hi, hb, h1, h2⟩ := bracket_table h z1 (by rw [z2]; exact abs_nonneg _)
  have nd := h.node _ (List.getElem_mem hi)
  refine ⟨i, hi, h1, ?_⟩
  rw [hb]
  rcases Nat.lt_or_ge (i + 1) l.lut.length with h3 | h3
  · right
    have nu := h.node _ (List.getElem_mem h3)
    obtain ⟨w1, -, w3, w4⟩ := weight_is z1 nd.fin nu.fin nd.nonneg h1 (h2 h3) nu.far
    refine ⟨h3, (z - l.lut[i].x) / (l.lut[i + 1].x - l.lut[i].x), h2 h3, w1.1, w3, w4, fun e => ?_, fun k hk => ?_, fun y => ?_⟩
    · have e0 : z.val - l.lut[i].x.val = 0 := by rw [e]; exact sub_self _
      have hs := sub_is z1 nd.fin (by rw [e0]; exact dbl_top' le_rfl (by norm_num))
      rw [e0] at hs
      have hz : (z - l.lut[i].x).val = 0 := hs.2.exact grid_zero
      rw [hz, zero_div] at w1
      exact w1.2.exact grid_zero
    · have g1 : l.lut[i].y.get k = .ok (l.lut[i].y.val k) := Vec.get_nat _ (by rw [nd.good.len]; omega)
      have g2 : l.lut[i + 1].y.get k = .ok (l.lut[i + 1].y.val k) := Vec.get_nat _ (by rw [nu.good.len]; omega)
      rw [hass k hk, List.getElem?_eq_getElem h3, Functions.bind_okP, Functions.bind_okP]
      dsimp only
      rw [g1, Functions.bind_okP, g2]
      rfl
    · rw [List.getElem?_eq_getElem h3, Functions.bind_okP]
      refine ⟨_, rfl, glen y, fun k hk => ?_⟩
      dsimp only
      rw [if_pos ⟨by rw [nd.good.len]; omega, by rw [nu.good.len]; omega, by rw [glen]; omega⟩]
  · left
    refine ⟨by omega, fun k hk => ?_, fun y => ?_⟩
    · have g1 : l.lut[i].y.get k = .ok (l.lut[i].y.val k) := Vec.get_nat _ (by rw [nd.good.len]; omega)
      rw [hass k hk, List.getElem?_eq_none h3, Functions.bind_okP, Functions.bind_okP]
      exact g1
    · rw [List.getElem?_eq_none h3, Functions.bind_okP]
      dsimp only
      rw [if_pos (by rw [nd.good.len, glen]; omega)]
      refine ⟨_, rfl, glen y, fun k hk => ?_⟩
      dsimp only
      rw [if_pos (by rw [nd.good.len]; omega)]

end Verif.FunctionsFp
