import Verif.FunctionsFp.PnebiVector

/-! Overflow of the back recursion of `evaluatePnebiVector` in `double` arithmetic. -/
namespace Verif.FunctionsFp
open Verif Ieee Fp Float.Model Float.Model.UnpackedFloat

/-- The infinity with positive sign. -/
def PInf (a : Dbl) : Prop := a.x = .infinity .positive

theorem pinf_eq {a : Dbl} (h : PInf a) : a = ⟨.infinity .positive, trivial⟩ := Fp.ext h

/-- A result is rounded or overflows. -/
theorem over {x : ℝ} {y : UnpackedFloat} (h : Rounded .binary64 x y) (hx : 0 ≤ x) : (ofU .binary64 y).Is x ∨ PInf (ofU .binary64 y) := by
  rcases h.fin with ⟨s, rfl⟩ | ⟨s, m, e, hm, rfl⟩
  · left
    rw [ofU_repr (show Repr .binary64 (.zero s) from trivial)]
    exact ⟨trivial, h⟩
  · by_cases he : e ≤ maxExponent .binary64
    · left
      rw [ofU_repr (show Repr .binary64 (.finite s m e hm) from ⟨h.canon, he⟩)]
      exact ⟨trivial, h⟩
    · right
      have hs : s = .positive := by
        cases s with
        | positive => rfl
        | negative =>
          exfalso
          have h1 := h.mono_ge grid_zero hx
          simp only [Ieee.val, sgn] at h1
          have h2 : (0 : ℝ) < m * 2 ^ e := by
            have : (0 : ℝ) < m := by exact_mod_cast hm
            positivity
          linarith
      subst hs
      show UnpackedFloat.unpack _ (UnpackedFloat.pack _ _) = _
      have hmx : maxExponent .binary64 = 971 := by decide
      have hp : UnpackedFloat.pack .binary64 (.finite .positive m e hm) = packedInfinity .binary64 .positive := by
        unfold UnpackedFloat.pack
        dsimp only
        refine if_pos ?_
        have h1 : (Format.binary64.exponentBias : ℤ) = 1023 := by decide
        have h2 : (Format.binary64.mantissaBitsWithoutImplicit : ℤ) = 52 := by decide
        have h3 : 2 ^ Format.binary64.exponentBits = 2048 := by decide
        rw [h1, h2, h3]
        omega
      rw [hp]
      exact unpack_pack (spec := .binary64) (by decide) (x := .infinity .positive) trivial

theorem mul_over {a b : Dbl} (ha : a.Fin) (hb : b.Fin) (h : 0 ≤ a.val * b.val) : (a * b).Is (a.val * b.val) ∨ PInf (a * b) :=
  over (mul_spec Fmt.good ha hb a.canon b.canon) h

theorem add_over {a b : Dbl} (ha : a.Fin) (hb : b.Fin) (h : 0 ≤ a.val + b.val) : (a + b).Is (a.val + b.val) ∨ PInf (a + b) :=
  over (add_spec Fmt.good ha hb a.canon b.canon) h

/-- Positive and finite. -/
theorem pos_finite {a : Dbl} (ha : a.Fin) (h : 0 < a.val) : ∃ m e hm, a.x = .finite .positive m e hm := by
  unfold Fp.Fin Fp.val at *
  cases hx : a.x with
  | infinity s => rw [hx] at ha; cases ha
  | notANumber => rw [hx] at ha; cases ha
  | zero s => rw [hx] at h; exact absurd h (lt_irrefl _)
  | finite s m e hm =>
    cases s with
    | positive => exact ⟨m, e, hm, rfl⟩
    | negative =>
      rw [hx] at h
      simp only [Ieee.val, sgn] at h
      have h2 : (0 : ℝ) < m * 2 ^ e := by
        have : (0 : ℝ) < m := by exact_mod_cast hm
        positivity
      linarith

theorem ofU_inf : (ofU .binary64 (.infinity .positive)).x = .infinity .positive := by decide +kernel
theorem ofU_nan : (ofU .binary64 .notANumber).x = .notANumber := by decide +kernel

theorem mul_inf_left {a b : Dbl} (ha : PInf a) (hb : b.Fin) (h : 0 < b.val) : PInf (a * b) := by
  obtain ⟨m, e, hm, hx⟩ := pos_finite hb h
  show (ofU .binary64 (UnpackedFloat.mul _ a.x b.x)).x = _
  rw [show a.x = _ from ha, hx]
  exact ofU_inf

theorem mul_inf_right {a b : Dbl} (ha : a.Fin) (h : 0 < a.val) (hb : PInf b) : PInf (a * b) := by
  obtain ⟨m, e, hm, hx⟩ := pos_finite ha h
  show (ofU .binary64 (UnpackedFloat.mul _ a.x b.x)).x = _
  rw [show b.x = _ from hb, hx]
  exact ofU_inf

theorem add_inf_right {a b : Dbl} (ha : a.Fin ∨ PInf a) (hb : PInf b) : PInf (a + b) := by
  show (ofU .binary64 (UnpackedFloat.add _ a.x b.x)).x = _
  rw [show b.x = _ from hb]
  rcases ha with ha | ha
  · unfold Fp.Fin at ha
    cases hx : a.x with
    | infinity s => rw [hx] at ha; cases ha
    | notANumber => rw [hx] at ha; cases ha
    | zero s => exact ofU_inf
    | finite s m e hm => exact ofU_inf
  · rw [show a.x = _ from ha]
    exact ofU_inf

/-- The product of an infinity and a zero or a NaN. -/
theorem mul_inf_nan {a b : Dbl} (ha : (a.Fin ∧ a.val = 0) ∨ a.NaN) (hb : PInf b) : (a * b).NaN := by
  rcases ha with ⟨ha, h0⟩ | ha
  · show (ofU .binary64 (UnpackedFloat.mul _ a.x b.x)).x = _
    rw [show b.x = _ from hb]
    unfold Fp.Fin at ha
    unfold Fp.val at h0
    cases hx : a.x with
    | infinity s => rw [hx] at ha; cases ha
    | notANumber => rw [hx] at ha; cases ha
    | zero s => exact ofU_nan
    | finite s m e hm =>
      exfalso
      rw [hx] at h0
      simp only [Ieee.val] at h0
      have h1 : (m : ℝ) ≠ 0 := by exact_mod_cast hm.ne'
      have h2 : (2 : ℝ) ^ e ≠ 0 := (two_pow_pos e).ne'
      cases s <;> simp_all [sgn]
  · exact NaN.mul (Or.inl ha)

theorem div_inf {a b : Dbl} (hb : PInf b) : ((a / b).Fin ∧ (a / b).val = 0) ∨ (a / b).NaN := by
  have hz : ∀ s, (ofU .binary64 (.zero s)).Fin ∧ (ofU .binary64 (.zero s)).val = 0 := by
    intro s
    rw [ofU_repr (show Repr .binary64 (.zero s) from trivial)]
    exact ⟨trivial, rfl⟩
  have e : a / b = ofU .binary64 (UnpackedFloat.div _ a.x b.x) := rfl
  rw [e, show b.x = _ from hb]
  cases hx : a.x with
  | infinity s => right; exact ofU_nan
  | notANumber => right; exact ofU_nan
  | zero s => left; exact hz _
  | finite s m e hm => left; exact hz _

theorem big_lt {a : Dbl} (h : PInf a) : bigNum < a := by
  rw [pinf_eq h]
  decide +kernel

/-! ### The growth of the values -/

/-- The factor `F` multiplied by the orders from `n` to `m` is at least 3.9e10. -/
structure Fast (F : Dbl) (n m : ℕ) : Prop where
  fin : F.Fin
  pos : 0 < F.val
  low : 39000000000 ≤ F.val * n
  high : F.val * m ≤ 10 ^ 30
  max : m < 2 ^ 31
  many : n + 1024 ≤ m

/-- The state before the iteration of order `k`. -/
structure Grow (n m k : ℕ) (s : Functions.Seq Dbl) : Prop where
  prev : (s.prev.Fin ∧ 0 ≤ s.prev.val) ∨ PInf s.prev
  curr : PInf s.curr ∨ (s.prev.Fin ∧ 0 ≤ s.prev.val ∧ s.curr.Fin ∧ n < k ∧ 2 ^ (m - k) ≤ s.curr.val)
  len : n < s.pnebis.len
  stored : ∀ j ≤ n, k < j → PInf (s.pnebis.val j)

variable {F : Dbl} {n m : ℕ}

/-- The product of the factor and an order. -/
theorem Fast.prod (h : Fast F n m) {k : ℕ} (hk : k ≤ m) (h1 : 1 ≤ k) :
    (F * (k : Dbl)).Fin ∧ 0 < (F * (k : Dbl)).val ∧ (n ≤ k → 38900000000 ≤ (F * (k : Dbl)).val) := by
  have hmax := h.max
  have hk' : (k : ℝ) ≤ 2147483648 := by
    have : k ≤ 2147483648 := by omega
    exact_mod_cast this
  have hc := natCast_exact (spec := .binary64) (n := k) (hk'.trans (by rw [mb.1]; norm_num)) ((le_abs_self _).trans (dbl_top' (v := k) (by positivity) (by norm_num; linarith)))
  have hkm : (k : ℝ) ≤ m := by exact_mod_cast hk
  have hk1 : (1 : ℝ) ≤ k := by exact_mod_cast h1
  have hp : F.val * k ≤ F.val * m := mul_le_mul_of_nonneg_left hkm h.pos.le
  have hp0 : 0 < F.val * k := mul_pos h.pos (by linarith)
  have hi := mul_is h.fin hc.1 (by rw [hc.2]; exact dbl_top' hp0.le (by linarith [h.high]))
  rw [hc.2] at hi
  have hge : F.val ≤ (F * (k : Dbl)).val := (fin_is h.fin).mono hi (by nlinarith [h.pos])
  refine ⟨hi.1, h.pos.trans_le hge, fun hn => ?_⟩
  have hnk : F.val * n ≤ F.val * k := mul_le_mul_of_nonneg_left (by exact_mod_cast hn) h.pos.le
  have hb : 39000000000 ≤ F.val * k := h.low.trans hnk
  have := ((round_rel hi (Or.inr (le_trans (le_trans (two_pow_le (show (-1022 : ℤ) ≤ 0 by norm_num)) (by norm_num)) hb))).bounds hp0.le (by norm_num)).1
  linarith

/-- One iteration of order at least 1. -/
theorem Grow.step (h : Fast F n m) {k : ℕ} (hk : k + 1 ≤ m) {s : Functions.Seq Dbl} (G : Grow n m (k + 1) s) : ∃ s', backStep n F (k + 1) s = .ok s' ∧ Grow n m k s' := by
  obtain ⟨y, hy⟩ : ∃ y, y = s.prev + F * ((k + 1 : ℕ) : Dbl) * s.curr := ⟨_, rfl⟩
  obtain ⟨g1, g2, g3⟩ := h.prod hk (by omega)
  obtain ⟨s1, s2, s3⟩ := small_is
  have s0 : 0 < smallNum.val := by linarith
  -- the stored values after the assignment
  obtain ⟨q, hq⟩ : ∃ q : Vec Dbl, q = ⟨s.pnebis.len, fun j => if j = k + 1 ∧ k + 1 ≤ n then s.curr else s.pnebis.val j⟩ := ⟨_, rfl⟩
  have hset : (if k + 1 ≤ n then s.pnebis.set ((k + 1 : ℕ) : ℤ) s.curr else .ok s.pnebis) = .ok q := by
    split
    · rename_i hk
      rw [Vec.set_nat _ (by have := G.len; omega), hq]
      simp [hk]
    · rename_i hk
      rw [hq]
      simp [hk]
  have hql : q.len = s.pnebis.len := by rw [hq]
  have hcurr : k + 1 ≤ n → PInf s.curr := by
    intro hkn
    rcases G.curr with h1 | ⟨_, _, _, h1, _⟩
    · exact h1
    · omega
  have hqs : ∀ j ≤ n, k < j → PInf (q.val j) := by
    intro j hj hjk
    by_cases hj' : j = k + 1
    · have e : q.val j = s.curr := by rw [hq]; exact if_pos ⟨hj', hj' ▸ hj⟩
      rw [e]
      exact hcurr (hj' ▸ hj)
    · have e : q.val j = s.pnebis.val j := by rw [hq]; simp [hj']
      rw [e]
      exact G.stored j hj (by omega)
  have hrun : backStep n F (k + 1) s = if bigNum < y then .ok ⟨s.curr * smallNum, y * smallNum, ⟨q.len, fun i => q.val i * smallNum⟩⟩ else .ok ⟨s.curr, y, q⟩ := by
    unfold backStep
    simp only [← hy, hset]
    rfl
  have fin : ∀ {r : Functions.Seq Dbl}, r.prev = s.curr * smallNum → r.curr = y * smallNum → r.pnebis = ⟨q.len, fun i => q.val i * smallNum⟩ →
      ((s.curr.Fin ∧ 0 ≤ s.curr.val) ∨ PInf s.curr) →
      (PInf y ∨ (s.curr.Fin ∧ 0 ≤ s.curr.val ∧ y.Fin ∧ n < k ∧ 11000000000 * 2 ^ (m - k) ≤ y.val)) → Grow n m k r := by
    intro r r1 r2 r3 hc hyy
    have hcs : ∀ {a : Dbl}, a.Fin → 0 ≤ a.val → (a * smallNum).Is (a.val * smallNum.val) := by
      intro a ha h0
      refine mul_is ha s1 ?_
      rw [abs_of_nonneg (mul_nonneg h0 s0.le)]
      have h1 := (le_abs_self _).trans (val_lt a).le
      rw [two_pow_add, zpow_one] at h1
      have := two_pow_pos (top .binary64)
      nlinarith
    have hcn : ∀ {a : Dbl}, a.Fin → 0 ≤ a.val → 0 ≤ (a * smallNum).val := fun ha h0 => (hcs ha h0).2.mono_ge grid_zero (mul_nonneg h0 s0.le)
    refine ⟨?_, ?_, ?_, ?_⟩
    · rw [r1]
      rcases hc with ⟨c1, c2⟩ | c1
      · exact Or.inl ⟨(hcs c1 c2).1, hcn c1 c2⟩
      · exact Or.inr (mul_inf_left c1 s1 s0)
    · rw [r1, r2]
      rcases hyy with y1 | ⟨c1, c2, y1, y2, y3⟩
      · exact Or.inl (mul_inf_left y1 s1 s0)
      · right
        have hp : (0 : ℝ) < 2 ^ (m - k) := by positivity
        have y0 : 0 ≤ y.val := by linarith
        have hys := hcs y1 y0
        refine ⟨(hcs c1 c2).1, hcn c1 c2, hys.1, y2, ?_⟩
        have hone : (1 : ℝ) ≤ 2 ^ (m - k) := one_le_pow₀ (by norm_num)
        have hv : 109989 / 100000 * 2 ^ (m - k) ≤ y.val * smallNum.val := by
          calc 109989 / 100000 * (2 : ℝ) ^ (m - k) = 11000000000 * 2 ^ (m - k) * (9999 / 100000000000000) := by ring
            _ ≤ _ := mul_le_mul y3 s2 (by norm_num) y0
        have hb := ((round_rel hys (Or.inr (le_trans (le_trans (two_pow_le (show (-1022 : ℤ) ≤ 0 by norm_num)) (by rw [zpow_zero]; linarith)) hv))).bounds (by linarith) (by norm_num)).1
        linarith
    · rw [r3]
      show n < q.len
      rw [hql]; exact G.len
    · rw [r3]
      exact fun j hj hjk => mul_inf_left (hqs j hj hjk) s1 s0
  rcases G.curr with hc | ⟨p1, p2, c1, c2, c3⟩
  · have hyi : PInf y := by
      rw [hy]
      exact add_inf_right (G.prev.imp_left And.left) (mul_inf_right g1 g2 hc)
    rw [if_pos (big_lt hyi)] at hrun
    exact ⟨_, hrun, fin rfl rfl rfl (Or.inr hc) (Or.inl hyi)⟩
  · have hge := g3 (by omega)
    have hp : (1 : ℝ) ≤ 2 ^ (m - (k + 1)) := one_le_pow₀ (by norm_num)
    have c0 : 0 < s.curr.val := by linarith
    have e2 : (2 : ℝ) ^ (m - k) = 2 * 2 ^ (m - (k + 1)) := by rw [show m - k = (m - (k + 1)) + 1 by omega, pow_succ]; ring
    have hz := mul_over g1 c1 (mul_pos g2 c0).le
    have hyy : PInf y ∨ (y.Fin ∧ 11000000000 * 2 ^ (m - k) ≤ y.val) := by
      rcases hz with hz | hz
      · have hv : 38900000000 * 2 ^ (m - (k + 1)) ≤ (F * ((k + 1 : ℕ) : Dbl)).val * s.curr.val := mul_le_mul hge c3 (by positivity) g2.le
        have hb := ((round_rel hz (Or.inr (le_trans (le_trans (two_pow_le (show (-1022 : ℤ) ≤ 0 by norm_num)) (by rw [zpow_zero]; linarith)) hv))).bounds (mul_pos g2 c0).le (by norm_num)).1
        generalize F * ((k + 1 : ℕ) : Dbl) * s.curr = z at *
        rcases add_over p1 hz.1 (by linarith) with h1 | h1
        · rw [← hy] at h1
          right
          refine ⟨h1.1, ?_⟩
          have := (fin_is hz.1).mono h1 (by linarith)
          rw [e2]
          linarith
        · rw [← hy] at h1
          exact Or.inl h1
      · left
        rw [hy]
        exact add_inf_right (Or.inl p1) hz
    have hbig : bigNum < y := by
      rcases hyy with h1 | ⟨h1, h2⟩
      · exact big_lt h1
      · rw [lt_iff big_is.1 h1, big_is.2]
        linarith
    rw [if_pos hbig] at hrun
    refine ⟨_, hrun, fin rfl rfl rfl (Or.inl ⟨c1, c0.le⟩) (hyy.imp_right fun hf => ⟨c1, c0.le, hf.1, ?_, hf.2⟩)⟩
    by_contra hnk
    have h1 : (2 : ℝ) ^ 1024 ≤ 2 ^ (m - k) := pow_le_pow_right₀ (by norm_num) (by have := h.many; omega)
    have h2 := (le_abs_self _).trans_lt (val_lt y)
    have h3 : (2 : ℝ) ^ (top Format.binary64 + 1) = 2 ^ 1024 := by
      rw [show top Format.binary64 + 1 = ((1024 : ℕ) : ℤ) by decide, zpow_natCast]
    rw [h3] at h2
    have h4 : (0 : ℝ) < 2 ^ 1024 := by positivity
    have h5 := hf.2
    generalize (2 : ℝ) ^ 1024 = a at *
    generalize (2 : ℝ) ^ (m - k) = b at *
    linarith

/-- The last iteration, of order 0: the next value is not a number. -/
theorem Grow.last (h : Fast F n m) {s : Functions.Seq Dbl} (G : Grow n m 0 s) : ∃ s', backStep n F 0 s = .ok s' ∧ n < s'.pnebis.len ∧ ∀ j ≤ n, PInf (s'.pnebis.val j) := by
  have hc : PInf s.curr := by
    rcases G.curr with h1 | ⟨_, _, _, h1, _⟩
    · exact h1
    · omega
  have h0 := natCast_exact (spec := .binary64) (n := 0) (by rw [mb.1]; norm_num) (by rw [Nat.cast_zero]; exact (two_pow_pos _).le)
  have hz : ((F * ((0 : ℕ) : Dbl)).Fin ∧ (F * ((0 : ℕ) : Dbl)).val = 0) ∨ (F * ((0 : ℕ) : Dbl)).NaN := by
    left
    have hi := mul_is h.fin h0.1 (by rw [h0.2]; simpa using dbl_top' (v := 0) le_rfl (by norm_num))
    rw [h0.2, Nat.cast_zero, mul_zero] at hi
    exact ⟨hi.1, hi.2.exact grid_zero⟩
  have hn : (s.prev + F * ((0 : ℕ) : Dbl) * s.curr).NaN := NaN.add (Or.inr (mul_inf_nan hz hc))
  have hset : s.pnebis.set ((0 : ℕ) : ℤ) s.curr = .ok ⟨s.pnebis.len, fun j => if j = 0 then s.curr else s.pnebis.val j⟩ := Vec.set_nat _ (by have := G.len; omega) _
  refine ⟨⟨s.curr, s.prev + F * ((0 : ℕ) : Dbl) * s.curr, ⟨s.pnebis.len, fun j => if j = 0 then s.curr else s.pnebis.val j⟩⟩, ?_, G.len, ?_⟩
  · unfold backStep
    dsimp only
    rw [if_pos (Nat.zero_le n), hset]
    simp only [bind, Except.bind, if_neg (NaN.not_lt (a := bigNum) (Or.inr hn))]
    rfl
  · intro j hj
    show PInf (if j = 0 then s.curr else s.pnebis.val j)
    split
    · exact hc
    · exact G.stored j hj (by omega)

theorem Grow.loop (h : Fast F n m) : ∀ (k : ℕ), k ≤ m → ∀ s : Functions.Seq Dbl, Grow n m k s → ∃ s', backLoop n F k s = .ok s' ∧ n < s'.pnebis.len ∧ ∀ j ≤ n, PInf (s'.pnebis.val j)
  | 0, _, s, G => G.last h
  | k + 1, hk, s, G => by
    obtain ⟨s', h1, h2⟩ := G.step h hk
    obtain ⟨s'', g1, g2⟩ := Grow.loop h k (by omega) s' h2
    refine ⟨s'', ?_, g2⟩
    rw [backLoop, h1]
    exact g1

/-- For great orders and small arguments all the results are NaN. -/
theorem vector_over {exp : Dbl → Dbl} {n : ℕ} {x : Dbl} (hx : x.Fin) (h0 : (d 1 6).val ≤ |x.val|) (h1 : 20000000000 * |x.val| ≤ n) (h2 : 2 * (n + Nat.sqrt (40 * n)) < 2 ^ 31) (v : Vec Dbl) :
    ∃ r, evaluatePnebiVector exp n x v = .ok r ∧ ∀ k ≤ n, (r.val k).NaN := by
  obtain ⟨y1, y2⟩ := fabs_is hx
  obtain ⟨y, hy⟩ : ∃ y, y = if x < d 0 1 then -x else x := ⟨_, rfl⟩
  rw [← hy] at y1 y2
  rw [← y2] at h0 h1
  have hl := micro_is.2.1.trans h0
  have hy0 : 0 < y.val := by linarith
  have hstart := startOrder_eq h2
  have hn : (19998 : ℝ) ≤ n := by linarith
  have hn' : 19998 ≤ n := by exact_mod_cast hn
  have hm : n + 1024 ≤ 2 * (n + Nat.sqrt (40 * n)) := by omega
  generalize 2 * (n + Nat.sqrt (40 * n)) = m at *
  have hf0 : 0 < 2 / y.val := by positivity
  have hf1 : 2 / y.val ≤ 10000000 := by
    rw [div_le_iff₀ hy0]
    linarith
  have hd := div_is two_is.1 y1 hy0.ne' (by rw [two_is.2]; exact dbl_top' hf0.le (by norm_num; linarith))
  rw [two_is.2] at hd
  have hn2 : (n : ℝ) ≤ 2147483648 := by
    have : n ≤ 2147483648 := by omega
    exact_mod_cast this
  have hm2 : (m : ℝ) ≤ 2147483648 := by
    have : m ≤ 2147483648 := by omega
    exact_mod_cast this
  have hfn : 40000000000 ≤ 2 / y.val * n := by
    rw [div_mul_eq_mul_div, le_div_iff₀ hy0]
    linarith
  have hfl : 2 ^ (-1022 : ℤ) ≤ 2 / y.val := by
    calc (2 : ℝ) ^ (-1022 : ℤ) ≤ 2 ^ (0 : ℤ) := two_pow_le (by norm_num)
      _ = 1 := zpow_zero _
      _ ≤ 2 / y.val := by nlinarith
  have hb := (round_rel hd (Or.inr hfl)).bounds hf0.le (by norm_num)
  have hn0 : (0 : ℝ) ≤ n := by positivity
  have hfast : Fast (d 20 1 / y) n m := by
    refine ⟨hd.1, by linarith, by nlinarith, ?_, h2, hm⟩
    calc (d 20 1 / y).val * m ≤ 20000000 * 2147483648 := mul_le_mul (by linarith) hm2 (by positivity) (by norm_num)
      _ ≤ _ := by norm_num
  obtain ⟨s, l1, l2, l3⟩ := Grow.loop hfast m le_rfl ⟨d 0 1, d 10 1, growD v (n + 1)⟩
    ⟨Or.inl ⟨zero_lit.1, zero_lit.2.ge⟩, Or.inr ⟨zero_lit.1, zero_lit.2.ge, one_is.1, by omega, by rw [one_is.2, Nat.sub_self, pow_zero]⟩, growD_len v (n + 1), fun j hj hk => by omega⟩
  have hlt : ¬ y < d 1 6 := by rw [lt_iff y1 micro_is.1, not_lt]; exact h0
  exact ⟨_, vector_run (exp := exp) (by omega) hy hlt hstart l1 (by omega), fun k hk => mul_inf_nan (div_inf (l3 0 (Nat.zero_le n))) (l3 k hk)⟩

end Verif.FunctionsFp
