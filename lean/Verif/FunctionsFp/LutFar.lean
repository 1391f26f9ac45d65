import Verif.FunctionsFp.LutPoint

/-! `evaluatePnebiVector` in `double` arithmetic for arguments above 2^400: the back recursion alternates between 1 and tiny numbers. -/
namespace Verif.FunctionsFp
open Verif Ieee Fp Float.Model

/-- Tiny numbers are absorbed by 1. -/
theorem absorb {a : Dbl} {t : ℝ} (h : a.Is (1 + t)) (h0 : 0 ≤ t) (h1 : t ≤ 2 ^ (-300 : ℤ)) : a.val = 1 := by
  have hs : (2 : ℝ) ^ (-300 : ℤ) ≤ 1 / 2 ^ 55 := by
    calc (2 : ℝ) ^ (-300 : ℤ) ≤ 2 ^ (-55 : ℤ) := two_pow_le (by norm_num)
      _ = _ := by norm_num
  have hge := h.2.mono_ge (grid_two_pow (spec := .binary64) (k := 0) (by decide)) (by rw [zpow_zero]; linarith)
  rw [zpow_zero] at hge
  have hge' : 1 ≤ a.val := hge
  have hle : a.val < 1 + 1 / 2 ^ 53 := by
    rcases h.2.rel with h2 | h2
    · have h3 : a.val ≤ 1 + 1 / 2 ^ 52 := by
        have := h.2.mono_le (z := 1 + 1 / 2 ^ 52) ⟨2 ^ 52 + 1, -52, by rw [mb.1]; norm_num, by decide, by norm_num⟩ (by linarith [show (1 : ℝ) / 2 ^ 55 ≤ 1 / 2 ^ 52 by norm_num])
        exact this
      by_contra hc
      have h4 := h.2.nearest Fmt.good (grid_two_pow (spec := .binary64) (k := 0) (by decide))
      rw [zpow_zero] at h4
      have h5 : |a.val - (1 + t)| ≤ |1 - (1 + t)| := h4
      rw [show 1 - (1 + t) = -t by ring, abs_neg, abs_of_nonneg h0] at h5
      have h6 := (abs_le.1 h5).2
      have h7 := h1.trans hs
      norm_num at hc h6 h7
      linarith
    · have h3 : |a.val - (1 + t)| ≤ 2 ^ (Format.binary64.minExponent - 1) := h2
      have h4 : (2 : ℝ) ^ (Format.binary64.minExponent - 1) ≤ 2 ^ (-60 : ℤ) := two_pow_le (by decide)
      have h6 := (abs_le.1 h3).2
      generalize (2 : ℝ) ^ (Format.binary64.minExponent - 1) = w at *
      have h7 := h1.trans hs
      norm_num at h4 h7 ⊢
      linarith
  obtain ⟨q, u, hq, hu, e⟩ := a.grid
  rw [mb.1] at hq
  have hp := two_pow_pos u
  have hu1 : -53 ≤ u := by
    by_contra hc
    have h2 : (2 : ℝ) ^ u ≤ 2 ^ (-54 : ℤ) := two_pow_le (by omega)
    have h3 : a.val ≤ 2 ^ (53 : ℤ) * 2 ^ (-54 : ℤ) := by
      rw [e]
      exact mul_le_mul ((le_abs_self _).trans hq) h2 hp.le (two_pow_pos _).le
    rw [← two_pow_add] at h3
    norm_num at h3
    linarith
  have key : a.val * 2 ^ 53 = ((q * 2 ^ (u + 53).toNat : ℤ) : ℝ) := by
    rw [e]
    push_cast
    rw [mul_assoc]
    congr 1
    rw [← zpow_natCast, ← zpow_natCast, Int.toNat_of_nonneg (by omega), ← two_pow_add]
    norm_num
  generalize (q * 2 ^ (u + 53).toNat : ℤ) = z at key
  have z1 : (2 ^ 53 : ℝ) ≤ z := by
    rw [← key]
    norm_num
    linarith
  have z2 : (z : ℝ) < 2 ^ 53 + 1 := by
    rw [← key]
    norm_num at hle ⊢
    linarith
  have z3 : z = 2 ^ 53 := by
    have a1 : (2 ^ 53 : ℤ) ≤ z := by exact_mod_cast z1
    have a2 : z < 2 ^ 53 + 1 := by exact_mod_cast z2
    omega
  rw [z3] at key
  push_cast at key
  norm_num at key
  linarith

/-- A nonnegative number up to `i` units of 2^-360. -/
def Tiny (i : ℕ) (a : Dbl) : Prop := a.Fin ∧ 0 ≤ a.val ∧ a.val ≤ i * 2 ^ (-360 : ℤ)

theorem unit_grid {i : ℕ} (h : i ≤ 2000) : Grid .binary64 ((i : ℝ) * 2 ^ (-360 : ℤ)) := by
  refine ⟨i, -360, ?_, by decide, by norm_num⟩
  have : (i : ℝ) ≤ 2000 := by exact_mod_cast h
  rw [mb.1, Int.cast_natCast, abs_of_nonneg (Nat.cast_nonneg i)]
  exact this.trans (by norm_num)

theorem unit_le {i : ℕ} (h : i ≤ 2000) : (i : ℝ) * 2 ^ (-360 : ℤ) ≤ 2 ^ (-340 : ℤ) := by
  have : (i : ℝ) ≤ 2 ^ (20 : ℤ) := le_trans (by exact_mod_cast h) (by norm_num : (2000 : ℝ) ≤ 2 ^ (20 : ℤ))
  calc (i : ℝ) * 2 ^ (-360 : ℤ) ≤ 2 ^ (20 : ℤ) * 2 ^ (-360 : ℤ) := mul_le_mul_of_nonneg_right this (two_pow_pos _).le
    _ = _ := by rw [← two_pow_add]; norm_num

theorem small_top {v : ℝ} (h0 : 0 ≤ v) (h : v ≤ 2) : |v| ≤ 2 ^ top Format.binary64 := dbl_top' h0 (h.trans (by norm_num))

/-- The factor of one step. -/
theorem far_prod {F : Dbl} (hF : F.Fin) (h0 : 0 ≤ F.val) (h1 : F.val ≤ 2 ^ (-380 : ℤ)) {k : ℕ} (hk : k ≤ 2000) :
    (F * (k : Dbl)).Fin ∧ 0 ≤ (F * (k : Dbl)).val ∧ (F * (k : Dbl)).val ≤ 2 ^ (-360 : ℤ) := by
  have hn := nat_is (k := k) (by omega)
  have hk' : (k : ℝ) ≤ 2 ^ (20 : ℤ) := le_trans (by exact_mod_cast hk) (by norm_num : (2000 : ℝ) ≤ 2 ^ (20 : ℤ))
  have a0 : 0 ≤ F.val * (k : Dbl).val := by rw [hn.2]; positivity
  have a1 : F.val * (k : Dbl).val ≤ 2 ^ (-360 : ℤ) := by
    rw [hn.2]
    calc F.val * k ≤ 2 ^ (-380 : ℤ) * 2 ^ (20 : ℤ) := mul_le_mul h1 hk' (Nat.cast_nonneg k) (two_pow_pos _).le
      _ = _ := by rw [← two_pow_add]; norm_num
  have a2 : (2 : ℝ) ^ (-360 : ℤ) ≤ 2 ^ (0 : ℤ) := two_pow_le (by norm_num)
  rw [zpow_zero] at a2
  have h := mul_is hF hn.1 (small_top a0 (by linarith))
  exact ⟨h.1, h.2.mono_ge grid_zero a0, h.2.mono_le (grid_two_pow (by decide)) a1⟩

/-- The state before the iteration `k`: the numbers stored so far are 1 for even orders, tiny for odd ones. -/
structure Far (n m len k : ℕ) (s : Functions.Seq Dbl) : Prop where
  len : s.pnebis.len = len
  even : k % 2 = 0 → s.curr.Fin ∧ s.curr.val = 1 ∧ Tiny (m - k) s.prev
  odd : k % 2 = 1 → s.prev.Fin ∧ s.prev.val = 1 ∧ Tiny (m - k) s.curr
  stored : ∀ j ≤ n, k < j → j ≤ m → (j % 2 = 0 → (s.pnebis.val j).Fin ∧ (s.pnebis.val j).val = 1) ∧ (j % 2 = 1 → Tiny 2000 (s.pnebis.val j))

theorem Tiny.mono {i j : ℕ} {a : Dbl} (h : Tiny i a) (hij : i ≤ j) : Tiny j a :=
  ⟨h.1, h.2.1, h.2.2.trans (mul_le_mul_of_nonneg_right (by exact_mod_cast hij) (two_pow_pos _).le)⟩

theorem pow360 : (2 : ℝ) ^ (-360 : ℤ) ≤ 1 / 4 ∧ (2 : ℝ) ^ (-340 : ℤ) ≤ 1 / 4 := by
  constructor
  · calc (2 : ℝ) ^ (-360 : ℤ) ≤ 2 ^ (-2 : ℤ) := two_pow_le (by norm_num)
      _ = _ := by norm_num
  · calc (2 : ℝ) ^ (-340 : ℤ) ≤ 2 ^ (-2 : ℤ) := two_pow_le (by norm_num)
      _ = _ := by norm_num

/-- The new number. -/
theorem Far.next {F : Dbl} (hF : F.Fin) (h0 : 0 ≤ F.val) (h1 : F.val ≤ 2 ^ (-380 : ℤ)) {n m len k : ℕ} (hm : m ≤ 1990) (hk : k ≤ m) {s : Functions.Seq Dbl} (G : Far n m len k s) :
    (k % 2 = 0 → Tiny (m - k + 1) (s.prev + F * (k : Dbl) * s.curr)) ∧
    (k % 2 = 1 → (s.prev + F * (k : Dbl) * s.curr).Fin ∧ (s.prev + F * (k : Dbl) * s.curr).val = 1) := by
  obtain ⟨f1, f2, f3⟩ := far_prod hF h0 h1 (k := k) (by omega)
  generalize F * (k : Dbl) = g at *
  obtain ⟨q1, q2⟩ := pow360
  constructor
  · intro he
    obtain ⟨c1, c2, p1, p2, p3⟩ := G.even he
    have a := mul_is f1 c1 (small_top (by rw [c2, mul_one]; exact f2) (by rw [c2]; linarith))
    rw [c2, mul_one] at a
    have a1 : (g * s.curr).val = g.val := a.2.exact g.grid
    have hu := unit_le (i := m - k) (by omega)
    have s0 : 0 ≤ s.prev.val + (g * s.curr).val := by rw [a1]; linarith
    have b := add_is p1 a.1 (small_top s0 (by rw [a1]; linarith))
    refine ⟨b.1, b.2.mono_ge grid_zero s0, b.2.mono_le (unit_grid (by omega)) ?_⟩
    rw [a1]
    push_cast
    linarith
  · intro ho
    obtain ⟨p1, p2, c1, c2, c3⟩ := G.odd ho
    have hu := unit_le (i := m - k) (by omega)
    have z0 : 0 ≤ g.val * s.curr.val := mul_nonneg f2 c2
    have z1 : g.val * s.curr.val ≤ 2 ^ (-340 : ℤ) := by
      have : g.val * s.curr.val ≤ 1 * s.curr.val := mul_le_mul_of_nonneg_right (by linarith) c2
      linarith
    have a := mul_is f1 c1 (small_top z0 (by linarith))
    have a0 : 0 ≤ (g * s.curr).val := a.2.mono_ge grid_zero z0
    have a1 : (g * s.curr).val ≤ 2 ^ (-340 : ℤ) := a.2.mono_le (grid_two_pow (by decide)) z1
    have b := add_is p1 a.1 (small_top (by rw [p2]; linarith) (by rw [p2]; linarith))
    rw [p2] at b
    exact ⟨b.1, absorb b a0 (a1.trans (two_pow_le (by norm_num)))⟩

/-- One iteration. -/
theorem Far.step {F : Dbl} (hF : F.Fin) (h0 : 0 ≤ F.val) (h1 : F.val ≤ 2 ^ (-380 : ℤ)) {n m len k : ℕ} (hm : m ≤ 1990) (hk : k ≤ m) (hlen : n < len) {s : Functions.Seq Dbl} (G : Far n m len k s) :
    backStep n F k s = .ok ⟨s.curr, s.prev + F * (k : Dbl) * s.curr, if k ≤ n then ⟨len, fun j => if j = k then s.curr else s.pnebis.val j⟩ else s.pnebis⟩ := by
  obtain ⟨e, o⟩ := G.next hF h0 h1 hm hk
  have hb : ¬ bigNum < s.prev + F * (k : Dbl) * s.curr := by
    rcases Nat.mod_two_eq_zero_or_one k with h | h
    · obtain ⟨t1, t2, t3⟩ := e h
      have := unit_le (i := m - k + 1) (by omega)
      have := pow360.2
      rw [lt_iff big_is.1 t1, big_is.2]
      linarith
    · obtain ⟨t1, t2⟩ := o h
      rw [lt_iff big_is.1 t1, big_is.2, t2]
      norm_num
  unfold backStep
  dsimp only
  split_ifs with h
  · rw [Vec.set_nat _ (by rw [G.len]; omega), G.len]
    rfl
  · rfl

theorem Far.after {F : Dbl} (hF : F.Fin) (h0 : 0 ≤ F.val) (h1 : F.val ≤ 2 ^ (-380 : ℤ)) {n m len k : ℕ} (hm : m ≤ 1990) (hk : k ≤ m) {s : Functions.Seq Dbl} (G : Far n m len k s) :
    let t := (if k ≤ n then ⟨len, fun j => if j = k then s.curr else s.pnebis.val j⟩ else s.pnebis : Vec Dbl)
    t.len = len ∧ ∀ j ≤ n, k ≤ j → j ≤ m → (j % 2 = 0 → (t.val j).Fin ∧ (t.val j).val = 1) ∧ (j % 2 = 1 → Tiny 2000 (t.val j)) := by
  dsimp only
  refine ⟨by split_ifs; exacts [rfl, G.len], fun j hj hkj hjm => ?_⟩
  rcases Nat.eq_or_lt_of_le hkj with rfl | hlt
  · simp only [if_pos hj, if_true]
    exact ⟨fun h => ⟨(G.even h).1, (G.even h).2.1⟩, fun h => (G.odd h).2.2.mono (by omega)⟩
  · have := G.stored j hj hlt hjm
    split_ifs with h
    · simp only [if_neg hlt.ne']
      exact this
    · exact this

theorem Far.loop {F : Dbl} (hF : F.Fin) (h0 : 0 ≤ F.val) (h1 : F.val ≤ 2 ^ (-380 : ℤ)) {n m len : ℕ} (hm : m ≤ 1990) (hlen : n < len) : ∀ k ≤ m, ∀ s : Functions.Seq Dbl, Far n m len k s →
    ∃ s', backLoop n F k s = .ok s' ∧ s'.pnebis.len = len ∧
      ∀ j ≤ n, j ≤ m → (j % 2 = 0 → (s'.pnebis.val j).Fin ∧ (s'.pnebis.val j).val = 1) ∧ (j % 2 = 1 → Tiny 2000 (s'.pnebis.val j))
  | 0, hk, s, G => by
    have := G.after hF h0 h1 hm hk
    exact ⟨_, G.step hF h0 h1 hm hk hlen, this.1, fun j hj hjm => this.2 j hj (Nat.zero_le _) hjm⟩
  | k + 1, hk, s, G => by
    obtain ⟨e, o⟩ := G.next hF h0 h1 hm hk
    have ha := G.after hF h0 h1 hm hk
    rw [backLoop, G.step hF h0 h1 hm hk hlen]
    refine Far.loop hF h0 h1 hm hlen k (by omega) _ ⟨ha.1, fun h => ?_, fun h => ?_, fun j hj hlt hjm => ha.2 j hj hlt hjm⟩
    · obtain ⟨t1, t2⟩ := o (by omega)
      exact ⟨t1, t2, (G.odd (by omega)).2.2.mono (by omega)⟩
    · have := e (by omega)
      exact ⟨(G.even (by omega)).1, (G.even (by omega)).2.1, this.mono (by omega)⟩

/-- The values for arguments from 2^390 on. -/
theorem vector_far {exp : Dbl → Dbl} {n : ℕ} (hn : n ≤ 290) {x : Dbl} (hx : x.Fin) (h : 2 ^ (390 : ℤ) ≤ x.val) {P : Dbl} (hP : P = evaluatePnebi0Polynom exp x) (hPf : P.Fin)
    (hP0 : 0 ≤ P.val) (hP1 : P.val ≤ 4) (v : Vec Dbl) :
    ∃ r, evaluatePnebiVector exp n x v = .ok r ∧ (r.val 0).Fin ∧ (r.val 0).val = P.val ∧
      ∀ k ≤ n, (r.val k).Fin ∧ 0 ≤ (r.val k).val ∧ (r.val k).val ≤ P.val ∧ (k % 2 = 1 → (r.val k).val ≤ 1 / 1000 * P.val + 2 ^ (-1075 : ℤ)) := by
  have hx1 : 1 ≤ x.val := le_trans (by rw [← zpow_zero (2 : ℝ)]; exact two_pow_le (by norm_num)) h
  have hxp : 0 < x.val := one_pos.trans_le hx1
  have hxn : ¬ x < d 0 1 := by rw [lt_iff hx zero_lit.1, zero_lit.2]; exact not_lt.2 hxp.le
  have hlt : ¬ x < d 1 6 := by rw [lt_iff hx micro_is.1, not_lt]; exact micro_is.2.2.trans (le_trans (by norm_num) hx1)
  have f0 : 0 ≤ 2 / x.val := by positivity
  have f1 : 2 / x.val ≤ 2 ^ (-380 : ℤ) := by
    rw [div_le_iff₀ hxp]
    calc (2 : ℝ) ≤ 2 ^ (-380 + 390 : ℤ) := by norm_num
      _ = 2 ^ (-380 : ℤ) * 2 ^ (390 : ℤ) := two_pow_add _ _
      _ ≤ _ := mul_le_mul_of_nonneg_left h (two_pow_pos _).le
  have hF := div_is two_is.1 hx hxp.ne' (by
    rw [two_is.2]
    refine small_top f0 (f1.trans ?_)
    calc (2 : ℝ) ^ (-380 : ℤ) ≤ 2 ^ (1 : ℤ) := two_pow_le (by norm_num)
      _ = 2 := by norm_num)
  rw [two_is.2] at hF
  have F0 : 0 ≤ (d 20 1 / x).val := hF.2.mono_ge grid_zero f0
  have F1 : (d 20 1 / x).val ≤ 2 ^ (-380 : ℤ) := hF.2.mono_le (grid_two_pow (by decide)) f1
  have hsq : Nat.sqrt (40 * n) ≤ 107 := (Nat.sqrt_le_sqrt (show 40 * n ≤ 11600 by omega)).trans (by decide +kernel)
  have hm := startOrder_eq (n := n) (by omega)
  have hnm : n ≤ 2 * (n + Nat.sqrt (40 * n)) := by omega
  have hmm : 2 * (n + Nat.sqrt (40 * n)) ≤ 1990 := by omega
  have hev : 2 * (n + Nat.sqrt (40 * n)) % 2 = 0 := by omega
  generalize 2 * (n + Nat.sqrt (40 * n)) = m at *
  have hlen := growD_len v (n + 1)
  obtain ⟨s, hs, hl, hv⟩ := Far.loop hF.1 F0 F1 hmm (len := (growD v (n + 1)).len) (n := n) hlen m le_rfl ⟨d 0 1, d 10 1, growD v (n + 1)⟩
    ⟨rfl, fun _ => ⟨one_is.1, one_is.2, zero_lit.1, by rw [zero_lit.2], by rw [zero_lit.2]; simp⟩, fun h => by omega, fun j _ _ _ => by omega⟩
  have hrun := vector_run (exp := exp) (x := x) (by omega) (if_neg hxn).symm hlt hm hs (by rw [hl]; omega)
  rw [← hP] at hrun
  obtain ⟨p1, p2⟩ := (hv 0 (by omega) (by omega)).1 rfl
  have hPt : |P.val| ≤ 2 ^ top Format.binary64 := dbl_top' hP0 (hP1.trans (by norm_num))
  have q := div_is hPf p1 (by rw [p2]; norm_num) (by rw [p2, div_one]; exact hPt)
  rw [p2, div_one] at q
  have q1 : (P / s.pnebis.val 0).val = P.val := q.2.exact P.grid
  refine ⟨_, hrun, ?_⟩
  have key : ∀ k ≤ n, (P / s.pnebis.val 0 * s.pnebis.val k).Fin ∧ 0 ≤ (P / s.pnebis.val 0 * s.pnebis.val k).val ∧ (P / s.pnebis.val 0 * s.pnebis.val k).val ≤ P.val ∧
      (k % 2 = 1 → (P / s.pnebis.val 0 * s.pnebis.val k).val ≤ 1 / 1000 * P.val + 2 ^ (-1075 : ℤ)) ∧ (k % 2 = 0 → (P / s.pnebis.val 0 * s.pnebis.val k).val = P.val) := by
    intro k hk
    obtain ⟨he, ho⟩ := hv k hk (by omega)
    rcases Nat.mod_two_eq_zero_or_one k with h2 | h2
    · obtain ⟨w1, w2⟩ := he h2
      have z := mul_is q.1 w1 (by rw [w2, mul_one, q1]; exact hPt)
      rw [w2, mul_one, q1] at z
      have z1 : (P / s.pnebis.val 0 * s.pnebis.val k).val = P.val := z.2.exact P.grid
      exact ⟨z.1, by rw [z1]; exact hP0, z1.le, fun h => by omega, fun _ => z1⟩
    · obtain ⟨w1, w2, w3⟩ := ho h2
      have hu : (s.pnebis.val k).val ≤ 1 / 2000 := by
        refine w3.trans ((unit_le le_rfl).trans ?_)
        calc (2 : ℝ) ^ (-340 : ℤ) ≤ 2 ^ (-12 : ℤ) := two_pow_le (by norm_num)
          _ ≤ _ := by norm_num
      have z0 : 0 ≤ P.val * (s.pnebis.val k).val := mul_nonneg hP0 w2
      have z1 : P.val * (s.pnebis.val k).val ≤ P.val * (1 / 2000) := mul_le_mul_of_nonneg_left hu hP0
      have z := mul_is q.1 w1 (by rw [q1]; exact dbl_top' z0 (by linarith))
      rw [q1] at z
      have zn := (round_near z z0).2
      have zz := ulp_lt
      refine ⟨z.1, z.2.mono_ge grid_zero z0, z.2.mono_le P.grid (by linarith), fun _ => ?_, fun h => by omega⟩
      have : P.val * (s.pnebis.val k).val * (1 + ulp) ≤ P.val * (1 / 2000) * (1 + 1) := mul_le_mul z1 (by linarith) (by linarith [ulp_pos]) (by linarith)
      generalize (2 : ℝ) ^ (-1075 : ℤ) = w at *
      linarith
  have k0 := key 0 (Nat.zero_le n)
  exact ⟨k0.1, k0.2.2.2.2 rfl, fun k hk => ⟨(key k hk).1, (key k hk).2.1, (key k hk).2.2.1, (key k hk).2.2.2.1⟩⟩

end Verif.FunctionsFp
