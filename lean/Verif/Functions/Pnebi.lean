import Verif.Functions.Model
import Mathlib.Tactic.Linarith
import Mathlib.Tactic.NormNum
import Mathlib.Tactic.Ring
import Mathlib.Tactic.FieldSimp
import Mathlib.Tactic.Positivity

/-! Lemmas on the PNEBI functions and on the table. -/
namespace Verif.Functions
variable {K : Type} [Field K] [LinearOrder K] [IsStrictOrderedRing K] [FloorRing K]

omit [IsStrictOrderedRing K] [FloorRing K] in
theorem bind_okP {α β : Type} (x : α) (f : α → Outcome β) : (Except.ok x >>= f) = f x := rfl

omit [FloorRing K] in
theorem fabs_nonneg (x : K) : 0 ≤ fabs x := by
  unfold fabs
  split
  · linarith
  · rename_i h; exact not_lt.1 h

omit [FloorRing K] in
theorem fabs_eq {x : K} (h : 0 ≤ x) : fabs x = x := if_neg (not_lt.2 h)

/-! ### The back recursion -/

/-- The state before the iteration `k` of the back recursion. -/
structure Inv (n len : ℕ) (factor : K) (k : ℕ) (s : Seq K) : Prop where
  len : s.pnebis.len = len
  prev : 0 ≤ s.prev
  curr : 0 < s.curr
  pos : ∀ j, k < j → j ≤ n → 0 < s.pnebis.val j
  recur : ∀ j, k + 1 < j → j < n → s.pnebis.val (j - 1) = s.pnebis.val (j + 1) + factor * j * s.pnebis.val j
  nxt : k + 1 < n → s.curr = s.pnebis.val (k + 2) + factor * (k + 1 : ℕ) * s.pnebis.val (k + 1)
  prv : k + 1 ≤ n → s.prev = s.pnebis.val (k + 1)

/-- The state after the iteration `k`. -/
structure Post (n len : ℕ) (factor : K) (k : ℕ) (s : Seq K) : Prop where
  len : s.pnebis.len = len
  prev : 0 < s.prev
  curr : 0 ≤ s.curr
  currPos : 0 < k → 0 < s.curr
  pos : ∀ j, k ≤ j → j ≤ n → 0 < s.pnebis.val j
  recur : ∀ j, k < j → j < n → s.pnebis.val (j - 1) = s.pnebis.val (j + 1) + factor * j * s.pnebis.val j
  nxt : k < n → s.curr = s.pnebis.val (k + 1) + factor * k * s.pnebis.val k
  prv : k ≤ n → s.prev = s.pnebis.val k

omit [FloorRing K] in
theorem post_scale {n len k : ℕ} {factor c : K} (hc : 0 < c) {s : Seq K} (h : Post n len factor k s) :
    Post n len factor k ⟨s.prev * c, s.curr * c, scale c s.pnebis⟩ where
  len := h.len
  prev := mul_pos h.prev hc
  curr := mul_nonneg h.curr hc.le
  currPos := fun hk => mul_pos (h.currPos hk) hc
  pos := fun j h1 h2 => mul_pos hc (h.pos j h1 h2)
  recur := fun j h1 h2 => by show c * _ = c * _ + factor * j * (c * _); rw [h.recur j h1 h2]; ring
  nxt := fun h1 => by show _ * c = c * _ + factor * k * (c * _); rw [h.nxt h1]; ring
  prv := fun h1 => by show _ * c = c * _; rw [h.prv h1]; ring

omit [FloorRing K] in
theorem backStep_post {n len k : ℕ} {factor : K} (hf : 0 < factor) (hn : n < len) {s : Seq K} (h : Inv n len factor k s) :
    ∃ s', backStep n factor k s = .ok s' ∧ Post n len factor k s' := by
  have key : ∃ p, (if k ≤ n then s.pnebis.set (k : ℤ) s.curr else .ok s.pnebis) = .ok p ∧
      Post n len factor k ⟨s.curr, s.prev + factor * k * s.curr, p⟩ := by
    have hk : (0 : K) ≤ factor * k * s.curr := mul_nonneg (mul_nonneg hf.le (Nat.cast_nonneg k)) h.curr.le
    have hk' : 0 < k → 0 < s.prev + factor * k * s.curr := fun h0 => by
      have : (0 : K) < k := by exact_mod_cast h0
      have := mul_pos (mul_pos hf this) h.curr
      have := h.prev
      linarith
    by_cases hkn : k ≤ n
    · rw [if_pos hkn, s.pnebis.set_nat (by rw [h.len]; omega)]
      refine ⟨_, rfl, ⟨h.len, h.curr, add_nonneg h.prev hk, hk', fun j h1 h2 => ?_, fun j h1 h2 => ?_, fun h1 => ?_, fun h1 => ?_⟩⟩
      · show 0 < (if j = k then s.curr else s.pnebis.val j)
        split
        · exact h.curr
        · exact h.pos j (by omega) h2
      · show (if j - 1 = k then s.curr else _) = (if j + 1 = k then s.curr else _) + factor * j * (if j = k then s.curr else _)
        rw [if_neg (show ¬ j + 1 = k by omega), if_neg (show ¬ j = k by omega)]
        by_cases hj : j = k + 1
        · subst hj
          rw [if_pos (by omega)]
          exact h.nxt h2
        · rw [if_neg (by omega)]
          exact h.recur j (by omega) h2
      · show s.prev + _ = (if k + 1 = k then s.curr else _) + factor * k * (if k = k then s.curr else _)
        rw [if_neg (by omega), if_pos rfl, h.prv h1]
      · show s.curr = (if k = k then s.curr else _)
        rw [if_pos rfl]
    · rw [if_neg hkn]
      exact ⟨_, rfl, ⟨h.len, h.curr, add_nonneg h.prev hk, hk', fun j h1 h2 => by omega, fun j h1 h2 => by omega, fun h1 => by omega,
        fun h1 => by omega⟩⟩
  obtain ⟨p, hp, hpost⟩ := key
  unfold backStep
  dsimp only
  rw [hp, bind_okP]
  by_cases hb : (10000000000 : K) < s.prev + factor * k * s.curr
  · rw [if_pos hb]
    exact ⟨_, rfl, post_scale (by norm_num) hpost⟩
  · rw [if_neg hb]
    exact ⟨_, rfl, hpost⟩

omit [FloorRing K] in
theorem backLoop_post {n len : ℕ} {factor : K} (hf : 0 < factor) (hn : n < len) (k : ℕ) {s : Seq K} (h : Inv n len factor k s) :
    ∃ s', backLoop n factor k s = .ok s' ∧ Post n len factor 0 s' := by
  induction k generalizing s with
  | zero => exact backStep_post hf hn h
  | succ k ih =>
    obtain ⟨s', hs', p⟩ := backStep_post hf hn h
    rw [backLoop, hs', bind_okP]
    exact ih ⟨p.len, p.prev.le, p.currPos (by omega), fun j h1 h2 => p.pos j h1 h2, fun j h1 h2 => p.recur j h1 h2, fun h1 => p.nxt h1,
      fun h1 => p.prv h1⟩

omit [FloorRing K] in
theorem grow_len (v : Vec K) (m : ℕ) : (grow v m).len = max v.len m := by
  unfold grow
  split
  · rename_i h; rw [max_eq_right h.le]
  · rename_i h; rw [max_eq_left (not_lt.1 h)]

/-- The result of `evaluatePnebiVector`. -/
theorem pnebiVector_ok (L : Libm K) (n : ℕ) (x : K) (v : Vec K) : ∃ r, evaluatePnebiVector L n x v = .ok r ∧ r.len = max v.len (n + 1) ∧
    (fabs x < 1 / 1000000 → r.val 0 = 2 ∧ ∀ k, k ≠ 0 → r.val k = 0) ∧
    (1 / 1000000 ≤ fabs x → r.val 0 = evaluatePnebi0Polynom L (fabs x) ∧
      (∀ k, 0 < k → k < n → r.val (k - 1) = r.val (k + 1) + 2 * k / fabs x * r.val k) ∧
      (0 < evaluatePnebi0Polynom L (fabs x) → ∀ k ≤ n, 0 < r.val k)) := by
  unfold evaluatePnebiVector
  dsimp only
  have hlen := grow_len v (n + 1)
  by_cases hx : fabs x < 1 / 1000000
  · rw [if_pos hx]
    have := Vec.set_nat (⟨(grow v (n + 1)).len, fun _ => 0⟩ : Vec K) (i := 0) (by show 0 < (grow v (n + 1)).len; omega) 2
    refine ⟨_, this, hlen, fun _ => ⟨rfl, fun k hk => if_neg hk⟩, fun h => absurd hx (not_lt.2 h)⟩
  · rw [if_neg hx]
    have hx' : 0 < fabs x := lt_of_lt_of_le (by norm_num) (not_lt.1 hx)
    have hf : (0 : K) < 2 / fabs x := div_pos (by norm_num) hx'
    have hk0 : n ≤ 2 * (n + Nat.sqrt (40 * n)) := by omega
    have hK : 0 < n → n < 2 * (n + Nat.sqrt (40 * n)) := by omega
    obtain ⟨s, hs, p⟩ := backLoop_post (n := n) (len := (grow v (n + 1)).len) hf (by omega) (2 * (n + Nat.sqrt (40 * n)))
      (s := ⟨0, 1, grow v (n + 1)⟩) ⟨rfl, le_refl _, one_pos, fun j h1 h2 => by omega, fun j h1 h2 => by omega, fun h1 => by omega, fun h1 => by omega⟩
    rw [hs, bind_okP, show s.pnebis.get 0 = .ok (s.pnebis.val 0) from s.pnebis.get_nat (i := 0) (by rw [p.len]; omega), bind_okP]
    have hp0 := p.pos 0 (le_refl _) (by omega)
    refine ⟨_, rfl, by show s.pnebis.len = _; rw [p.len]; exact hlen, fun h => absurd h hx, fun _ => ⟨?_, fun k h1 h2 => ?_, fun h k hk => ?_⟩⟩
    · show _ / _ * s.pnebis.val 0 = _
      exact div_mul_cancel₀ _ hp0.ne'
    · show _ / _ * _ = _ / _ * _ + 2 * k / fabs x * (_ / _ * _)
      rw [p.recur k h1 h2]
      ring
    · exact mul_pos (div_pos h hp0) (p.pos k (by omega) hk)

/-! ### The table -/

/-- A point of the table for the order `n`. -/
def IsPoint (L : Libm K) (n : ℕ) (p : Point K) : Prop := Point.new L n p.x = .ok p ∧ p.y.len = n + 1

theorem point_new (L : Libm K) (n : ℕ) (x : K) : ∃ p, Point.new L n x = .ok p ∧ p.x = x ∧ IsPoint L n p := by
  obtain ⟨r, hr, hl, -⟩ := pnebiVector_ok L n x ⟨n + 1, fun _ => 0⟩
  have e : Point.new L n x = .ok ⟨x, r⟩ := by unfold Point.new; rw [hr]; rfl
  exact ⟨_, e, rfl, e, by rw [hl]; exact max_self _⟩

omit [FloorRing K] in
theorem derivMax_neg : (derivMax : K) < 0 := by
  unfold derivMax
  have : (0 : K) < 1 / 2 ^ 1022 := by positivity
  linarith

theorem lutLoop_ok (L : Libm K) {n : ℕ} (hn : 1 ≤ n) {tol : K} (ht : 0 < tol) (m : ℕ) (x deriv y0 : K) (hd : deriv < 0) :
    ∃ r, lutLoop L n tol m x deriv y0 = .ok r ∧ r.length = m ∧ (∀ p ∈ r, x < p.x ∧ IsPoint L n p) ∧ r.Pairwise (fun p q => p.x < q.x) := by
  induction m generalizing x deriv y0 with
  | zero => exact ⟨[], rfl, rfl, by simp, List.Pairwise.nil⟩
  | succ m ih =>
    obtain ⟨p, hp, hpx, hpp⟩ := point_new L n (x - tol / deriv)
    have h0 : p.y.get 0 = .ok (p.y.val 0) := p.y.get_nat (i := 0) (by rw [hpp.2]; omega)
    have h1 : p.y.get 1 = .ok (p.y.val 1) := p.y.get_nat (i := 1) (by rw [hpp.2]; omega)
    obtain ⟨r, hr, hl, hm, hs⟩ := ih (x - tol / deriv) (min (max (p.y.val 1 - p.y.val 0) (deriv * (y0 - p.y.val 0) / tol)) derivMax) (p.y.val 0)
      (lt_of_le_of_lt (min_le_right _ _) derivMax_neg)
    have hx : x < x - tol / deriv := by
      have := div_neg_of_pos_of_neg ht hd
      linarith
    refine ⟨p :: r, ?_, by simp [hl], ?_, ?_⟩
    · rw [lutLoop]
      dsimp only
      rw [hp, bind_okP, h0, bind_okP]
      (try dsimp only)
      rw [h1, bind_okP]
      (try dsimp only)
      rw [hr]
      rfl
    · intro q hq
      rcases List.mem_cons.1 hq with rfl | hq
      · exact ⟨by rw [hpx]; exact hx, hpp⟩
      · exact ⟨lt_trans hx (hm q hq).1, (hm q hq).2⟩
    · exact List.pairwise_cons.2 ⟨fun q hq => by rw [hpx]; exact (hm q hq).1, hs⟩

/-- The table made by `init`. -/
theorem init_ok (L : Libm K) {n : ℕ} (hn : 1 ≤ n) {tol : K} (ht : 0 < tol) (h : ⌈2 / tol⌉ + 20 ≤ 2147483647) :
    ∃ (l : Lut K) (p : Point K) (r : List (Point K)), Lut.init L n tol = .ok l ∧ l.orderMax = n ∧ l.lut = p :: r ∧ p.x = 0 ∧
      ((p :: r).length : ℤ) = ⌈2 / tol⌉ + 20 ∧ (∀ q ∈ p :: r, IsPoint L n q) ∧ (p :: r).Pairwise (fun p q => p.x < q.x) := by
  have hc : 0 ≤ ⌈2 / tol⌉ := Int.ceil_nonneg (div_pos (by norm_num) ht).le
  obtain ⟨p, hp, hpx, hpp⟩ := point_new L n 0
  have h0 : p.y.get 0 = .ok (p.y.val 0) := p.y.get_nat (i := 0) (by rw [hpp.2]; omega)
  have h1 : p.y.get 1 = .ok (p.y.val 1) := p.y.get_nat (i := 1) (by rw [hpp.2]; omega)
  have hv : p.y.val 0 = 2 ∧ p.y.val 1 = 0 := by
    obtain ⟨r, hr, -, hv, -⟩ := pnebiVector_ok L n 0 ⟨n + 1, fun _ => 0⟩
    have e : Point.new L n 0 = .ok ⟨0, r⟩ := by unfold Point.new; rw [hr]; rfl
    rw [e] at hp
    have := Except.ok.inj hp
    subst this
    have hv := hv (by rw [fabs_eq (le_refl _)]; norm_num)
    exact ⟨hv.1, hv.2 1 one_ne_zero⟩
  obtain ⟨r, hr, hl, hm, hs⟩ := lutLoop_ok L hn ht (⌈2 / tol⌉ + 20 - 1).toNat 0 (p.y.val 1 - p.y.val 0) (p.y.val 0)
    (by rw [hv.1, hv.2]; norm_num)
  have i1 : Cxx.int ⌈2 / tol⌉ = .ok ⌈2 / tol⌉ := if_pos (by omega)
  have i2 : Cxx.int (⌈2 / tol⌉ + 20) = .ok (⌈2 / tol⌉ + 20) := if_pos (by omega)
  refine ⟨⟨p :: r, n⟩, p, r, ?_, rfl, rfl, hpx, ?_, ?_, ?_⟩
  · unfold Lut.init
    rw [if_neg ht.ne', i1, bind_okP, i2, bind_okP, hp, bind_okP, h1, bind_okP, h0, bind_okP]
    dsimp only
    rw [hr]
    rfl
  · rw [List.length_cons, hl]; omega
  · intro q hq
    rcases List.mem_cons.1 hq with rfl | hq
    · exact hpp
    · exact (hm q hq).2
  · exact List.pairwise_cons.2 ⟨fun q hq => by rw [hpx]; exact (hm q hq).1, hs⟩

omit [FloorRing K] in
/-- The bracket of a number that is not before the first point of a sorted table. -/
theorem bracket_ok {lut : List (Point K)} (hs : lut.Pairwise fun p q => p.x < q.x) {x : K} (hne : ∃ h : 0 < lut.length, lut[0].x ≤ x) :
    ∃ (i : ℕ) (hi : i < lut.length), bracket lut x = .ok (lut[i], lut[i + 1]?) ∧ lut[i].x ≤ x ∧
      ∀ (h : i + 1 < lut.length), x < lut[i + 1].x := by
  obtain ⟨hpos, h0⟩ := hne
  have hle : upperBound lut x ≤ lut.length := List.findIdx_le_length
  have hlt : ∀ j (hj : j < upperBound lut x), lut[j].x ≤ x := fun j hj => by
    have := List.not_of_lt_findIdx hj
    simpa using this
  have hge : ∀ (h : upperBound lut x < lut.length), x < lut[upperBound lut x].x := fun h => by
    have := List.findIdx_getElem (w := h)
    simp only [decide_eq_true_eq] at this
    exact this
  have hu : upperBound lut x ≠ 0 := fun he => by
    have := hge (by omega)
    simp only [he] at this
    exact absurd h0 (not_le.2 this)
  obtain ⟨i, hi⟩ := Nat.exists_eq_succ_of_ne_zero hu
  refine ⟨i, by omega, ?_, hlt i (by omega), fun h => ?_⟩
  · unfold bracket
    rw [hi]
    dsimp only
    rw [List.getElem?_eq_getElem (by omega)]
  · have := hge (by omega)
    simpa only [hi] using this

end Verif.Functions
