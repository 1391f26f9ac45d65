import Verif.Functions.OrderModel
import Verif.Functions.PnebiProps

/-! Property theorems C127 (see properties.jsonl): the orders accepted by evaluatePnebiVector and by the look-up table. -/
namespace Verif.Functions
open Verif
variable {K : Type} [Field K] [LinearOrder K] [IsStrictOrderedRing K] [FloorRing K]

/-- C127, full statement: for every order of type `int`, every abscissa and every vector, the call either stores the values of the orders up to `n` or reports the
wrong order by an exception; it never has undefined behaviour. -/
def C127_statement (L : Libm K) : Prop := ∀ (n : ℤ) (x : K) (v : Vec K), -2147483648 ≤ n → n ≤ 2147483647 → v.len ≤ maxDoubles →
  (∃ r, pnebiVectorInt L n x v = .ok r ∧ n + 1 ≤ (r.len : ℤ)) ∨ pnebiVectorInt L n x v = .error .throw

omit [Field K] [LinearOrder K] [IsStrictOrderedRing K] [FloorRing K] in
theorem int_ok {z : ℤ} (h1 : -2147483648 ≤ z) (h2 : z ≤ 2147483647) : Cxx.int z = .ok z := if_pos ⟨h1, h2⟩

omit [Field K] [LinearOrder K] [IsStrictOrderedRing K] [FloorRing K] in
theorem int_big {z : ℤ} (h : 2147483647 < z) : Cxx.int z = .error (.ub .overflow) := if_neg fun h' => absurd h'.2 (not_le.2 h)

theorem toSize_small {z : ℤ} (h0 : 0 ≤ z) (h1 : z ≤ 2147483647) : Cxx.toSize z = z.toNat := by
  unfold Cxx.toSize
  rw [Int.emod_eq_of_lt h0 (by omega)]

theorem toSize_neg {z : ℤ} (h0 : z < 0) (h1 : -2147483648 ≤ z) : maxDoubles < Cxx.toSize z := by
  unfold Cxx.toSize maxDoubles
  omega

/-- The integer square root of `40 n` around the largest usable order. -/
theorem sqrt_small {n : ℕ} (h : n ≤ 1073534600) : Nat.sqrt (40 * n) ≤ 207223 := by
  have : Nat.sqrt (40 * n) < 207224 := Nat.sqrt_lt.2 (by omega)
  omega

theorem sqrt_large {n : ℕ} (h : 1073534600 < n) : 207223 ≤ Nat.sqrt (40 * n) := Nat.le_sqrt.2 (by omega)

theorem sqrt_int {n : ℕ} (h : n ≤ 2147483647) : Nat.sqrt (40 * n) ≤ 2147483647 := by
  have : Nat.sqrt (40 * n) < 2147483647 + 1 := Nat.sqrt_lt.2 (by omega)
  omega

theorem castSqrt40_ok {n : ℤ} (h0 : 0 ≤ n) (h1 : n ≤ 2147483647) : castSqrt40 n = .ok (Nat.sqrt (40 * n.toNat) : ℤ) := by
  have := sqrt_int (n := n.toNat) (by omega)
  unfold castSqrt40
  rw [if_neg (by omega)]
  exact int_ok (by omega) (by omega)

omit [LinearOrder K] [IsStrictOrderedRing K] [FloorRing K] in
theorem growInt_ok (v : Vec K) {m : ℤ} (h0 : 0 ≤ m) (h1 : m ≤ 2147483647) : growInt v m = .ok (grow v m.toNat) := by
  unfold growInt
  have h := toSize_small h0 h1
  have : ¬(v.len < Cxx.toSize m ∧ maxDoubles < Cxx.toSize m) := by
    rw [h]; unfold maxDoubles; omega
  rw [if_neg this, h]

/-- C127, all orders. An order below -1 throws (the vector is to be resized to 2^64 minus a few elements); the order -1 writes `pnebis[0]` of a possibly empty vector, or
converts the square root of a negative number; the largest `int` overflows; for an abscissa not near 0 the orders above 1073534600 overflow; in all other cases the result is the
one of Verif/Functions/Model.lean. -/
theorem C127_orders (L : Libm K) (n : ℤ) (x : K) (v : Vec K) (h1 : -2147483648 ≤ n) (h2 : n ≤ 2147483647) (hv : v.len ≤ maxDoubles) :
    (n < -1 → pnebiVectorInt L n x v = .error .throw) ∧
    (n = -1 → fabs x < 1 / 1000000 → v.len = 0 → pnebiVectorInt L n x v = .error (.ub .outOfBounds)) ∧
    (n = -1 → fabs x < 1 / 1000000 → 0 < v.len →
      ∃ r, pnebiVectorInt L n x v = .ok r ∧ r.len = v.len ∧ r.val 0 = 2 ∧ ∀ k, k ≠ 0 → r.val k = 0) ∧
    (n = -1 → 1 / 1000000 ≤ fabs x → pnebiVectorInt L n x v = .error (.ub .overflow)) ∧
    (n = 2147483647 → pnebiVectorInt L n x v = .error (.ub .overflow)) ∧
    (1073534600 < n → 1 / 1000000 ≤ fabs x → pnebiVectorInt L n x v = .error (.ub .overflow)) ∧
    (0 ≤ n → n < 2147483647 → (n ≤ 1073534600 ∨ fabs x < 1 / 1000000) → pnebiVectorInt L n x v = evaluatePnebiVector L n.toNat x v) := by
  refine ⟨fun hn => ?_, fun hn hx hl => ?_, fun hn hx hl => ?_, fun hn hx => ?_, fun hn => ?_, fun hn hx => ?_, fun h0 hn hx => ?_⟩
  · unfold pnebiVectorInt
    rw [int_ok (by omega) (by omega), bind_okP]
    have h := toSize_neg (z := n + 1) (by omega) (by omega)
    have : growInt v (n + 1) = .error .throw := if_pos ⟨by omega, h⟩
    rw [this]; rfl
  · subst hn
    unfold pnebiVectorInt
    rw [int_ok (by omega) (by omega), bind_okP, growInt_ok v (by omega) (by omega), bind_okP]
    dsimp only
    rw [if_pos hx]
    have : (grow v 0).len = 0 := by rw [grow_len]; omega
    show Vec.set ⟨(grow v 0).len, _⟩ 0 2 = _
    rw [this]
    rfl
  · subst hn
    unfold pnebiVectorInt
    rw [int_ok (by omega) (by omega), bind_okP, growInt_ok v (by omega) (by omega), bind_okP]
    dsimp only
    rw [if_pos hx]
    have hg : (grow v 0).len = v.len := by rw [grow_len]; omega
    show ∃ r, Vec.set ⟨(grow v 0).len, _⟩ 0 2 = _ ∧ _
    rw [hg]
    exact ⟨_, Vec.set_nat (⟨v.len, fun _ => 0⟩ : Vec K) (i := 0) hl 2, rfl, rfl, fun k hk => if_neg hk⟩
  · subst hn
    unfold pnebiVectorInt
    rw [int_ok (by omega) (by omega), bind_okP, growInt_ok v (by omega) (by omega), bind_okP]
    dsimp only
    rw [if_neg (not_lt.2 hx)]
    rfl
  · subst hn
    unfold pnebiVectorInt
    rw [int_big (by omega)]; rfl
  · unfold pnebiVectorInt
    by_cases hm : n = 2147483647
    · rw [int_big (by omega)]; rfl
    have hs := sqrt_large (n := n.toNat) (by omega)
    rw [int_ok (by omega) (by omega), bind_okP, growInt_ok v (by omega) (by omega), bind_okP]
    dsimp only
    rw [if_neg (not_lt.2 hx), castSqrt40_ok (by omega) h2, bind_okP]
    by_cases ht : n + (Nat.sqrt (40 * n.toNat) : ℤ) ≤ 2147483647
    · rw [int_ok (by omega) ht, bind_okP, int_big (by omega)]; rfl
    · rw [int_big (by omega)]; rfl
  · unfold pnebiVectorInt evaluatePnebiVector
    have hm : (n + 1).toNat = n.toNat + 1 := by omega
    rw [int_ok (by omega) (by omega), bind_okP, growInt_ok v (by omega) (by omega), bind_okP, hm]
    dsimp only
    by_cases hx' : fabs x < 1 / 1000000
    · rw [if_pos hx', if_pos hx']
    · have hn' := hx.resolve_right hx'
      have hs := sqrt_small (n := n.toNat) (by omega)
      have hk : (2 * (n + (Nat.sqrt (40 * n.toNat) : ℤ))).toNat = 2 * (n.toNat + Nat.sqrt (40 * n.toNat)) := by omega
      rw [if_neg hx', if_neg hx', castSqrt40_ok h0 h2, bind_okP, int_ok (by omega) (by omega), bind_okP, int_ok (by omega) (by omega), bind_okP, hk]

/-- The call with order -1 and an empty vector writes outside of it. -/
theorem C127_violated (L : Libm K) : ¬C127_statement L := by
  intro h
  have e := (C127_orders L (-1) 0 ⟨0, fun _ => 0⟩ (by omega) (by omega) (Nat.zero_le _)).2.1 rfl (by unfold fabs; norm_num) rfl
  rcases h (-1) 0 ⟨0, fun _ => 0⟩ (by omega) (by omega) (Nat.zero_le _) with ⟨r, hr, -⟩ | hr <;> rw [e] at hr
  · cases hr
  · simp at hr

/-- C127 for the orders from 0 to 1073534600: the vector holds at least `n + 1` values, those of orders up to `n` are positive if the polynomial is, and satisfy the
recurrence. Missing for C127: the other orders (see `C127_orders`). -/
theorem C127_partial (L : Libm K) (n : ℤ) (x : K) (v : Vec K) (h0 : 0 ≤ n) (h1 : n ≤ 1073534600) (hv : v.len ≤ maxDoubles) :
    ∃ r, pnebiVectorInt L n x v = .ok r ∧ r.len = max v.len (n.toNat + 1) ∧
      (1 / 1000000 ≤ fabs x → r.val 0 = evaluatePnebi0Polynom L (fabs x) ∧
        ∀ k : ℕ, 0 < k → (k : ℤ) < n → r.val (k - 1) = r.val (k + 1) + 2 * k / fabs x * r.val k) := by
  obtain ⟨r, hr, hl, -, h⟩ := pnebiVector_ok L n.toNat x v
  refine ⟨r, ((C127_orders L n x v (by omega) (by omega) hv).2.2.2.2.2.2 h0 (by omega) (Or.inl h1)).trans hr, hl, fun hx => ⟨(h hx).1, fun k hk hn => ?_⟩⟩
  exact (h hx).2.1 k hk (by omega)

/-! ### The look-up table -/

omit [IsStrictOrderedRing K] [FloorRing K] in
/-- C54 and C127, the table before `init`: every evaluation returns 0, for every order, and the evaluation of all orders leaves the vector as it is. -/
theorem C54_empty (k : ℤ) (x : K) (y : Vec K) : (Lut.new : Lut K).eval k x = .ok 0 ∧ (Lut.new : Lut K).evalVec x y = .ok y ∧ (Lut.new : Lut K).orderMax = 0 :=
  ⟨rfl, rfl, rfl⟩

theorem pointInt_eq (L : Libm K) {n : ℤ} (h0 : 0 ≤ n) (h1 : n ≤ 1073534600) (x : K) : pointInt L n x = Point.new L n.toNat x := by
  have hm : Cxx.toSize (n + 1) = n.toNat + 1 := by rw [toSize_small (by omega) (by omega)]; omega
  unfold pointInt Point.new
  rw [int_ok (by omega) (by omega), bind_okP, hm, if_neg (by unfold maxDoubles; omega)]
  rw [(C127_orders L n x ⟨n.toNat + 1, fun _ => 0⟩ (by omega) (by omega) (by show n.toNat + 1 ≤ _; unfold maxDoubles; omega)).2.2.2.2.2.2 h0 (by omega) (Or.inl h1)]

theorem lutLoopInt_eq (L : Libm K) {n : ℤ} (h0 : 0 ≤ n) (h1 : n ≤ 1073534600) (tol : K) (m : ℕ) (x d y : K) :
    lutLoopInt L n tol m x d y = lutLoop L n.toNat tol m x d y := by
  induction m generalizing x d y with
  | zero => rfl
  | succ m ih =>
    rw [lutLoopInt, lutLoop]
    simp only [pointInt_eq L h0 h1, ih]

/-- C127 for the table: with a tolerance that gives a number of points in the range of `int`, the order below -1 throws, the order -1 writes to an empty vector and the order
0 reads the second element of a vector of length 1; a tolerance giving a negative number of points throws; in the other cases, up to the order 1073534600, the table is the one of
Verif/Functions/Model.lean. -/
theorem C127_table (L : Libm K) (n : ℤ) (tol : K) (h1 : -2147483648 ≤ n) (h2 : n ≤ 1073534600) (ht : tol ≠ 0)
    (hc1 : -2147483648 ≤ ⌈2 / tol⌉) (hc2 : ⌈2 / tol⌉ + 20 ≤ 2147483647) :
    (⌈2 / tol⌉ + 20 < 0 → lutInitInt L n tol = .error .throw) ∧
    (0 ≤ ⌈2 / tol⌉ + 20 →
      (n < -1 → lutInitInt L n tol = .error .throw) ∧
      (n = -1 → lutInitInt L n tol = .error (.ub .outOfBounds)) ∧
      (n = 0 → lutInitInt L n tol = .error (.ub .outOfBounds)) ∧
      (0 ≤ n → lutInitInt L n tol = Lut.init L n.toNat tol)) := by
  have e : lutInitInt L n tol = if maxPoints < Cxx.toSize (⌈2 / tol⌉ + 20) then .error .throw
      else do
        let p ← pointInt L n 0
        let y1 ← p.y.get 1
        let y0 ← p.y.get 0
        let r ← lutLoopInt L n tol (⌈2 / tol⌉ + 20 - 1).toNat 0 (y1 - y0) y0
        return ⟨p :: r, n⟩ := by
    unfold lutInitInt
    rw [if_neg ht, int_ok hc1 (by omega), bind_okP, int_ok (by omega) hc2, bind_okP]
  have hf : fabs (0 : K) < 1 / 1000000 := by unfold fabs; norm_num
  refine ⟨fun hneg => ?_, fun hpos => ⟨fun hn => ?_, fun hn => ?_, fun hn => ?_, fun hn => ?_⟩⟩
  · rw [e, if_pos]
    have := toSize_neg hneg (by omega)
    unfold maxDoubles at this
    unfold maxPoints
    omega
  all_goals
    have hs : ¬maxPoints < Cxx.toSize (⌈2 / tol⌉ + 20) := by rw [toSize_small hpos hc2]; unfold maxPoints; omega
    rw [e, if_neg hs]
  · have : pointInt L n (0 : K) = .error .throw := by
      unfold pointInt
      rw [int_ok (by omega) (by omega), bind_okP, if_pos (toSize_neg (by omega) (by omega))]
    rw [this]; rfl
  · subst hn
    have : pointInt L (-1) (0 : K) = .error (.ub .outOfBounds) := by
      unfold pointInt
      rw [int_ok (by omega) (by omega), bind_okP, if_neg (by decide),
        (C127_orders L (-1) 0 ⟨Cxx.toSize (-1 + 1), fun _ => 0⟩ (by omega) (by omega) (Nat.zero_le _)).2.1 rfl hf rfl]
      rfl
    rw [this]; rfl
  · subst hn
    obtain ⟨p, hp, -, hpp⟩ := point_new L 0 (0 : K)
    rw [pointInt_eq L (le_refl _) (by omega), Int.toNat_zero, hp, bind_okP]
    have : p.y.get 1 = .error (.ub .outOfBounds) := if_neg (by rw [hpp.2]; omega)
    rw [this]; rfl
  · unfold Lut.init
    simp only [pointInt_eq L hn h2, lutLoopInt_eq L hn h2]
    rw [if_neg ht, int_ok hc1 (by omega), bind_okP, int_ok (by omega) hc2, bind_okP, Int.toNat_of_nonneg hn]

/-- The order 2 at the abscissa 1 with an empty vector. -/
example : ((pnebiVectorInt toy 2 1 ⟨0, fun _ => 0⟩).map fun r => (r.len, decide (r.val 0 = r.val 2 + 2 * r.val 1))) = .ok (3, true) := by
  decide +kernel

/-- The order -2 throws, and a table for the order 0 reads outside of its first point. -/
example : (pnebiVectorInt toy (-2) 1 ⟨0, fun _ => 0⟩).map (·.len) = .error .throw := by decide +kernel
example : (lutInitInt toy 0 2).map (fun l => l.lut.length) = .error (.ub .outOfBounds) := by decide +kernel
example : (lutInitInt toy 1 2).map (fun l => l.lut.length) = .ok 21 := by decide +kernel
example : (lutInitInt toy 1 (-1 / 20)).map (fun l => l.lut.length) = .error .throw := by decide +kernel

end Verif.Functions
