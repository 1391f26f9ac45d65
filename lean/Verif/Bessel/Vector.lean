import Verif.Bessel.Miller
import Verif.Functions.Pnebi

/-! The values of `evaluatePnebiVector` are a sequence of the back recursion. -/
namespace Verif.Bessel
open Functions

/-- The state before the iteration `k` of the back recursion from the order `m`, for a sequence `c`. -/
structure St (x : ℝ) (m n len k : ℕ) (s : Seq ℝ) (c : ℕ → ℝ) : Prop where
  len : s.pnebis.len = len
  top : c (m + 1) = 0
  pos : ∀ j, k ≤ j → j ≤ m → 0 < c j
  step : ∀ j, k ≤ j → j < m → c j = c (j + 2) + 2 / x * (j + 1 : ℕ) * c (j + 1)
  curr : s.curr = c k
  prev : s.prev = c (k + 1)
  val : ∀ j, k < j → j ≤ n → s.pnebis.val j = c j

/-- The state after the iteration `k`. -/
structure Done (x : ℝ) (m n len k : ℕ) (s : Seq ℝ) (c : ℕ → ℝ) : Prop where
  len : s.pnebis.len = len
  top : c (m + 1) = 0
  pos : ∀ j, k ≤ j → j ≤ m → 0 < c j
  step : ∀ j, k ≤ j → j < m → c j = c (j + 2) + 2 / x * (j + 1 : ℕ) * c (j + 1)
  curr : s.curr = c (k + 1) + 2 / x * k * c k
  prev : s.prev = c k
  val : ∀ j, k ≤ j → j ≤ n → s.pnebis.val j = c j

theorem Done.scale {x : ℝ} {m n len k : ℕ} {s : Seq ℝ} {c : ℕ → ℝ} (h : Done x m n len k s c) {l : ℝ} (hl : 0 < l) :
    Done x m n len k ⟨s.prev * l, s.curr * l, Functions.scale l s.pnebis⟩ fun j => l * c j where
  len := h.len
  top := by rw [h.top, mul_zero]
  pos := fun j h1 h2 => mul_pos hl (h.pos j h1 h2)
  step := fun j h1 h2 => by rw [h.step j h1 h2]; ring
  curr := by rw [h.curr]; ring
  prev := by rw [h.prev]; ring
  val := fun j h1 h2 => by show l * _ = _; rw [h.val j h1 h2]

theorem backStep_fin {x : ℝ} {m n len k : ℕ} (hn : n < len) {s : Seq ℝ} {c : ℕ → ℝ} (h : St x m n len k s c) :
    ∃ s' c', backStep n (2 / x) k s = .ok s' ∧ Done x m n len k s' c' := by
  have key : ∃ p, (if k ≤ n then s.pnebis.set (k : ℤ) s.curr else .ok s.pnebis) = .ok p ∧
      Done x m n len k ⟨s.curr, s.prev + 2 / x * k * s.curr, p⟩ c := by
    by_cases hkn : k ≤ n
    · rw [if_pos hkn, s.pnebis.set_nat (by rw [h.len]; omega)]
      refine ⟨_, rfl, ⟨h.len, h.top, h.pos, h.step, by rw [h.curr, h.prev], h.curr, fun j h1 h2 => ?_⟩⟩
      show (if j = k then s.curr else s.pnebis.val j) = c j
      split
      · rename_i hj; rw [hj, h.curr]
      · exact h.val j (by omega) h2
    · rw [if_neg hkn]
      exact ⟨_, rfl, ⟨h.len, h.top, h.pos, h.step, by rw [h.curr, h.prev], h.curr, fun j h1 h2 => by omega⟩⟩
  obtain ⟨p, hp, hf⟩ := key
  unfold backStep
  dsimp only
  rw [hp, bind_okP]
  by_cases hb : (10000000000 : ℝ) < s.prev + 2 / x * k * s.curr
  · rw [if_pos hb]
    exact ⟨_, _, rfl, hf.scale (by norm_num)⟩
  · rw [if_neg hb]
    exact ⟨_, _, rfl, hf⟩

theorem backLoop_fin {x : ℝ} (hx : 0 < x) {m n len : ℕ} (hn : n < len) (k : ℕ) (hk : k ≤ m) {s : Seq ℝ} {c : ℕ → ℝ} (h : St x m n len k s c) :
    ∃ s' c', backLoop n (2 / x) k s = .ok s' ∧ Done x m n len 0 s' c' := by
  induction k generalizing s c with
  | zero => exact backStep_fin hn h
  | succ k ih =>
    obtain ⟨s', c', hs', f⟩ := backStep_fin hn h
    rw [backLoop, hs', bind_okP]
    refine ih (by omega) (c := fun j => if j = k then s'.curr else c' j) ⟨f.len, ?_, fun j h1 h2 => ?_, fun j h1 h2 => ?_, ?_, ?_, fun j h1 h2 => ?_⟩
    · rw [if_neg (by omega), f.top]
    · split
      · rw [f.curr]
        have h3 := f.pos (k + 1) le_rfl hk
        have h4 : 0 ≤ c' (k + 1 + 1) := by
          rcases Nat.lt_or_ge (k + 1) m with h5 | h5
          · exact (f.pos (k + 2) (by omega) h5).le
          · rw [show k + 1 + 1 = m + 1 by omega, f.top]
        have : 0 < 2 / x * (k + 1 : ℕ) * c' (k + 1) := mul_pos (by positivity) h3
        linarith
      · exact f.pos j (by omega) h2
    · rw [if_neg (show ¬ j + 2 = k by omega), if_neg (show ¬ j + 1 = k by omega)]
      split
      · rename_i hj
        rw [hj, f.curr]
      · exact f.step j (by omega) h2
    · simp
    · rw [if_neg (by omega), f.prev]
    · rw [if_neg (by omega), f.val j h1 h2]

/-- The result of `evaluatePnebiVector` for an argument that is not too small. -/
theorem vector_back (L : Libm ℝ) (n : ℕ) (x : ℝ) (hx : 1 / 1000000 ≤ fabs x) (v : Vec ℝ) : ∃ r c, evaluatePnebiVector L n x v = .ok r ∧
    Back (fabs x) (2 * (n + Nat.sqrt (40 * n))) c ∧ ∀ k ≤ n, r.val k = evaluatePnebi0Polynom L (fabs x) * (c k / c 0) := by
  unfold evaluatePnebiVector
  dsimp only
  rw [if_neg (not_lt.2 hx)]
  have hx' : 0 < fabs x := lt_of_lt_of_le (by norm_num) hx
  have hlen : n < (grow v (n + 1)).len := by rw [grow_len]; omega
  obtain ⟨s, c, hs, f⟩ := backLoop_fin hx' (n := n) (len := (grow v (n + 1)).len) hlen (2 * (n + Nat.sqrt (40 * n))) le_rfl
    (s := ⟨0, 1, grow v (n + 1)⟩) (c := fun j => if j = 2 * (n + Nat.sqrt (40 * n)) then 1 else 0)
    ⟨rfl, by simp, fun j h1 h2 => by simp [show j = 2 * (n + Nat.sqrt (40 * n)) by omega], fun j h1 h2 => by omega, by simp, by simp, fun j h1 h2 => by omega⟩
  rw [hs, bind_okP, show s.pnebis.get 0 = .ok (s.pnebis.val 0) from s.pnebis.get_nat (i := 0) (by rw [f.len]; omega), bind_okP]
  refine ⟨_, c, rfl, ⟨f.top, f.pos 0 le_rfl (by omega), fun j hj => f.step j (by omega) hj⟩, fun k hk => ?_⟩
  show _ / s.pnebis.val 0 * s.pnebis.val k = _
  rw [f.val 0 le_rfl (by omega), f.val k (by omega) hk]
  ring

end Verif.Bessel
