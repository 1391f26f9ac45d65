import Mathlib.Data.Real.Basic
import Mathlib.Tactic.Linarith
import Mathlib.Tactic.Ring
import Mathlib.Tactic.Positivity
import Mathlib.Tactic.FieldSimp

/-!
Certificates of positivity of polynomials on an interval: the coefficients in the Bernstein basis are not negative. The polynomials have integer coefficients and
the check is by computation.
-/
namespace Verif.Bern

/-- The value of the polynomial with coefficients `c` (constant term first). -/
def eval (c : List ℤ) (t : ℝ) : ℝ := c.foldr (fun a r => a + t * r) 0

@[simp] theorem eval_nil (t : ℝ) : eval [] t = 0 := rfl

@[simp] theorem eval_cons (a : ℤ) (c : List ℤ) (t : ℝ) : eval (a :: c) t = a + t * eval c t := rfl

/-- The value of the homogeneous polynomial `Σ hᵢ v^(n-i) y^i` of degree `n`, for `n + 1` coefficients. -/
def hev (v y : ℝ) : List ℤ → ℝ
  | [] => 0
  | a :: h => a * v ^ h.length + y * hev v y h

/-- Sum of two lists of the same length. -/
def add (a b : List ℤ) : List ℤ := List.zipWith (· + ·) a b

/-- The product of the homogeneous polynomial `h` and `α v + β y`; `p` is the preceding coefficient times `β`. -/
def mulLin (α β : ℤ) : (p : ℤ) → List ℤ → List ℤ
  | p, [] => [p]
  | p, a :: h => (α * a + p) :: mulLin α β (β * a) h

theorem mulLin_length (α β p : ℤ) (h : List ℤ) : (mulLin α β p h).length = h.length + 1 := by
  induction h generalizing p with
  | nil => rfl
  | cons a h ih => simp [mulLin, ih]

theorem mulLin_hev (α β p : ℤ) (h : List ℤ) (v y : ℝ) : hev v y (mulLin α β p h) = p * v ^ h.length + (α * v + β * y) * hev v y h := by
  induction h generalizing p with
  | nil => simp [mulLin, hev]
  | cons a h ih =>
    simp only [mulLin, hev, mulLin_length, ih, List.length_cons, pow_succ]
    push_cast
    ring

theorem add_hev (a b : List ℤ) (v y : ℝ) (h : a.length = b.length) : hev v y (add a b) = hev v y a + hev v y b := by
  induction a generalizing b with
  | nil =>
    cases b with
    | nil => simp [add, hev]
    | cons => simp at h
  | cons x a ih =>
    cases b with
    | nil => simp at h
    | cons z b =>
      have hl : a.length = b.length := by simpa using h
      have := ih b hl
      simp only [add, List.zipWith_cons_cons, hev] at this ⊢
      rw [this, List.length_zipWith, hl, min_self]
      push_cast
      ring

/-- The coefficients of `(δ (v + y))^n`. -/
def powers (δ : ℤ) : ℕ → List ℤ
  | 0 => [1]
  | n + 1 => mulLin δ δ 0 (powers δ n)

theorem powers_length (δ : ℤ) (n : ℕ) : (powers δ n).length = n + 1 := by
  induction n with
  | zero => rfl
  | succ n ih => rw [powers, mulLin_length, ih]

theorem powers_hev (δ : ℤ) (n : ℕ) (v y : ℝ) : hev v y (powers δ n) = (δ * (v + y)) ^ n := by
  induction n with
  | zero => simp [powers, hev]
  | succ n ih => rw [powers, mulLin_hev, ih, pow_succ]; push_cast; ring

/-- The coefficients of `Σ c_k (α v + β y)^k (δ (v + y))^(n-k)`, for `n + 1` coefficients `c`; the second component is `powers δ n`, or empty for no coefficients. -/
def homog (α β δ : ℤ) : List ℤ → List ℤ × List ℤ
  | [] => ([], [])
  | a :: c =>
    let r := homog α β δ c
    let p := match r.2 with
      | [] => [1]
      | q => mulLin δ δ 0 q
    (add (p.map (a * ·)) (mulLin α β 0 r.1), p)

theorem homog_snd (α β δ : ℤ) (a : ℤ) (c : List ℤ) : (homog α β δ (a :: c)).2 = powers δ c.length := by
  induction c generalizing a with
  | nil => rfl
  | cons b c ih =>
    have h := ih b
    rw [homog]
    dsimp only
    rw [h]
    have hl := powers_length δ c.length
    cases hp : powers δ c.length with
    | nil => rw [hp] at hl; simp at hl
    | cons x q => rw [List.length_cons, powers, hp]

theorem map_hev (a : ℤ) (h : List ℤ) (v y : ℝ) : hev v y (h.map (a * ·)) = a * hev v y h := by
  induction h with
  | nil => simp [hev]
  | cons b h ih =>
    simp only [List.map_cons, hev, ih, List.length_map]
    push_cast
    ring

theorem homog_fst (α β δ : ℤ) (c : List ℤ) (v y : ℝ) (hv : v + y = 1) (hδ : (δ : ℝ) ≠ 0) :
    (homog α β δ c).1.length = c.length ∧ hev v y (homog α β δ c).1 * δ = δ ^ c.length * eval c ((α * v + β * y) / δ) := by
  induction c with
  | nil => simp [homog, hev]
  | cons a c ih =>
    obtain ⟨ih1, ih2⟩ := ih
    have hp : (homog α β δ (a :: c)).1 = add ((powers δ c.length).map (a * ·)) (mulLin α β 0 (homog α β δ c).1) := by
      rw [← homog_snd α β δ a c]
      rfl
    have hl : ((powers δ c.length).map (a * ·)).length = (mulLin α β 0 (homog α β δ c).1).length := by
      rw [List.length_map, powers_length, mulLin_length, ih1]
    rw [hp]
    refine ⟨by rw [add, List.length_zipWith, ← hl, min_self, List.length_map, powers_length, List.length_cons], ?_⟩
    rw [add_hev _ _ _ _ hl, map_hev, powers_hev, mulLin_hev, hv, eval_cons]
    have : (↑a * (↑δ * 1) ^ c.length + ((0 : ℤ) * v ^ (homog α β δ c).1.length + (↑α * v + ↑β * y) * hev v y (homog α β δ c).1)) * (δ : ℝ) =
        a * δ ^ c.length * δ + (α * v + β * y) * (hev v y (homog α β δ c).1 * δ) := by push_cast; ring
    rw [this, ih2, List.length_cons, pow_succ]
    field_simp

theorem hev_nonneg (h : List ℤ) (hp : h.all (0 ≤ ·) = true) (v y : ℝ) (hv : 0 ≤ v) (hy : 0 ≤ y) : 0 ≤ hev v y h := by
  induction h with
  | nil => simp [hev]
  | cons a h ih =>
    rw [List.all_cons, Bool.and_eq_true, decide_eq_true_eq] at hp
    have ha : (0 : ℝ) ≤ a := by exact_mod_cast hp.1
    have := ih hp.2
    rw [hev]
    positivity

/-- The polynomial is not negative on `[α/δ, β/δ]`. -/
def check (c : List ℤ) (δ α β : ℤ) : Bool := (homog α β δ c).1.all (0 ≤ ·)

/-- The polynomial is not negative on the intervals between consecutive break points, divided by `δ`. -/
def checks (c : List ℤ) (δ : ℤ) : (α : ℤ) → List ℤ → Bool
  | _, [] => true
  | α, β :: l => decide (α < β) && check c δ α β && checks c δ β l

theorem check_sound (c : List ℤ) (δ α β : ℤ) (hδ : 0 < δ) (hab : α < β) (h : check c δ α β = true) (t : ℝ) (h0 : (α : ℝ) / δ ≤ t) (h1 : t ≤ β / δ) :
    0 ≤ eval c t := by
  have hδ' : (0 : ℝ) < δ := by exact_mod_cast hδ
  have hd : (0 : ℝ) < β - α := by
    have : (α : ℝ) < β := by exact_mod_cast hab
    linarith
  rw [div_le_iff₀ hδ'] at h0
  rw [le_div_iff₀ hδ'] at h1
  have hv : 0 ≤ (β - t * δ) / (β - α : ℝ) := div_nonneg (by linarith) hd.le
  have hy : 0 ≤ (t * δ - α) / (β - α : ℝ) := div_nonneg (by linarith) hd.le
  have hs : (β - t * δ) / (β - α : ℝ) + (t * δ - α) / (β - α : ℝ) = 1 := by field_simp; ring
  have ht : (α * ((β - t * δ) / (β - α : ℝ)) + β * ((t * δ - α) / (β - α : ℝ))) / δ = t := by field_simp; ring
  have h2 := (homog_fst α β δ c _ _ hs hδ'.ne').2
  rw [ht] at h2
  have h3 := hev_nonneg _ h _ _ hv hy
  have h4 : (0 : ℝ) < (δ : ℝ) ^ c.length := by positivity
  have h5 : 0 ≤ (δ : ℝ) ^ c.length * eval c t := by rw [← h2]; positivity
  exact nonneg_of_mul_nonneg_right h5 h4

/-- A polynomial that passes the check is not negative on the whole interval. -/
theorem checks_sound (c : List ℤ) (δ : ℤ) (hδ : 0 < δ) (α : ℤ) (l : List ℤ) (h : checks c δ α l = true) (t : ℝ) (h0 : (α : ℝ) / δ ≤ t)
    (h1 : t ≤ (l.getLastD α : ℤ) / δ) (hl : l ≠ []) : 0 ≤ eval c t := by
  induction l generalizing α with
  | nil => exact absurd rfl hl
  | cons β l ih =>
    rw [checks, Bool.and_eq_true, Bool.and_eq_true, decide_eq_true_eq] at h
    obtain ⟨⟨ha, hb⟩, hc⟩ := h
    by_cases ht : t ≤ β / δ
    · exact check_sound c δ α β hδ ha hb t h0 ht
    · cases l with
      | nil => exact absurd h1 ht
      | cons γ l => exact ih β hc (le_of_not_ge ht) h1 (by simp)

-- (2t - 1)² + 1 on [0, 1]
example (t : ℝ) (h0 : 0 ≤ t) (h1 : t ≤ 1) : 0 ≤ eval [2, -4, 4] t :=
  checks_sound [2, -4, 4] 2 (by norm_num) 0 [1, 2] (by decide +kernel) t (by simpa using h0) (by simpa using h1) (by simp)

end Verif.Bern
