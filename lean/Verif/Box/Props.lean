import Verif.Box.Model
import Mathlib.Tactic.Linarith
import Mathlib.Tactic.Ring
import Mathlib.Algebra.Order.BigOperators.Ring.Finset
import Mathlib.Algebra.Order.Group.Unbundled.Abs

/-! Property theorem C57 (see properties.jsonl). -/
namespace Verif.Box
open Verif Finset

variable {K : Type} [Field K] [LinearOrder K] [IsStrictOrderedRing K]

/-- The point is on the surface of the box. -/
def OnSurface (n : ℕ) (dims p : ℕ → K) : Prop := (∀ d < n, |p d| ≤ dims d / 2) ∧ ∃ d < n, |p d| = dims d / 2

/-- Squared distance of the first `n` coordinates. -/
def dist2 (n : ℕ) (p q : ℕ → K) : K := ∑ d ∈ range n, (p d - q d) ^ 2

/-- The point with each coordinate moved to the interval of the box. -/
def clamp (dims query : ℕ → K) (d : ℕ) : K := if query d < -(1 / 2) * dims d then -(1 / 2) * dims d else
  if query d > 1 / 2 * dims d then 1 / 2 * dims d else query d

/-- The state after the coordinates below `m`. -/
structure Inv (dims query nearest : ℕ → K) (m : ℕ) (s : State K) : Prop where
  near : ∀ d, s.nearest d = if d < m then clamp dims query d else nearest d
  inside : s.inside = true ↔ ∀ d < m, |query d| ≤ dims d / 2
  some_ : 0 < m → s.inside = true → s.best ≠ none
  best : ∀ d e r, s.best = some (d, e, r) → d < m ∧ |e| = dims d / 2 ∧ |query d - e| = r ∧
    (s.inside = true → ∀ j < m, r ≤ dims j / 2 - |query j|)

omit [IsStrictOrderedRing K] in
theorem upd_eq {T : Type} (a : ℕ → T) (d : ℕ) (x : T) (i : ℕ) : upd a d x i = if i = d then x else a i := rfl

theorem edge_abs {dim q : K} (h1 : ¬ q < -(1 / 2) * dim) (h2 : ¬ q > 1 / 2 * dim) :
    |(edgeDist dim q).1| = dim / 2 ∧ |q - (edgeDist dim q).1| = (edgeDist dim q).2 ∧ (edgeDist dim q).2 = dim / 2 - |q| := by
  have h1 := not_lt.1 h1
  have h2 := not_lt.1 h2
  unfold edgeDist
  by_cases h : q < 0
  · rw [if_pos h]
    dsimp only
    rw [abs_of_nonpos (by linarith : -(1 / 2) * dim ≤ 0), abs_of_nonneg (by linarith : 0 ≤ q - -(1 / 2) * dim), abs_of_neg h]
    exact ⟨by ring, rfl, by ring⟩
  · rw [if_neg h]
    have h := not_lt.1 h
    dsimp only
    rw [abs_of_nonneg (by linarith : 0 ≤ 1 / 2 * dim), abs_of_nonpos (by linarith : q - 1 / 2 * dim ≤ 0), abs_of_nonneg h]
    exact ⟨by ring, by ring, by ring⟩

theorem step_inv {dims query nearest : ℕ → K} {m : ℕ} {s : State K} (hd : ∀ d ≤ m, 0 ≤ dims d) (h : Inv dims query nearest m s) :
    Inv dims query nearest (m + 1) (step dims query s m) := by
  have hnear : ∀ d, upd s.nearest m (clamp dims query m) d = if d < m + 1 then clamp dims query d else nearest d := by
    intro d
    rw [upd_eq]
    by_cases h1 : d = m
    · rw [if_pos h1, if_pos (by omega), h1]
    · rw [if_neg h1, h.near]
      by_cases h2 : d < m
      · rw [if_pos h2, if_pos (by omega)]
      · rw [if_neg h2, if_neg (by omega)]
  have hdm := hd m (le_refl m)
  have hbest : ∀ d e r, s.best = some (d, e, r) → d < m + 1 ∧ |e| = dims d / 2 ∧ |query d - e| = r := fun d e r hb => by
    obtain ⟨h1, h2, h3, -⟩ := h.best d e r hb
    exact ⟨by omega, h2, h3⟩
  unfold step
  by_cases h1 : query m < -(1 / 2) * dims m
  · rw [if_pos h1]
    have hc : clamp dims query m = -(1 / 2) * dims m := if_pos h1
    rw [← hc]
    refine ⟨hnear, ⟨fun h => absurd h Bool.false_ne_true, fun h' => ?_⟩, fun _ h => absurd h Bool.false_ne_true, fun d e r hb => ?_⟩
    · have := abs_le.1 (h' m (by omega))
      linarith [this.1]
    · obtain ⟨a, b, c⟩ := hbest d e r hb
      exact ⟨a, b, c, fun h => by cases h⟩
  · rw [if_neg h1]
    by_cases h2 : query m > 1 / 2 * dims m
    · rw [if_pos h2]
      have hc : clamp dims query m = 1 / 2 * dims m := by unfold clamp; rw [if_neg h1, if_pos h2]
      rw [← hc]
      refine ⟨hnear, ⟨fun h => absurd h Bool.false_ne_true, fun h' => ?_⟩, fun _ h => absurd h Bool.false_ne_true, fun d e r hb => ?_⟩
      · have := abs_le.1 (h' m (by omega))
        linarith [this.2]
      · obtain ⟨a, b, c⟩ := hbest d e r hb
        exact ⟨a, b, c, fun h => by cases h⟩
    · rw [if_neg h2]
      have hc : clamp dims query m = query m := by unfold clamp; rw [if_neg h1, if_neg h2]
      obtain ⟨e1, e2, e3⟩ := edge_abs h1 h2
      dsimp only
      rw [hc] at hnear
      refine ⟨hnear, ?_, fun _ hi => ?_, fun d e r hb => ?_⟩
      · dsimp only
        rw [h.inside]
        constructor
        · intro h' d hd'
          rcases Nat.lt_or_ge d m with h3 | h3
          · exact h' d h3
          · rw [show d = m by omega, abs_le]
            have h1 := not_lt.1 h1
            have h2 := not_lt.1 h2
            constructor <;> linarith
        · intro h' d hd'
          exact h' d (by omega)
      · dsimp only
        cases hb : s.best with
        | none => simp [better]
        | some b => split <;> simp
      · dsimp only at hb ⊢
        by_cases hbt : better (edgeDist (dims m) (query m)).2 s.best = true
        · rw [if_pos hbt] at hb
          cases hb
          refine ⟨by omega, e1, e2, fun hi j hj => ?_⟩
          rcases Nat.lt_or_ge j m with h3 | h3
          · cases hs : s.best with
            | none => exact absurd hs (h.some_ (by omega) hi)
            | some b =>
              obtain ⟨d', e', r'⟩ := b
              rw [hs] at hbt
              have hlt : (edgeDist (dims m) (query m)).2 < r' := by simpa [better] using hbt
              exact le_trans hlt.le ((h.best d' e' r' hs).2.2.2 hi j h3)
          · rw [show j = m by omega, e3]
        · rw [if_neg hbt] at hb
          obtain ⟨a, b, c⟩ := hbest d e r hb
          refine ⟨a, b, c, fun hi j hj => ?_⟩
          rcases Nat.lt_or_ge j m with h3 | h3
          · exact (h.best d e r hb).2.2.2 hi j h3
          · rw [hb] at hbt
            have : ¬ (edgeDist (dims m) (query m)).2 < r := by simpa [better] using hbt
            rw [show j = m by omega, ← e3]
            exact not_lt.1 this

theorem foldl_inv {dims query nearest : ℕ → K} (n : ℕ) (hd : ∀ d < n, 0 ≤ dims d) :
    Inv dims query nearest n ((List.range n).foldl (step dims query) ⟨nearest, true, none⟩) := by
  induction n with
  | zero =>
    exact ⟨fun d => by rw [if_neg (Nat.not_lt_zero d)]; rfl, ⟨fun _ d h => absurd h (Nat.not_lt_zero d), fun _ => rfl⟩, fun h => absurd h (lt_irrefl 0),
      fun d e r h => by cases h⟩
  | succ n ih =>
    rw [List.range_succ, List.foldl_append]
    exact step_inv (fun d hd' => hd d (by omega)) (ih fun d hd' => hd d (by omega))

/-- C57: the associated point is on the surface of the box, and no point of the surface is closer to the query. -/
theorem C57_nearest (n : ℕ) (hn : 0 < n) (dims query nearest : ℕ → K) (hd : ∀ d < n, 0 ≤ dims d) :
    ∃ p, associate n dims query nearest = .ok p ∧ OnSurface n dims p ∧ ∀ q, OnSurface n dims q → dist2 n query p ≤ dist2 n query q := by
  have h := foldl_inv (dims := dims) (query := query) (nearest := nearest) n hd
  unfold associate
  generalize (List.range n).foldl (step dims query) ⟨nearest, true, none⟩ = s at h
  dsimp only
  have hin : ∀ d < n, clamp dims query d = query d ∨ (|clamp dims query d| = dims d / 2 ∧ ¬ |query d| ≤ dims d / 2) := by
    intro d hd'
    have h0 := hd d hd'
    unfold clamp
    by_cases h1 : query d < -(1 / 2) * dims d
    · rw [if_pos h1]
      refine Or.inr ⟨by rw [abs_of_nonpos (by linarith)]; ring, fun h => ?_⟩
      have := (abs_le.1 h).1
      linarith
    · rw [if_neg h1]
      by_cases h2 : query d > 1 / 2 * dims d
      · rw [if_pos h2]
        refine Or.inr ⟨by rw [abs_of_nonneg (by linarith)]; ring, fun h => ?_⟩
        have := (abs_le.1 h).2
        linarith
      · rw [if_neg h2]
        exact Or.inl rfl
  by_cases hi : s.inside = true
  · rw [if_pos hi]
    cases hb : s.best with
    | none => exact absurd hb (h.some_ hn hi)
    | some b =>
      obtain ⟨d, e, r⟩ := b
      obtain ⟨h1, h2, h3, h4⟩ := h.best d e r hb
      have h4 := h4 hi
      have h5 := h.inside.1 hi
      refine ⟨upd query d e, rfl, ⟨fun j hj => ?_, d, h1, ?_⟩, fun q ⟨q1, j, q2, q3⟩ => ?_⟩
      · rw [upd_eq]
        by_cases hjd : j = d
        · rw [if_pos hjd, h2, hjd]
        · rw [if_neg hjd]; exact h5 j hj
      · rw [upd_eq, if_pos rfl, h2]
      · have e1 : dist2 n query (upd query d e) = r ^ 2 := by
          unfold dist2
          rw [sum_eq_single d]
          · rw [upd_eq, if_pos rfl, ← h3, sq_abs]
          · intro i _ hi'
            rw [upd_eq, if_neg hi', sub_self, zero_pow two_ne_zero]
          · intro h'
            exact absurd (mem_range.2 h1) h'
        have e2 : (query j - q j) ^ 2 ≤ dist2 n query q := by
          unfold dist2
          exact single_le_sum (f := fun d => (query d - q d) ^ 2) (fun i _ => sq_nonneg _) (mem_range.2 q2)
        have e3 : r ≤ |query j - q j| := by
          have h6 := h4 j q2
          have h7 := abs_sub_abs_le_abs_sub (q j) (query j)
          rw [abs_sub_comm, q3] at h7
          linarith
        have e4 : 0 ≤ r := by rw [← h3]; exact abs_nonneg _
        rw [e1]
        refine le_trans ?_ e2
        rw [← sq_abs (query j - q j)]
        exact pow_le_pow_left₀ e4 e3 2
  · rw [if_neg hi]
    refine ⟨s.nearest, rfl, ⟨fun d hd' => ?_, ?_⟩, fun q hq => ?_⟩
    · rw [h.near, if_pos hd']
      rcases hin d hd' with h1 | ⟨h1, h2⟩
      · rw [h1]
        by_contra hc
        unfold clamp at h1
        have h0 := hd d hd'
        by_cases h3 : query d < -(1 / 2) * dims d
        · rw [if_pos h3] at h1; linarith
        · rw [if_neg h3] at h1
          by_cases h4 : query d > 1 / 2 * dims d
          · rw [if_pos h4] at h1; linarith
          · exact hc (abs_le.2 ⟨by linarith [not_lt.1 h3], by linarith [not_lt.1 h4]⟩)
      · exact h1.le
    · have : ¬ ∀ d < n, |query d| ≤ dims d / 2 := fun h' => hi (h.inside.2 h')
      push Not at this
      obtain ⟨d, h1, h2⟩ := this
      refine ⟨d, h1, ?_⟩
      rw [h.near, if_pos h1]
      rcases hin d h1 with h3 | h3
      · exfalso
        unfold clamp at h3
        have h0 := hd d h1
        by_cases h4 : query d < -(1 / 2) * dims d
        · rw [if_pos h4] at h3; linarith
        · rw [if_neg h4] at h3
          by_cases h5 : query d > 1 / 2 * dims d
          · rw [if_pos h5] at h3; linarith
          · exact absurd (abs_le.2 ⟨by linarith [not_lt.1 h4], by linarith [not_lt.1 h5]⟩) (not_le.2 h2)
      · exact h3.1
    · obtain ⟨q1, -⟩ := hq
      unfold dist2
      refine sum_le_sum fun d hd' => ?_
      have hd' := mem_range.1 hd'
      have h1 := abs_le.1 (q1 d hd')
      have h0 := hd d hd'
      rw [h.near, if_pos hd']
      unfold clamp
      by_cases h3 : query d < -(1 / 2) * dims d
      · rw [if_pos h3]; nlinarith [h1.1]
      · rw [if_neg h3]
        by_cases h4 : query d > 1 / 2 * dims d
        · rw [if_pos h4]; nlinarith [h1.2]
        · rw [if_neg h4, sub_self, zero_pow two_ne_zero]; exact sq_nonneg _

-- a box 4 x 2: from inside to the nearest edge, from outside to the corner
example : ((associate 2 (fun d => if d = 0 then 4 else 2) (fun d => if d = 0 then (3 / 2 : ℚ) else 1 / 4) (fun _ => 7)).map fun p => (p 0, p 1)) =
    .ok (2, 1 / 4) := by decide +kernel
example : ((associate 2 (fun d => if d = 0 then 4 else 2) (fun d => if d = 0 then (-5 : ℚ) else 3) (fun _ => 7)).map fun p => (p 0, p 1)) =
    .ok (-2, 1) := by decide +kernel

end Verif.Box
