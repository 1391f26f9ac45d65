import Verif.Box.Props

/-! Property theorem C157 (see properties.jsonl): symmetries of the nearest point on the surface of a box. -/
namespace Verif.Box
open Verif Finset

variable {K : Type} [Field K] [LinearOrder K] [IsStrictOrderedRing K]

/-- The state for the mirrored and scaled query. -/
def mirror (f : ℕ → K) (c : K) (s : State K) : State K := ⟨fun d => f d * s.nearest d, s.inside, s.best.map fun b => (b.1, f b.1 * b.2.1, c * b.2.2)⟩

omit [IsStrictOrderedRing K] in
theorem upd_mul (f a : ℕ → K) (d : ℕ) (x : K) : (fun i => f i * upd a d x i) = upd (fun i => f i * a i) d (f d * x) := by
  funext i
  simp only [upd]
  split
  · rename_i h; rw [h]
  · rfl

theorem step_mirror {f dims query : ℕ → K} {c : K} (hc : 0 < c) {d : ℕ} (hd : 0 ≤ dims d) (hf : f d = c ∨ (f d = -c ∧ query d ≠ 0)) (s : State K) :
    step (fun i => c * dims i) (fun i => f i * query i) (mirror f c s) d = mirror f c (step dims query s d) := by
  have hb : ∀ x : K, better (c * x) (mirror f c s).best = better x s.best := by
    intro x
    unfold mirror
    cases s.best with
    | none => rfl
    | some b => simp [better, hc]
  have up : ∀ x y : K, y = f d * x → upd (fun i => f i * s.nearest i) d y = fun i => f i * upd s.nearest d x i := by
    intro x y h; rw [upd_mul, h]
  unfold step
  dsimp only
  rcases hf with hf | ⟨hf, h0⟩
  · simp only [hf]
    have e1 : c * query d < -(1 / 2) * (c * dims d) ↔ query d < -(1 / 2) * dims d := by
      rw [show -(1 / 2) * (c * dims d) = c * (-(1 / 2) * dims d) by ring]; exact mul_lt_mul_iff_right₀ hc
    have e2 : c * query d > 1 / 2 * (c * dims d) ↔ query d > 1 / 2 * dims d := by
      rw [show 1 / 2 * (c * dims d) = c * (1 / 2 * dims d) by ring]; exact mul_lt_mul_iff_right₀ hc
    have e3 : edgeDist (c * dims d) (c * query d) = (c * (edgeDist (dims d) (query d)).1, c * (edgeDist (dims d) (query d)).2) := by
      unfold edgeDist
      have : c * query d < 0 ↔ query d < 0 := by rw [mul_neg_iff]; constructor
                                                 · rintro (⟨-, h⟩ | ⟨h, -⟩)
                                                   · exact h
                                                   · exact absurd h (not_lt.2 hc.le)
                                                 · exact fun h => Or.inl ⟨hc, h⟩
      simp only [this]
      split <;> ext <;> simp only <;> ring
    simp only [e1, e2, e3, hb]
    by_cases h1 : query d < -(1 / 2) * dims d
    · simp only [if_pos h1]
      simp only [mirror, State.mk.injEq, and_true]
      exact up _ _ (by rw [hf]; ring)
    · simp only [if_neg h1]
      by_cases h2 : query d > 1 / 2 * dims d
      · simp only [if_pos h2]
        simp only [mirror, State.mk.injEq, and_true]
        exact up _ _ (by rw [hf]; ring)
      · simp only [if_neg h2]
        simp only [mirror, State.mk.injEq, true_and]
        refine ⟨up _ _ (by rw [hf]), ?_⟩
        split
        · simp [hf]
        · rfl
  · simp only [hf]
    have e1 : -c * query d < -(1 / 2) * (c * dims d) ↔ query d > 1 / 2 * dims d := by
      rw [show -(1 / 2) * (c * dims d) = -(c * (1 / 2 * dims d)) by ring, show -c * query d = -(c * query d) by ring, neg_lt_neg_iff]; exact mul_lt_mul_iff_right₀ hc
    have e2 : -c * query d > 1 / 2 * (c * dims d) ↔ query d < -(1 / 2) * dims d := by
      rw [show 1 / 2 * (c * dims d) = -(c * (-(1 / 2) * dims d)) by ring, show -c * query d = -(c * query d) by ring, gt_iff_lt, neg_lt_neg_iff]; exact mul_lt_mul_iff_right₀ hc
    have e3 : edgeDist (c * dims d) (-c * query d) = (-c * (edgeDist (dims d) (query d)).1, c * (edgeDist (dims d) (query d)).2) := by
      unfold edgeDist
      rcases lt_or_gt_of_ne h0 with h | h
      · have h' : ¬ -c * query d < 0 := by have := mul_pos_of_neg_of_neg (neg_lt_zero.2 hc) h; exact not_lt.2 this.le
        rw [if_neg h', if_pos h]
        ext <;> simp only <;> ring
      · have h' : -c * query d < 0 := mul_neg_of_neg_of_pos (neg_lt_zero.2 hc) h
        rw [if_pos h', if_neg (not_lt.2 h.le)]
        ext <;> simp only <;> ring
    simp only [e1, e2, e3, hb]
    by_cases h1 : query d < -(1 / 2) * dims d
    · have h2 : ¬ query d > 1 / 2 * dims d := by intro h; linarith
      simp only [if_pos h1, if_neg h2]
      simp only [mirror, State.mk.injEq, and_true]
      exact up _ _ (by rw [hf]; ring)
    · by_cases h2 : query d > 1 / 2 * dims d
      · simp only [if_pos h2, if_neg h1]
        simp only [mirror, State.mk.injEq, and_true]
        exact up _ _ (by rw [hf]; ring)
      · simp only [if_neg h2, if_neg h1]
        simp only [mirror, State.mk.injEq, true_and]
        refine ⟨up _ _ (by rw [hf]), ?_⟩
        split
        · simp [hf]
        · rfl

theorem foldl_mirror {f dims query : ℕ → K} {c : K} (hc : 0 < c) (l : List ℕ) (hd : ∀ d ∈ l, 0 ≤ dims d) (hf : ∀ d ∈ l, f d = c ∨ (f d = -c ∧ query d ≠ 0)) (s : State K) :
    l.foldl (step (fun i => c * dims i) (fun i => f i * query i)) (mirror f c s) = mirror f c (l.foldl (step dims query) s) := by
  induction l generalizing s with
  | nil => rfl
  | cons d l ih =>
    rw [List.foldl_cons, List.foldl_cons, step_mirror hc (hd d (by simp)) (hf d (by simp))]
    exact ih (fun d h => hd d (by simp [h])) (fun d h => hf d (by simp [h])) _

/-- C157, scalings and mirror images: if the box is scaled by `c` and every coordinate of the query by `c` or `-c`, the latter only where it is not zero, the associated point is
scaled and mirrored in the same way. -/
theorem C157_mirror (n : ℕ) (dims query nearest f : ℕ → K) (c : K) (hc : 0 < c) (hd : ∀ d < n, 0 ≤ dims d) (hf : ∀ d < n, f d = c ∨ (f d = -c ∧ query d ≠ 0)) :
    associate n (fun i => c * dims i) (fun i => f i * query i) (fun i => f i * nearest i) = (associate n dims query nearest).map fun p i => f i * p i := by
  unfold associate
  have h := foldl_mirror (f := f) (query := query) hc (List.range n) (fun d h => hd d (List.mem_range.1 h)) (fun d h => hf d (List.mem_range.1 h)) ⟨nearest, true, none⟩
  rw [show mirror f c ⟨nearest, true, none⟩ = ⟨fun i => f i * nearest i, true, none⟩ from rfl] at h
  dsimp only
  rw [h]
  generalize (List.range n).foldl (step dims query) ⟨nearest, true, none⟩ = s
  by_cases hi : s.inside = true
  · rw [if_pos (show (mirror f c s).inside = true from hi), if_pos hi]
    cases hb : s.best with
    | none => rw [show (mirror f c s).best = none by simp [mirror, hb]]; rfl
    | some b =>
      rw [show (mirror f c s).best = some (b.1, f b.1 * b.2.1, c * b.2.2) by simp [mirror, hb]]
      exact congrArg Except.ok (upd_mul f query b.1 b.2.1).symm
  · rw [if_neg (show ¬ (mirror f c s).inside = true from hi), if_neg hi]; rfl

/-- C157: the points of the surface are associated with themselves, so that associating twice changes nothing. -/
theorem C157_idempotent (n : ℕ) (hn : 0 < n) (dims query nearest nearest' : ℕ → K) (hd : ∀ d < n, 0 ≤ dims d) :
    (OnSurface n dims query ↔ ∃ p, associate n dims query nearest = .ok p ∧ ∀ d < n, p d = query d) ∧
    ∃ p q, associate n dims query nearest = .ok p ∧ associate n dims p nearest' = .ok q ∧ ∀ d < n, q d = p d := by
  have key : ∀ query nearest : ℕ → K, OnSurface n dims query → ∃ p, associate n dims query nearest = .ok p ∧ ∀ d < n, p d = query d := by
    intro query nearest h
    obtain ⟨p, h1, -, h3⟩ := C57_nearest n hn dims query nearest hd
    refine ⟨p, h1, fun d hd' => ?_⟩
    have h4 := h3 query h
    have h5 : dist2 n query query = 0 := by unfold dist2; simp
    have h6 : (query d - p d) ^ 2 ≤ dist2 n query p := by
      unfold dist2
      exact single_le_sum (f := fun d => (query d - p d) ^ 2) (fun i _ => sq_nonneg _) (mem_range.2 hd')
    have h7 : (query d - p d) ^ 2 = 0 := le_antisymm (by rw [h5] at h4; exact h6.trans h4) (sq_nonneg _)
    have := pow_eq_zero_iff (two_ne_zero) |>.1 h7
    linarith
  refine ⟨⟨key query nearest, ?_⟩, ?_⟩
  · rintro ⟨p, h1, h2⟩
    obtain ⟨p', h1', ⟨h3, d, h4, h5⟩, -⟩ := C57_nearest n hn dims query nearest hd
    rw [h1] at h1'
    cases h1'
    exact ⟨fun d hd' => by rw [← h2 d hd']; exact h3 d hd', d, h4, by rw [← h2 d h4]; exact h5⟩
  · obtain ⟨p, h1, h2, -⟩ := C57_nearest n hn dims query nearest hd
    obtain ⟨q, h3, h4⟩ := key p nearest' h2
    exact ⟨p, q, h1, h3, h4⟩

/-- Outside of the box the associated point is the one with each coordinate clamped. -/
theorem associate_outside {n : ℕ} {dims query nearest : ℕ → K} (hd : ∀ d < n, 0 ≤ dims d) (ho : ∃ d < n, dims d / 2 < |query d|) :
    ∃ p, associate n dims query nearest = .ok p ∧ ∀ d < n, p d = clamp dims query d := by
  have h := foldl_inv (dims := dims) (query := query) (nearest := nearest) n hd
  unfold associate
  generalize (List.range n).foldl (step dims query) ⟨nearest, true, none⟩ = s at h
  dsimp only
  obtain ⟨d, h1, h2⟩ := ho
  have hi : ¬ s.inside = true := fun hi => absurd (h.inside.1 hi d h1) (not_le.2 h2)
  rw [if_neg hi]
  exact ⟨_, rfl, fun d hd' => by rw [h.near, if_pos hd']⟩

/-- C157: points outside of the box do not get further from each other, in any coordinate. -/
theorem C157_contract (n : ℕ) (dims q r nearest nearest' : ℕ → K) (hd : ∀ d < n, 0 ≤ dims d) (hq : ∃ d < n, dims d / 2 < |q d|) (hr : ∃ d < n, dims d / 2 < |r d|) :
    ∃ p s, associate n dims q nearest = .ok p ∧ associate n dims r nearest' = .ok s ∧ (∀ d < n, |p d - s d| ≤ |q d - r d|) ∧ dist2 n p s ≤ dist2 n q r := by
  obtain ⟨p, h1, h2⟩ := associate_outside (nearest := nearest) hd hq
  obtain ⟨s, h3, h4⟩ := associate_outside (nearest := nearest') hd hr
  have key : ∀ d < n, |p d - s d| ≤ |q d - r d| := by
    intro d hd'
    rw [h2 d hd', h4 d hd']
    have h0 := hd d hd'
    unfold clamp
    have t1 := le_abs_self (q d - r d)
    have t2 := neg_abs_le (q d - r d)
    split_ifs <;> rw [abs_le] <;> constructor <;> linarith
  refine ⟨p, s, h1, h3, key, ?_⟩
  unfold dist2
  refine sum_le_sum fun d hd' => ?_
  rw [← sq_abs (p d - s d), ← sq_abs (q d - r d)]
  exact pow_le_pow_left₀ (abs_nonneg _) (key d (mem_range.1 hd')) 2

/-- Both restrictions are needed. The mirror image of the centre of a box is the centre, which is associated with the upper side; two points inside on both sides of the
middle, at distance 1/8, are associated with points at distance 2. -/
theorem C157_needed : (associate 1 (fun _ => 2) (fun _ => -1 * (0 : ℚ)) (fun _ => 0)).map (fun p => p 0) = .ok 1 ∧
    (associate 1 (fun _ => 2) (fun _ => (0 : ℚ)) (fun _ => 0)).map (fun p => -1 * p 0) = .ok (-1) ∧
    (associate 1 (fun _ => 2) (fun _ => (1 / 16 : ℚ)) (fun _ => 0)).map (fun p => p 0) = .ok 1 ∧
    (associate 1 (fun _ => 2) (fun _ => (-1 / 16 : ℚ)) (fun _ => 0)).map (fun p => p 0) = .ok (-1) := by decide +kernel

-- a box 4 x 2, the query (3/2, 1/4) and its mirror image in a box of twice the size: (2, 1/4) and (-4, 1/2)
example : ((associate 2 (fun d => 2 * if d = 0 then 4 else 2) (fun d => (if d = 0 then -2 else 2) * if d = 0 then (3 / 2 : ℚ) else 1 / 4) (fun _ => 7)).map fun p => (p 0, p 1)) =
    .ok (-4, 1 / 2) := by decide +kernel
-- two points outside: (3, 0) and (5, 3/2) are associated with (2, 0) and (2, 1)
example : ((associate 2 (fun d => if d = 0 then 4 else 2) (fun d => if d = 0 then (3 : ℚ) else 0) (fun _ => 7)).map fun p => (p 0, p 1)) = .ok (2, 0) ∧
    ((associate 2 (fun d => if d = 0 then 4 else 2) (fun d => if d = 0 then (5 : ℚ) else 3 / 2) (fun _ => 7)).map fun p => (p 0, p 1)) = .ok (2, 1) := by decide +kernel

end Verif.Box
