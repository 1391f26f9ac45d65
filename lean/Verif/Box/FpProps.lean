import Verif.Box.FpModel
import Verif.Box.Props
import Verif.Ieee.FpSpec
import Verif.Ieee.Rel

/-! Property theorem C123 (see properties.jsonl): the nearest point of a box in floating point arithmetic. -/
namespace Verif.Box
open Verif Ieee Ieee.Fp Float.Model Finset

variable {spec : Format} [Fmt spec]

/-- The types of the coordinates: `float` and `double`. -/
class Narrow (spec : Format) : Prop where
  grid : ∀ {z : ℝ}, Grid spec z → Grid .binary64 z
  top : top spec ≤ 1023

instance : Narrow .binary32 where
  grid := by
    rintro z ⟨q, u, h1, h2, h3⟩
    have h1 : |(q : ℝ)| ≤ 2 ^ (24 : ℤ) := h1
    have h2 : (-149 : ℤ) ≤ u := h2
    exact ⟨q, u, h1.trans (two_pow_le (show (24 : ℤ) ≤ 53 by norm_num)), show (-1074 : ℤ) ≤ u by omega, h3⟩
  top := by decide

instance : Narrow .binary64 where
  grid := id
  top := by decide

/-- A coordinate: a finite number of size up to 2^127 (`float`) or 2^1023 (`double`). -/
structure Coord (x : Fp spec) : Prop where
  fin : x.Fin
  le : |x.val| ≤ 2 ^ top spec

/-- A size: not negative, and zero or at least 2^-125 (`float`) or 2^-1021 (`double`), so that its half is exact. -/
structure Size (x : Fp spec) : Prop extends Coord x where
  nonneg : 0 ≤ x.val
  normal : x.val = 0 ∨ 2 ^ (spec.minExponent + spec.mantissaBits) ≤ x.val

theorem half_grid {x : Fp spec} (h : Size x) : Grid spec (x.val / 2) := by
  rcases h.normal with h0 | h0
  · rw [h0, zero_div]
    exact grid_zero
  · obtain ⟨q, u, h1, h2, h3⟩ := x.grid
    by_cases hu : spec.minExponent = u
    · subst hu
      have hP := two_pow_pos spec.minExponent
      have hq : (2 : ℝ) ^ (spec.mantissaBits : ℤ) ≤ q := by
        rw [h3, two_pow_add, mul_comm] at h0
        exact le_of_mul_le_mul_right h0 hP
      have he : (q : ℝ) = 2 ^ (spec.mantissaBits : ℤ) := le_antisymm ((le_abs_self _).trans h1) hq
      have e : x.val / 2 = 2 ^ (spec.minExponent + (spec.mantissaBits - 1 : ℤ)) := by
        rw [h3, he, ← two_pow_add, div_eq_mul_inv, show (2 : ℝ)⁻¹ = 2 ^ (-1 : ℤ) by norm_num, ← two_pow_add]
        congr 1
        ring
      rw [e]
      refine grid_two_pow ?_
      have := (Fmt.good (spec := spec)).1
      omega
    · refine ⟨q, u - 1, h1, by omega, ?_⟩
      rw [h3, show u - 1 = u + (-1) by ring, two_pow_add]
      norm_num
      ring

variable [Narrow spec]

theorem wide_is {x : Fp spec} (h : Coord x) : (wide x).Fin ∧ (wide x).val = x.val := by
  have := conv_is (spec := .binary64) h.fin (h.le.trans (two_pow_le (show top spec ≤ top .binary64 from Narrow.top)))
  exact ⟨this.1, this.2.exact (Narrow.grid x.grid)⟩

theorem lit_half : (lit .binary64 5 (-1)).Fin ∧ (lit .binary64 5 (-1)).val = 1 / 2 := by
  have h : (lit .binary64 5 (-1)).x = .finite .positive 4503599627370496 (-53) (by decide) := by decide +kernel
  refine ⟨by unfold Fp.Fin; rw [h]; trivial, ?_⟩
  unfold Fp.val
  rw [h, Ieee.val]
  norm_num [sgn]

theorem half_is {x : Fp spec} (h : Size x) : (half x).Fin ∧ (half x).val = x.val / 2 ∧ (negHalf x).Fin ∧ (negHalf x).val = -(x.val / 2) ∧
    (conv (half x) : Fp spec).Fin ∧ (conv (half x) : Fp spec).val = x.val / 2 ∧ (conv (negHalf x) : Fp spec).Fin ∧ (conv (negHalf x) : Fp spec).val = -(x.val / 2) := by
  obtain ⟨w1, w2⟩ := wide_is h.toCoord
  have hn := h.nonneg
  have hle := h.le
  rw [abs_of_nonneg hn] at hle
  have hb : |x.val / 2| ≤ 2 ^ top spec := by
    rw [abs_of_nonneg (by linarith)]
    linarith
  have hb' := hb.trans (two_pow_le (show top spec ≤ top .binary64 from Narrow.top))
  have e1 : (lit .binary64 5 (-1)).val * (wide x).val = x.val / 2 := by rw [lit_half.2, w2]; ring
  have e2 : (-lit .binary64 5 (-1)).val * (wide x).val = -(x.val / 2) := by rw [neg_val, lit_half.2, w2]; ring
  have m1 := mul_is lit_half.1 w1 (by rw [e1]; exact hb')
  have m2 := mul_is (neg_fin.2 lit_half.1) w1 (by rw [e2, abs_neg]; exact hb')
  rw [e1] at m1
  rw [e2] at m2
  have g := half_grid h
  have v1 : (half x).val = x.val / 2 := m1.2.exact (Narrow.grid g)
  have v2 : (negHalf x).val = -(x.val / 2) := m2.2.exact (Narrow.grid g.neg)
  have c1 := conv_is (spec := spec) (a := half x) m1.1 (by rw [v1]; exact hb)
  have c2 := conv_is (spec := spec) (a := negHalf x) m2.1 (by rw [v2, abs_neg]; exact hb)
  rw [v1] at c1
  rw [v2] at c2
  exact ⟨m1.1, v1, m2.1, v2, c1.1, c1.2.exact g, c2.1, c2.2.exact g.neg⟩

/-- The unit of the rounding errors, 2^-24 (`float`) or 2^-53 (`double`). -/
noncomputable def unit (spec : Format) : ℝ := 1 / 2 ^ (spec.mantissaBits : ℤ)

theorem unit_bounds : 0 < unit spec ∧ unit spec ≤ 1 / 2 := by
  have h := (Fmt.good (spec := spec)).1
  unfold unit
  have hp := two_pow_pos (spec.mantissaBits : ℤ)
  refine ⟨by positivity, one_div_le_one_div_of_le (by norm_num) ?_⟩
  have : (2 : ℝ) ^ (1 : ℤ) ≤ 2 ^ (spec.mantissaBits : ℤ) := two_pow_le (by omega)
  norm_num at this ⊢
  exact this

/-- The edge is exact, the distance has a relative error. -/
theorem edge_is {dim q : Fp spec} (hd : Size dim) (hq : Coord q) (hi : |q.val| ≤ dim.val / 2) : (edgeDistF dim q).1.Fin ∧ |(edgeDistF dim q).1.val| = dim.val / 2 ∧
    (edgeDistF dim q).2.Fin ∧ |q.val - (edgeDistF dim q).1.val| = dim.val / 2 - |q.val| ∧
    |(edgeDistF dim q).2.val - (dim.val / 2 - |q.val|)| ≤ unit spec * (dim.val / 2 - |q.val|) := by
  obtain ⟨-, -, -, -, f1, v1, f2, v2⟩ := half_is hd
  obtain ⟨w1, w2⟩ := wide_is hq
  have hn := hd.nonneg
  have hle := hd.le
  rw [abs_of_nonneg hn] at hle
  have hq0 := abs_nonneg q.val
  have hi' := abs_le.1 hi
  have hr : |(dim.val / 2 - |q.val|)| ≤ 2 ^ top spec := by
    rw [abs_of_nonneg (by linarith)]
    linarith
  have key : ∀ {a b : Fp spec}, a.Fin → b.Fin → a.val - b.val = dim.val / 2 - |q.val| →
      (a - b).Fin ∧ |(a - b).val - (dim.val / 2 - |q.val|)| ≤ unit spec * (dim.val / 2 - |q.val|) := by
    intro a b ha hb e
    have hs := sub_is ha hb (by rw [e]; exact hr)
    refine ⟨hs.1, ?_⟩
    have := hs.2.rel_multiple (multiple_sub a b)
    rw [e] at this
    rw [abs_of_nonneg (show 0 ≤ dim.val / 2 - |q.val| by linarith)] at this
    unfold unit
    rw [one_div_mul_eq_div]
    exact this
  unfold edgeDistF
  by_cases h : wide q < 0
  · rw [if_pos h]
    have h' := (lt_iff w1 zero_is.1).1 h
    rw [zero_is.2, w2] at h'
    have ea := abs_of_neg h'
    obtain ⟨k1, k2⟩ := key hq.fin f2 (by rw [v2, ea]; ring)
    refine ⟨f2, ?_, k1, ?_, k2⟩
    · rw [v2, abs_neg, abs_of_nonneg (by linarith)]
    · rw [v2, ea, abs_of_nonneg (by linarith)]
      ring
  · rw [if_neg h]
    have h' := (lt_iff w1 zero_is.1).not.1 h
    rw [zero_is.2, w2, not_lt] at h'
    have ea := abs_of_nonneg h'
    obtain ⟨k1, k2⟩ := key f1 hq.fin (by rw [v1, ea])
    refine ⟨f1, ?_, k1, ?_, k2⟩
    · rw [v1, abs_of_nonneg (by linarith)]
    · rw [v1, ea, abs_sub_comm, abs_of_nonneg (by rw [ea] at hi; linarith)]

/-- The real values of a point. -/
noncomputable def V (p : ℕ → Fp spec) (d : ℕ) : ℝ := (p d).val

/-- The state after the coordinates below `m`. -/
structure FInv (dims query : ℕ → Fp spec) (m : ℕ) (s : State (Fp spec)) : Prop where
  near : ∀ d < m, (s.nearest d).Fin ∧ (s.nearest d).val = clamp (V dims) (V query) d
  inside : s.inside = true ↔ ∀ d < m, |V query d| ≤ V dims d / 2
  some_ : 0 < m → s.inside = true → s.best ≠ none
  best : ∀ d e r, s.best = some (d, e, r) → d < m ∧ e.Fin ∧ |e.val| = V dims d / 2 ∧ r.Fin ∧ |(r.val - |V query d - e.val|)| ≤ unit spec * |V query d - e.val| ∧
    (s.inside = true → ∀ j < m, r.val ≤ (1 + unit spec) * (V dims j / 2 - |V query j|))

theorem stepF_inv {dims query : ℕ → Fp spec} {m : ℕ} {s : State (Fp spec)} (hd : Size (dims m)) (hq : Coord (query m)) (h : FInv dims query m s) :
    FInv dims query (m + 1) (stepF dims query s m) := by
  obtain ⟨a1, a2, b1, b2, c1, c2, d1, d2⟩ := half_is hd
  obtain ⟨w1, w2⟩ := wide_is hq
  have hn := hd.nonneg
  have l1 : wide (query m) < negHalf (dims m) ↔ V query m < -(1 / 2) * V dims m := by
    rw [lt_iff w1 b1, w2, b2]
    unfold V
    rw [show -(1 / 2) * (dims m).val = -((dims m).val / 2) by ring]
  have l2 : wide (query m) > half (dims m) ↔ V query m > 1 / 2 * V dims m := by
    show half (dims m) < wide (query m) ↔ _
    rw [lt_iff a1 w1, w2, a2]
    unfold V
    rw [show 1 / 2 * (dims m).val = (dims m).val / 2 by ring]
  have hnear : ∀ x : Fp spec, x.Fin → x.val = clamp (V dims) (V query) m → ∀ d < m + 1, (upd s.nearest m x d).Fin ∧ (upd s.nearest m x d).val = clamp (V dims) (V query) d := by
    intro x hx hx' d hd'
    rw [upd_eq]
    by_cases e : d = m
    · rw [if_pos e, e]; exact ⟨hx, hx'⟩
    · rw [if_neg e]; exact h.near d (by omega)
  have hout : ∀ x : Fp spec, x.Fin → x.val = clamp (V dims) (V query) m → ¬ |V query m| ≤ V dims m / 2 → FInv dims query (m + 1) ⟨upd s.nearest m x, false, s.best⟩ := by
    intro x hx hx' ho
    refine ⟨hnear x hx hx', ⟨fun hf => by simp at hf, fun hf => absurd (hf m (by omega)) ho⟩, fun _ hf => by simp at hf, fun d e r hb => ?_⟩
    obtain ⟨p1, p2, p3, p4, p5, -⟩ := h.best d e r hb
    exact ⟨by omega, p2, p3, p4, p5, fun hf => by simp at hf⟩
  unfold stepF
  by_cases h1 : wide (query m) < negHalf (dims m)
  · rw [if_pos h1]
    have h1' := l1.1 h1
    refine hout _ d1 ?_ ?_
    · rw [d2]
      unfold clamp
      rw [if_pos h1']
      unfold V
      ring
    · intro hc
      have := (abs_le.1 hc).1
      linarith
  · rw [if_neg h1]
    by_cases h2 : wide (query m) > half (dims m)
    · rw [if_pos h2]
      have h2' := l2.1 h2
      refine hout _ c1 ?_ ?_
      · rw [c2]
        unfold clamp
        rw [if_neg (l1.not.1 h1), if_pos h2']
        unfold V
        ring
      · intro hc
        have := (abs_le.1 hc).2
        linarith
    · rw [if_neg h2]
      have h1' := not_lt.1 (l1.not.1 h1)
      have h2' := not_lt.1 (l2.not.1 h2)
      have hi : |V query m| ≤ V dims m / 2 := abs_le.2 ⟨by linarith, by linarith⟩
      obtain ⟨e1, e2, e3, e4, e5⟩ := edge_is hd hq hi
      have hu := unit_bounds (spec := spec)
      have hmem : ∀ r : Fp spec, (∀ j < m, r.val ≤ (1 + unit spec) * (V dims j / 2 - |V query j|)) → r.val ≤ (1 + unit spec) * (V dims m / 2 - |V query m|) →
          ∀ j < m + 1, r.val ≤ (1 + unit spec) * (V dims j / 2 - |V query j|) := by
        intro r h3 h4 j hj
        by_cases e : j = m
        · rw [e]; exact h4
        · exact h3 j (by omega)
      have hself : (edgeDistF (dims m) (query m)).2.val ≤ (1 + unit spec) * (V dims m / 2 - |V query m|) := by
        have := (abs_le.1 e5).2
        unfold V
        linarith
      refine ⟨hnear _ hq.fin ?_, ?_, ?_, ?_⟩
      · unfold clamp
        rw [if_neg (l1.not.1 h1), if_neg (l2.not.1 h2)]
        rfl
      · show s.inside = true ↔ _
        rw [h.inside]
        constructor
        · intro hh d hd'
          by_cases e : d = m
          · rw [e]; exact hi
          · exact hh d (by omega)
        · exact fun hh d hd' => hh d (by omega)
      · intro _ _
        show (if _ then _ else _) ≠ none
        by_cases hb : betterF (edgeDistF (dims m) (query m)).2 s.best = true
        · rw [if_pos hb]; simp
        · rw [if_neg hb]
          cases hs : s.best with
          | none => rw [hs] at hb; exact absurd rfl hb
          | some b => simp
      · intro d e r hb
        change (if _ then _ else _) = _ at hb
        by_cases hbt : betterF (edgeDistF (dims m) (query m)).2 s.best = true
        · rw [if_pos hbt] at hb
          injection hb with hb
          simp only [Prod.mk.injEq] at hb
          obtain ⟨rfl, rfl, rfl⟩ := hb
          refine ⟨by omega, e1, e2, e3, by unfold V; rw [e4]; exact e5, fun hin => hmem _ (fun j hj => ?_) hself⟩
          cases hs : s.best with
          | none => exact absurd hs (h.some_ (by omega) hin)
          | some b =>
            obtain ⟨d', e', r'⟩ := b
            obtain ⟨-, -, -, p4, -, p6⟩ := h.best d' e' r' hs
            rw [hs] at hbt
            have hlt : (edgeDistF (dims m) (query m)).2 < r' := by simpa [betterF] using hbt
            rw [lt_iff e3 p4] at hlt
            exact hlt.le.trans (p6 hin j hj)
        · rw [if_neg hbt] at hb
          obtain ⟨p1, p2, p3, p4, p5, p6⟩ := h.best d e r hb
          refine ⟨by omega, p2, p3, p4, p5, fun hin => hmem _ (p6 hin) ?_⟩
          rw [hb] at hbt
          have hlt : ¬ (edgeDistF (dims m) (query m)).2 < r := by simpa [betterF] using hbt
          rw [lt_iff e3 p4, not_lt] at hlt
          exact hlt.trans hself

theorem foldlF_inv {dims query nearest : ℕ → Fp spec} (n : ℕ) (hd : ∀ d < n, Size (dims d)) (hq : ∀ d < n, Coord (query d)) :
    FInv dims query n ((List.range n).foldl (stepF dims query) ⟨nearest, true, none⟩) := by
  induction n with
  | zero => exact ⟨fun d h => absurd h (Nat.not_lt_zero d), ⟨fun _ d h => absurd h (Nat.not_lt_zero d), fun _ => rfl⟩, fun h => absurd h (lt_irrefl 0), fun d e r h => by cases h⟩
  | succ n ih =>
    rw [List.range_succ, List.foldl_append]
    exact stepF_inv (hd n (by omega)) (hq n (by omega)) (ih (fun d hd' => hd d (by omega)) fun d hd' => hq d (by omega))

/-- C123: `associate` returns the point of the surface of the box nearest to the query. -/
def C123_statement (spec : Format) [Fmt spec] : Prop :=
  ∀ (n : ℕ) (dims query nearest : ℕ → Fp spec), 0 < n → (∀ d < n, Size (dims d)) → (∀ d < n, Coord (query d)) →
    ∃ p, associateF n dims query nearest = .ok p ∧ (∀ d < n, (p d).Fin) ∧ OnSurface n (V dims) (V p) ∧
      ∀ q, OnSurface n (V dims) q → dist2 n (V query) (V p) ≤ dist2 n (V query) q

/-- C123, the part that holds, for `float` and `double`: the point is exactly on the surface of the box; it is the nearest one when the query is outside of the box; when it is inside, the distance
is the least one up to a factor (1 + u) / (1 - u), where u is 2^-24 or 2^-53. Missing: the nearest point when the query is inside, which is false, see `C123_violated`. -/
theorem C123_nearest_partial (n : ℕ) (hn : 0 < n) (dims query nearest : ℕ → Fp spec) (hd : ∀ d < n, Size (dims d)) (hq : ∀ d < n, Coord (query d)) :
    ∃ p, associateF n dims query nearest = .ok p ∧ (∀ d < n, (p d).Fin) ∧ OnSurface n (V dims) (V p) ∧
      (∀ q, OnSurface n (V dims) q → (1 - unit spec) ^ 2 * dist2 n (V query) (V p) ≤ (1 + unit spec) ^ 2 * dist2 n (V query) q) ∧
      ((∃ d < n, V dims d / 2 < |V query d|) → ∀ q, OnSurface n (V dims) q → dist2 n (V query) (V p) ≤ dist2 n (V query) q) := by
  have h := foldlF_inv (nearest := nearest) n hd hq
  have hu := unit_bounds (spec := spec)
  unfold associateF
  generalize (List.range n).foldl (stepF dims query) ⟨nearest, true, none⟩ = s at h
  dsimp only
  by_cases hi : s.inside = true
  · rw [if_pos hi]
    cases hb : s.best with
    | none => exact absurd hb (h.some_ hn hi)
    | some b =>
      obtain ⟨d, e, r⟩ := b
      obtain ⟨h1, h2, h3, -, h4, h5⟩ := h.best d e r hb
      have h5 := h5 hi
      have h6 := h.inside.1 hi
      refine ⟨upd query d e, rfl, fun j hj => ?_, ⟨fun j hj => ?_, d, h1, ?_⟩, fun q ⟨q1, j, q2, q3⟩ => ?_, fun ⟨j, j1, j2⟩ => absurd (h6 j j1) (not_le.2 j2)⟩
      · rw [upd_eq]
        by_cases hjd : j = d
        · rw [if_pos hjd]; exact h2
        · rw [if_neg hjd]; exact (hq j hj).fin
      · unfold V
        rw [upd_eq]
        by_cases hjd : j = d
        · rw [if_pos hjd, h3, hjd]; exact le_rfl
        · rw [if_neg hjd]; exact h6 j hj
      · show |(upd query d e d).val| = _
        rw [upd_eq, if_pos rfl, h3]
      · have e1 : dist2 n (V query) (V (upd query d e)) = |V query d - e.val| ^ 2 := by
          unfold dist2
          rw [sum_eq_single d]
          · show (V query d - (upd query d e d).val) ^ 2 = _
            rw [upd_eq, if_pos rfl, sq_abs]
          · intro i _ hi'
            show (V query i - (upd query d e i).val) ^ 2 = _
            rw [upd_eq, if_neg hi']
            show ((query i).val - (query i).val) ^ 2 = 0
            rw [sub_self, zero_pow two_ne_zero]
          · intro h'
            exact absurd (mem_range.2 h1) h'
        have e2 : (V query j - q j) ^ 2 ≤ dist2 n (V query) q := by
          unfold dist2
          exact single_le_sum (f := fun d => (V query d - q d) ^ 2) (fun i _ => sq_nonneg _) (mem_range.2 q2)
        have e3 : V dims j / 2 - |V query j| ≤ |V query j - q j| := by
          have h7 := abs_sub_abs_le_abs_sub (q j) (V query j)
          rw [abs_sub_comm, q3] at h7
          exact h7
        have e4 := (abs_le.1 h4).1
        have e5 := h5 j q2
        have e6 : (1 - unit spec) * |V query d - e.val| ≤ (1 + unit spec) * |V query j - q j| := by
          have : (1 + unit spec) * (V dims j / 2 - |V query j|) ≤ (1 + unit spec) * |V query j - q j| := mul_le_mul_of_nonneg_left e3 (by linarith)
          linarith
        have e7 := pow_le_pow_left₀ (mul_nonneg (by linarith) (abs_nonneg _)) e6 2
        rw [mul_pow, mul_pow, sq_abs (V query j - q j)] at e7
        rw [e1]
        exact e7.trans (mul_le_mul_of_nonneg_left e2 (sq_nonneg _))
  · rw [if_neg hi]
    obtain ⟨p', x1, x2, x3⟩ := C57_nearest n hn (V dims) (V query) (V nearest) fun d hd' => (hd d hd').nonneg
    have hx := foldl_inv (dims := V dims) (query := V query) (nearest := V nearest) n fun d hd' => (hd d hd').nonneg
    unfold associate at x1
    generalize (List.range n).foldl (step (V dims) (V query)) ⟨V nearest, true, none⟩ = s' at x1 hx
    have hi' : ¬ s'.inside = true := fun hc => hi (h.inside.2 (hx.inside.1 hc))
    dsimp only at x1
    rw [if_neg hi'] at x1
    injection x1 with x1
    have hp : ∀ d < n, V s.nearest d = p' d := by
      intro d hd'
      rw [← x1, hx.near, if_pos hd']
      exact (h.near d hd').2
    have hdist : dist2 n (V query) (V s.nearest) = dist2 n (V query) p' := by
      unfold dist2
      exact sum_congr rfl fun d hd' => by rw [hp d (mem_range.1 hd')]
    have hopt : ∀ q, OnSurface n (V dims) q → dist2 n (V query) (V s.nearest) ≤ dist2 n (V query) q := by
      intro q hq'
      rw [hdist]
      exact x3 q hq'
    refine ⟨s.nearest, rfl, fun d hd' => (h.near d hd').1, ⟨fun d hd' => by rw [hp d hd']; exact x2.1 d hd', ?_⟩, fun q hq' => ?_, fun _ => hopt⟩
    · obtain ⟨d, d1, d2⟩ := x2.2
      exact ⟨d, d1, by rw [hp d d1, d2]⟩
    · have h0 : 0 ≤ dist2 n (V query) (V s.nearest) := sum_nonneg fun i _ => sq_nonneg _
      exact mul_le_mul (pow_le_pow_left₀ (by linarith) (by linarith) 2) (hopt q hq') h0 (sq_nonneg _)


/-- The point (0, 2^-26) in a square of size 1. -/
def queryF (d : ℕ) : Fp .binary32 := if d = 0 then 0 else ((1 : ℕ) : Fp .binary32) / ((67108864 : ℕ) : Fp .binary32)

theorem queryF_is : (queryF 1).Fin ∧ (queryF 1).val = 1 / 67108864 := by
  have h : (queryF 1).x = .finite .positive 8388608 (-49) (by decide) := by decide +kernel
  refine ⟨by unfold Fp.Fin; rw [h]; trivial, ?_⟩
  unfold Fp.val
  rw [h, Ieee.val]
  norm_num [sgn]

/-- The point (0, 2^-55) in a square of size 1. -/
def queryD (d : ℕ) : Fp .binary64 := if d = 0 then 0 else ((1 : ℕ) : Fp .binary64) / ((36028797018963968 : ℕ) : Fp .binary64)

theorem queryD_is : (queryD 1).Fin ∧ (queryD 1).val = 1 / 36028797018963968 := by
  have h : (queryD 1).x = .finite .positive 4503599627370496 (-107) (by decide) := by decide +kernel
  refine ⟨by unfold Fp.Fin; rw [h]; trivial, ?_⟩
  unfold Fp.val
  rw [h, Ieee.val]
  norm_num [sgn]

/-- C123 is false: in a square of size 1 the point (0, ε) is nearer to the second edge, but 1/2 - ε is rounded to 1/2. -/
theorem violated_of {spec : Format} [Fmt spec] {query : ℕ → Fp spec} {ε : ℝ} (h0 : query 0 = 0) (h1 : (query 1).Fin) (h2 : (query 1).val = ε) (he : 0 < ε) (he' : ε ≤ 1 / 4)
    (hone : ((1 : ℕ) : Fp spec).Fin ∧ ((1 : ℕ) : Fp spec).val = 1) (hs : spec.minExponent + spec.mantissaBits ≤ 0) (ht : 0 ≤ top spec) {x : Fp spec} (hx : x.val = 1 / 2)
    (hc : ((associateF 2 (fun _ => ((1 : ℕ) : Fp spec)) query (fun _ => 0)).map fun p => (p 0, p 1)) = .ok (x, query 1)) : ¬ C123_statement spec := by
  intro h
  have hp : (1 : ℝ) ≤ 2 ^ top spec := by
    have := two_pow_le ht
    rwa [zpow_zero] at this
  have hm : (2 : ℝ) ^ (spec.minExponent + spec.mantissaBits : ℤ) ≤ 1 := by
    have := two_pow_le hs
    rwa [zpow_zero] at this
  obtain ⟨p, e1, -, -, e2⟩ := h 2 (fun _ => ((1 : ℕ) : Fp spec)) query (fun _ => 0) (by norm_num)
    (fun d _ => ⟨⟨hone.1, by rw [hone.2, abs_one]; exact hp⟩, by rw [hone.2]; norm_num, Or.inr (by rw [hone.2]; exact hm)⟩) (by
      intro d hd
      have : d = 0 ∨ d = 1 := by omega
      rcases this with rfl | rfl
      · rw [h0]; exact ⟨zero_is.1, by rw [zero_is.2, abs_zero]; linarith⟩
      · exact ⟨h1, by rw [h2, abs_of_pos he]; linarith⟩)
  rw [e1] at hc
  have hc' : (p 0, p 1) = (x, query 1) := Except.ok.inj hc
  rw [Prod.mk.injEq] at hc'
  have := e2 (fun d => if d = 0 then 0 else 1 / 2) (by
    refine ⟨fun d hd => ?_, 1, by norm_num, ?_⟩
    · show |(if d = 0 then (0 : ℝ) else 1 / 2)| ≤ ((1 : ℕ) : Fp spec).val / 2
      rw [hone.2]
      split <;> norm_num [abs_of_pos]
    · show |(if (1 : ℕ) = 0 then (0 : ℝ) else 1 / 2)| = ((1 : ℕ) : Fp spec).val / 2
      rw [hone.2]
      norm_num [abs_of_pos])
  unfold dist2 V at this
  simp only [sum_range_succ, sum_range_zero, hc'.1, hc'.2, h0, h2, hx, zero_is.2] at this
  norm_num at this
  nlinarith

theorem C123_violated : ¬ C123_statement .binary32 ∧ ¬ C123_statement .binary64 := by
  constructor
  · refine violated_of (query := queryF) rfl queryF_is.1 queryF_is.2 (by norm_num) (by norm_num) ?_ (by decide) (by decide)
      (x := lit .binary32 5 (-1)) ?_ (by decide +kernel)
    · have := natCast_exact (spec := .binary32) (n := 1) (by norm_num [show (Format.binary32.mantissaBits : ℤ) = 24 from rfl]) (by rw [show top .binary32 = (127 : ℤ) from rfl]; norm_num)
      exact ⟨this.1, by rw [this.2]; norm_num⟩
    · have h : (lit .binary32 5 (-1)).x = .finite .positive 8388608 (-24) (by decide) := by decide +kernel
      unfold Fp.val
      rw [h, Ieee.val]
      norm_num [sgn]
  · refine violated_of (query := queryD) rfl queryD_is.1 queryD_is.2 (by norm_num) (by norm_num) ?_ (by decide) (by decide)
      (x := lit .binary64 5 (-1)) lit_half.2 (by decide +kernel)
    have := natCast_exact (spec := .binary64) (n := 1) (by norm_num [show (Format.binary64.mantissaBits : ℤ) = 53 from rfl]) (by rw [show top .binary64 = ((1023 : ℕ) : ℤ) from rfl, zpow_natCast, Nat.cast_one]; exact one_le_pow₀ (by norm_num))
    exact ⟨this.1, by rw [this.2]; norm_num⟩

/-- A point or a size of two coordinates. -/
def pt (x y : Fp spec) (d : ℕ) : Fp spec := if d = 0 then x else y

-- a box 4.2 x 2 in `float`: from inside to the nearest edge, from outside to the corner
example : ((associateF 2 (pt (lit .binary32 42 (-1)) (2 : ℕ)) (pt (lit .binary32 15 (-1)) (lit .binary32 1 (-1))) (fun _ => 0)).map fun p => (p 0, p 1)) =
    .ok (lit .binary32 21 (-1), lit .binary32 1 (-1)) := by decide +kernel
example : ((associateF 2 (pt (lit .binary32 42 (-1)) (2 : ℕ)) (pt (-lit .binary32 55 (-1)) (3 : ℕ)) (fun _ => 0)).map fun p => (p 0, p 1)) =
    .ok (-lit .binary32 21 (-1), ((1 : ℕ) : Flt)) := by decide +kernel
-- sizes below 2^-125 may have no exact half: the smallest number 2^-149 has the half 0
example : ((associateF 1 (fun _ => lit .binary32 14 (-46)) (fun _ => 0) (fun _ => 0)).map fun p => p 0) = .ok 0 ∧ lit .binary32 14 (-46) ≠ 0 := by decide +kernel
-- a coordinate that is NaN is replaced by an edge when it is the first one and the others are inside, and kept otherwise
example : ((associateF 2 (fun _ => ((1 : ℕ) : Flt)) (pt (0 / 0) 0) (fun _ => 0)).map fun p => (p 0, p 1)) = .ok (lit .binary32 5 (-1), 0) ∧
    ((associateF 2 (fun _ => ((1 : ℕ) : Flt)) (pt 0 (0 / 0)) (fun _ => 0)).map fun p => (decide (p 0 = lit .binary32 5 (-1)), decide (p 1).NaN)) = .ok (true, true) := by decide +kernel

end Verif.Box
