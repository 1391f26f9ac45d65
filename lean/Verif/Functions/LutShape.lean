import Verif.Functions.PnebiProps
import Mathlib.Algebra.Order.BigOperators.Group.Finset
import Mathlib.Algebra.Order.BigOperators.Ring.Finset

/-! Property theorems C180 (see properties.jsonl): the shape of the function given by the look-up table. -/
namespace Verif.Functions
variable {K : Type} [Field K] [LinearOrder K] [IsStrictOrderedRing K]

/-- `v` is the value at `a` of the polygon with the `N` vertices `(X i, Y i)`, constant after the last one. -/
def OnPolygon (N : ℕ) (X Y : ℕ → K) (a v : K) : Prop := ∃ i, i < N ∧ X i ≤ a ∧
  ((i + 1 = N ∧ v = Y i) ∨ (i + 1 < N ∧ a < X (i + 1) ∧ (v - Y i) * (X (i + 1) - X i) = (Y (i + 1) - Y i) * (a - X i)))

/-- A bound of the slopes of the edges is one of the slopes of all the chords. -/
theorem polygon_slope {N : ℕ} {X Y : ℕ → K} (hX : ∀ i, i + 1 < N → X i < X (i + 1)) {c : K} (hc : 0 ≤ c) (hs : ∀ i, i + 1 < N → Y (i + 1) - Y i ≤ c * (X (i + 1) - X i))
    {a b v w : K} (hab : a ≤ b) (hv : OnPolygon N X Y a v) (hw : OnPolygon N X Y b w) : w - v ≤ c * (b - a) := by
  have chain : ∀ i d, i + d < N → X i ≤ X (i + d) ∧ Y (i + d) - Y i ≤ c * (X (i + d) - X i) := by
    intro i d
    induction d with
    | zero => intro _; simp
    | succ d ih =>
      intro h
      obtain ⟨h1, h2⟩ := ih (by omega)
      have h3 := hX (i + d) (by omega)
      have h4 := hs (i + d) (by omega)
      rw [← Nat.add_assoc]
      exact ⟨by linarith, by linarith⟩
  obtain ⟨i, hi, ia, hv⟩ := hv
  obtain ⟨j, hj, jb, hw⟩ := hw
  rcases Nat.lt_trichotomy i j with hij | rfl | hij
  · rcases hv with ⟨h, -⟩ | ⟨h, h1, h2⟩
    · omega
    have e1 : Y (i + 1) - v ≤ c * (X (i + 1) - a) := by
      have hd := hX i h
      have := mul_le_mul_of_nonneg_right (hs i h) (sub_nonneg.2 h1.le)
      have e : (Y (i + 1) - v) * (X (i + 1) - X i) = (Y (i + 1) - Y i) * (X (i + 1) - a) := by linear_combination -h2
      exact le_of_mul_le_mul_right (by rw [e]; linarith) (sub_pos.2 hd)
    have e2 := (chain (i + 1) (j - (i + 1)) (by omega)).2
    rw [show i + 1 + (j - (i + 1)) = j by omega] at e2
    have e3 : w - Y j ≤ c * (b - X j) := by
      rcases hw with ⟨-, rfl⟩ | ⟨h, h1, h2⟩
      · rw [sub_self]; exact mul_nonneg hc (sub_nonneg.2 jb)
      · have hd := hX j h
        have := mul_le_mul_of_nonneg_right (hs j h) (sub_nonneg.2 jb)
        exact le_of_mul_le_mul_right (by rw [h2]; linarith) (sub_pos.2 hd)
    linarith
  · rcases hv with ⟨h, rfl⟩ | ⟨h, h1, h2⟩
    · rcases hw with ⟨-, rfl⟩ | ⟨h', -⟩
      · rw [sub_self]; exact mul_nonneg hc (sub_nonneg.2 hab)
      · omega
    · rcases hw with ⟨h', -⟩ | ⟨-, h1', h2'⟩
      · omega
      · have hd := hX i h
        have := mul_le_mul_of_nonneg_right (hs i h) (sub_nonneg.2 hab)
        have e : (w - v) * (X (i + 1) - X i) = (Y (i + 1) - Y i) * (b - a) := by linear_combination h2' - h2
        exact le_of_mul_le_mul_right (by rw [e]; linarith) (sub_pos.2 hd)
  · exfalso
    rcases hw with ⟨h, -⟩ | ⟨h, h1, -⟩
    · omega
    have := (chain (j + 1) (i - (j + 1)) (by omega)).1
    rw [show j + 1 + (i - (j + 1)) = i by omega] at this
    linarith

theorem OnPolygon.neg {N : ℕ} {X Y : ℕ → K} {a v : K} (h : OnPolygon N X Y a v) : OnPolygon N X (fun i => -Y i) a (-v) := by
  obtain ⟨i, hi, ia, h⟩ := h
  refine ⟨i, hi, ia, ?_⟩
  rcases h with ⟨h, rfl⟩ | ⟨h, h1, h2⟩
  · exact Or.inl ⟨h, rfl⟩
  · exact Or.inr ⟨h, h1, by linear_combination -h2⟩

variable [FloorRing K]

/-- The abscissa of the entry `i` of the table. -/
def Lut.px (l : Lut K) (i : ℕ) : K := if h : i < l.lut.length then l.lut[i].x else 0

/-- The value of order `k` of the entry `i` of the table. -/
def Lut.py (l : Lut K) (k i : ℕ) : K := if h : i < l.lut.length then l.lut[i].y.val k else 0

theorem eval_polygon (L : Libm K) (n : ℕ) (hn : 1 ≤ n) (l : Lut K) (h : Built L n l) (k : ℕ) (hk : k < n) (x : K) :
    ∃ v, l.eval k x = .ok v ∧ OnPolygon l.lut.length l.px (l.py k) |x| v := by
  obtain ⟨v, i, hi, e, h1, h2⟩ := C54_eval_partial L n hn l h k hk x
  have ef : fabs x = |x| := by
    unfold fabs
    split
    · rename_i h; rw [abs_of_neg h]
    · rename_i h; rw [abs_of_nonneg (not_lt.1 h)]
  rw [ef] at h1 h2
  refine ⟨v, e, i, hi, by unfold Lut.px; rw [dif_pos hi]; exact h1, ?_⟩
  unfold Lut.px Lut.py
  rcases h2 with ⟨h2, h3⟩ | ⟨hi', h2, h3, -⟩
  · exact Or.inl ⟨h2, by rw [dif_pos hi]; exact h3⟩
  · exact Or.inr ⟨hi', by rw [dif_pos hi']; exact h2, by rw [dif_pos hi, dif_pos hi', dif_pos hi, dif_pos hi']; exact h3⟩

theorem px_lt (L : Libm K) (n : ℕ) (hn : 1 ≤ n) (l : Lut K) (h : Built L n l) (i : ℕ) (hi : i + 1 < l.lut.length) : l.px i < l.px (i + 1) := by
  obtain ⟨-, -, -, hs, -⟩ := built_bracket hn h 0
  unfold Lut.px
  rw [dif_pos (by omega), dif_pos hi]
  exact List.pairwise_iff_getElem.1 hs i (i + 1) _ _ (by omega)

theorem px_nonneg (L : Libm K) (n : ℕ) (hn : 1 ≤ n) (l : Lut K) (h : Built L n l) (i : ℕ) (hi : i < l.lut.length) : 0 ≤ l.lut[i].x := by
  obtain ⟨tol, ht, hc, e⟩ := h
  obtain ⟨l', e', -, -, h0, hs, -⟩ := C54_table_partial L n hn tol ht hc
  obtain rfl := Except.ok.inj (e.symm.trans e')
  have h00 : (l.lut[0]'(by omega)).x = 0 := by
    rw [List.head?_map, List.head?_eq_getElem?, List.getElem?_eq_getElem (by omega), Option.map_some] at h0
    exact Option.some.inj h0
  rcases Nat.eq_zero_or_pos i with rfl | hp
  · exact h00.ge
  · have := List.pairwise_iff_getElem.1 hs 0 i (by omega) hi hp
    rw [h00] at this
    exact this.le

/-- C180: there are no jumps. The values at two arguments differ by at most a constant of the table times the difference of their absolute values; every bound of the slopes between consecutive points
can be taken. -/
theorem C180_lipschitz (L : Libm K) (n : ℕ) (hn : 1 ≤ n) (l : Lut K) (h : Built L n l) (k : ℕ) (hk : k < n) :
    (∀ c : K, 0 ≤ c → (∀ i (hi : i + 1 < l.lut.length), |l.lut[i + 1].y.val k - l.lut[i].y.val k| ≤ c * (l.lut[i + 1].x - l.lut[i].x)) →
      ∀ x y v w, l.eval k x = .ok v → l.eval k y = .ok w → |v - w| ≤ c * |(|x| - |y|)|) ∧
    ∃ c : K, ∀ x y, ∃ v w, l.eval k x = .ok v ∧ l.eval k y = .ok w ∧ |v - w| ≤ c * |(|x| - |y|)| := by
  have hX := px_lt L n hn l h
  have main : ∀ c : K, 0 ≤ c → (∀ i (hi : i + 1 < l.lut.length), |l.lut[i + 1].y.val k - l.lut[i].y.val k| ≤ c * (l.lut[i + 1].x - l.lut[i].x)) →
      ∀ x y v w, l.eval k x = .ok v → l.eval k y = .ok w → |v - w| ≤ c * |(|x| - |y|)| := by
    intro c hc hs
    have hs1 : ∀ i, i + 1 < l.lut.length → l.py k (i + 1) - l.py k i ≤ c * (l.px (i + 1) - l.px i) := by
      intro i hi
      unfold Lut.px Lut.py
      rw [dif_pos hi, dif_pos (by omega), dif_pos hi, dif_pos (by omega)]
      exact (le_abs_self _).trans (hs i hi)
    have hs2 : ∀ i, i + 1 < l.lut.length → -l.py k (i + 1) - -l.py k i ≤ c * (l.px (i + 1) - l.px i) := by
      intro i hi
      unfold Lut.px Lut.py
      rw [dif_pos hi, dif_pos (by omega), dif_pos hi, dif_pos (by omega)]
      exact le_trans (by linarith [neg_abs_le (l.lut[i + 1].y.val k - l.lut[i].y.val k)]) (hs i hi)
    have ordered : ∀ x y v w, |x| ≤ |y| → l.eval k x = .ok v → l.eval k y = .ok w → |v - w| ≤ c * (|y| - |x|) := by
      intro x y v w hxy ev ew
      obtain ⟨v', ev', hv⟩ := eval_polygon L n hn l h k hk x
      obtain ⟨w', ew', hw⟩ := eval_polygon L n hn l h k hk y
      obtain rfl := Except.ok.inj (ev.symm.trans ev')
      obtain rfl := Except.ok.inj (ew.symm.trans ew')
      have h1 := polygon_slope hX hc hs1 hxy hv hw
      have h2 := polygon_slope hX hc hs2 hxy hv.neg hw.neg
      rw [abs_le]
      constructor <;> linarith
    intro x y v w ev ew
    rcases le_total |x| |y| with hxy | hxy
    · rw [abs_of_nonpos (sub_nonpos.2 hxy), neg_sub]
      exact ordered x y v w hxy ev ew
    · rw [abs_of_nonneg (sub_nonneg.2 hxy), abs_sub_comm]
      exact ordered y x w v hxy ew ev
  refine ⟨main, ∑ i ∈ Finset.range l.lut.length, |l.py k (i + 1) - l.py k i| / |l.px (i + 1) - l.px i|, fun x y => ?_⟩
  obtain ⟨v, ev, -⟩ := eval_polygon L n hn l h k hk x
  obtain ⟨w, ew, -⟩ := eval_polygon L n hn l h k hk y
  refine ⟨v, w, ev, ew, main _ (Finset.sum_nonneg fun i _ => by positivity) (fun i hi => ?_) x y v w ev ew⟩
  have hle := Finset.single_le_sum (f := fun i => |l.py k (i + 1) - l.py k i| / |l.px (i + 1) - l.px i|) (fun i _ => by positivity)
    (Finset.mem_range.2 (by omega : i < l.lut.length))
  have hd := hX i hi
  rw [abs_of_pos (sub_pos.2 hd), div_le_iff₀ (sub_pos.2 hd)] at hle
  have e1 : l.py k (i + 1) - l.py k i = l.lut[i + 1].y.val k - l.lut[i].y.val k := by
    unfold Lut.py; rw [dif_pos hi, dif_pos (by omega)]
  have e2 : l.px (i + 1) - l.px i = l.lut[i + 1].x - l.lut[i].x := by
    unfold Lut.px; rw [dif_pos hi, dif_pos (by omega)]
  rw [e1, e2] at hle
  exact hle

/-- C180: the function decreases with the absolute value of the argument exactly when the values at the points of the table do. -/
theorem C180_antitone_iff (L : Libm K) (n : ℕ) (hn : 1 ≤ n) (l : Lut K) (h : Built L n l) (k : ℕ) (hk : k < n) :
    (∀ x y v w, |x| ≤ |y| → l.eval k x = .ok v → l.eval k y = .ok w → w ≤ v) ↔ ∀ i (hi : i + 1 < l.lut.length), l.lut[i + 1].y.val k ≤ l.lut[i].y.val k := by
  constructor
  · intro hm i hi
    have ef : ∀ j (hj : j < l.lut.length), fabs l.lut[j].x = l.lut[j].x := fun j hj => by
      unfold fabs; rw [if_neg (not_lt.2 (px_nonneg L n hn l h j hj))]
    obtain ⟨-, -, -, hs, -⟩ := built_bracket hn h 0
    refine hm l.lut[i].x l.lut[i + 1].x _ _ ?_ (C54_nodes_partial L n hn l h k hk _ (List.getElem_mem _) _ (ef i (by omega)))
      (C54_nodes_partial L n hn l h k hk _ (List.getElem_mem _) _ (ef (i + 1) hi))
    rw [abs_of_nonneg (px_nonneg L n hn l h i (by omega)), abs_of_nonneg (px_nonneg L n hn l h (i + 1) hi)]
    exact (List.pairwise_iff_getElem.1 hs i (i + 1) _ _ (by omega)).le
  · intro hm x y v w hxy ev ew
    obtain ⟨v', ev', hv⟩ := eval_polygon L n hn l h k hk x
    obtain ⟨w', ew', hw⟩ := eval_polygon L n hn l h k hk y
    obtain rfl := Except.ok.inj (ev.symm.trans ev')
    obtain rfl := Except.ok.inj (ew.symm.trans ew')
    have := polygon_slope (px_lt L n hn l h) le_rfl (fun i hi => by
      unfold Lut.py
      rw [dif_pos hi, dif_pos (by omega), zero_mul]
      linarith [hm i hi]) hxy hv hw
    linarith

/-- Example: values of a table between 0 and 1 are on the segment between the ends, from both sides of 0. -/
example : ((Lut.init toy 1 2).bind fun l => do
    let a ← l.eval 0 0
    let b ← l.eval 0 1
    let c ← l.eval 0 (-1 / 4)
    return decide (4 * c = 3 * a + b ∧ a ≠ b)) = .ok true := by decide +kernel

end Verif.Functions
