import Verif.Hough.PlaneProps

/-! Property theorem C60 (see properties.jsonl), exact condition. -/
namespace Verif.Hough
open Verif Functions Interval Interval.Spec

variable {K : Type} [Field K] [LinearOrder K] [FloorRing K] [IsStrictOrderedRing K]

/-- The filtered lists have the same length only when no element is in the larger filter alone. -/
theorem filter_length_eq {α : Type} {p q : α → Bool} (L : List α) (h : ∀ x, p x = true → q x = true) :
    (L.filter p).length ≤ (L.filter q).length ∧ ((L.filter p).length = (L.filter q).length ↔ ∀ x ∈ L, q x = true → p x = true) := by
  induction L with
  | nil => simp
  | cons x L ih =>
    obtain ⟨i1, i2⟩ := ih
    by_cases hq : q x = true
    · by_cases hp : p x = true
      · simp only [List.filter_cons_of_pos hp, List.filter_cons_of_pos hq, List.length_cons, List.forall_mem_cons, hp, Nat.add_right_cancel_iff]
        exact ⟨by omega, by rw [i2]; simp⟩
      · rw [List.filter_cons_of_neg hp, List.filter_cons_of_pos hq, List.length_cons]
        refine ⟨by omega, ⟨fun e => by omega, fun e => absurd (e x (by simp) hq) hp⟩⟩
    · have hp : ¬ p x = true := fun hp => hq (h x hp)
      rw [List.filter_cons_of_neg hp, List.filter_cons_of_neg hq]
      refine ⟨i1, ?_⟩
      rw [i2, List.forall_mem_cons]
      simp [hq]

/-- C60, exact condition: insertion counts in regular bins exactly when there are at least 8 cells of phi and no point is less than one resolution before the
first bin of any normal. -/
theorem C60_iff {d : Plane K} {t s : List ℤ → ℕ} {l : List ℤ → V3 K} (h : PlaneOk d t s l) (hI : I32 d.phiNum) (hr : 0 < d.rhoRes) (points : List (V3 K))
    (hp : AllCastable d l points) (hn : points.length < 18446744073709551616) :
    (∃ d', d.insert points = .ok d' ∧ Counted d d' points (regularBin d)) ↔
      8 ≤ d.phiNum ∧ ∀ i j, (0 ≤ i ∧ i < d.thetaNum) → (0 ≤ j ∧ j < d.phiNum) → ∀ p ∈ points,
        ¬ (d.rhoMin - d.rhoRes < project (l [i, j]) p ∧ project (l [i, j]) p < d.rhoMin) := by
  have hcode : ∀ r y, r ≠ 0 → codeBin d r y = regularBin d r y := by
    intro r y hr0
    unfold codeBin regularBin
    simp only [if_neg hr0]
  have hsub : ∀ y, regularBin d 0 y = true → codeBin d 0 y = true := by
    intro y hy
    unfold codeBin regularBin at *
    simp only [decide_eq_true_eq, Int.cast_zero, zero_mul, add_zero, if_true] at *
    exact ⟨by linarith [hy.1], hy.2⟩
  have hext : ∀ y, (codeBin d 0 y = true → regularBin d 0 y = true) ↔ ¬ (d.rhoMin - d.rhoRes < y ∧ y < d.rhoMin) := by
    intro y
    unfold codeBin regularBin
    simp only [decide_eq_true_eq, Int.cast_zero, zero_mul, add_zero, if_true, zero_add, one_mul]
    constructor
    · rintro e ⟨e1, e2⟩
      have := (e ⟨e1, by linarith⟩).1
      linarith
    · rintro e ⟨e1, e2⟩
      refine ⟨?_, e2⟩
      by_contra hlt
      exact e ⟨e1, not_le.1 hlt⟩
  by_cases h8 : 8 ≤ d.phiNum
  · obtain ⟨d', e1, e2, -⟩ := C60_insert_partial h h8 hI hr points hp
    constructor
    · rintro ⟨d'', e3, e4⟩
      obtain rfl := Except.ok.inj (e1.symm.trans e3)
      refine ⟨h8, fun i j hi hj => ?_⟩
      obtain ⟨n, n1, n2, -⟩ := e2 i j hi hj
      obtain ⟨m, m1, m2, -⟩ := e4 i j hi hj
      have hnl : l [i, j] = n := Except.ok.inj ((get_ok h (r := 0) hi hj).1.symm.trans n1)
      have hml : l [i, j] = m := Except.ok.inj ((get_ok h (r := 0) hi hj).1.symm.trans m1)
      subst hnl
      subst hml
      obtain ⟨o, o1, o2⟩ := n2 0 ⟨le_rfl, h.rho⟩
      obtain ⟨o', o1', o2'⟩ := m2 0 ⟨le_rfl, h.rho⟩
      obtain rfl := Except.ok.inj (o1.symm.trans o1')
      have hw := Except.ok.inj (o2.symm.trans o2')
      obtain ⟨f1, f2⟩ := filter_length_eq (p := fun p : V3 K => regularBin d 0 (project (l [i, j]) p)) (q := fun p => codeBin d 0 (project (l [i, j]) p)) points
        (fun p => hsub _)
      have hlen := List.length_filter_le (fun p : V3 K => codeBin d 0 (project (l [i, j]) p)) points
      have heq : (points.filter fun p => regularBin d 0 (project (l [i, j]) p)).length = (points.filter fun p => codeBin d 0 (project (l [i, j]) p)).length := by
        change wrap (o + (points.filter fun p => codeBin d 0 (project (l [i, j]) p)).length) =
          wrap (o + (points.filter fun p => regularBin d 0 (project (l [i, j]) p)).length) at hw
        unfold wrap at hw
        omega
      exact fun p hpm => (hext _).1 (f2.1 heq p hpm)
    · rintro ⟨-, hno⟩
      refine ⟨d', e1, fun i j hi hj => ?_⟩
      obtain ⟨n, n1, n2, n3⟩ := e2 i j hi hj
      have hnl : l [i, j] = n := Except.ok.inj ((get_ok h (r := 0) hi hj).1.symm.trans n1)
      refine ⟨n, n1, fun r hr' => ?_, n3⟩
      obtain ⟨o, o1, o2⟩ := n2 r hr'
      refine ⟨o, o1, ?_⟩
      rw [o2]
      subst hnl
      refine congrArg (fun L : List (V3 K) => Except.ok (wrap (o + L.length))) (List.filter_congr fun p hpm => ?_)
      rcases eq_or_ne r 0 with rfl | hr0
      · exact Bool.eq_iff_iff.2 ⟨(hext _).2 (hno i j hi hj p hpm), hsub _⟩
      · exact hcode r _ hr0
  · constructor
    · rintro ⟨d', e, -⟩
      rw [C60_notify_violated h (by omega) points] at e
      cases e
    · rintro ⟨e, -⟩
      exact absurd e h8

end Verif.Hough
