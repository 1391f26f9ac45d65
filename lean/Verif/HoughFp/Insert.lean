import Verif.HoughFp.Model
import Verif.Hough.Lemmas

/-! Lemmas for C110: the loops of `insert`, for the indices of any arithmetic. -/
namespace Verif.HoughFp
open Verif Hough Ieee Fp Interval Interval.Spec

theorem bind_ok {α β : Type} (a : α) (f : α → Outcome β) : ((Except.ok a : Outcome α) >>= f) = f a := rfl

/-- The number of points with the given index. -/
def votes (f : V3 Flt → ℤ) (points : List (V3 Flt)) (r : ℤ) : ℕ := points.countP fun p => decide (f p = r)

/-- The votes of a list of points for one normal. -/
theorem voteAll_ok {rhoMin rhoRes : Flt} {a b rhoNum i j : ℤ} (hi : 0 ≤ i ∧ i < a) (hj : 0 ≤ j ∧ j < b) (n : V3 Flt) (f : V3 Flt → ℤ)
    (points : List (V3 Flt)) (hp : ∀ p ∈ points, index rhoMin rhoRes n p = .ok (f p)) (t : Grid.Grid ℕ) (c : List ℤ → ℕ) (ht : GridOk t [a, b, rhoNum] c)
    (hc : ∀ is, c is < 18446744073709551616) :
    ∃ t', voteAll rhoMin rhoRes rhoNum i j n points t = .ok t' ∧
      GridOk t' [a, b, rhoNum] (fun is => if is.take 2 = [i, j] then wrap (c is + votes f points (is.getD 2 0)) else c is) := by
  induction points generalizing t c with
  | nil =>
    refine ⟨t, rfl, ht.congr fun is _ => ?_⟩
    simp only [votes, List.countP_nil, add_zero, wrap_of_lt (hc is), ite_self]
  | cons p ps ih =>
    have hp1 := hp p (by simp)
    set r := f p with hrd
    have hv : ∀ k, votes f (p :: ps) k = votes f ps k + if r = k then 1 else 0 := fun k => by
      unfold votes
      rw [List.countP_cons]
      simp [hrd]
    have h1 : ∃ t1, vote rhoNum i j r t = .ok t1 ∧ GridOk t1 [a, b, rhoNum] (fun is => if is = [i, j, r] then wrap (c is + 1) else c is) := by
      unfold vote
      by_cases h : 0 ≤ r ∧ r < rhoNum
      · rw [if_pos h, ht.read (cell3.2 ⟨hi, hj, h⟩), bind_ok]
        obtain ⟨t1, e1, e2⟩ := ht.write (cell3.2 ⟨hi, hj, h⟩) (wrap (c [i, j, r] + 1))
        refine ⟨t1, e1, e2.congr fun is _ => ?_⟩
        by_cases he : is = [i, j, r]
        · rw [if_pos he, if_pos he, he]
        · rw [if_neg he, if_neg he]
      · rw [if_neg h]
        refine ⟨t, rfl, ht.congr fun is hm => ?_⟩
        rw [if_neg]
        rintro rfl
        exact h (cell3.1 hm).2.2
    obtain ⟨t1, e1, g1⟩ := h1
    obtain ⟨t2, e2, g2⟩ := ih (fun q hq => hp q (by simp [hq])) t1 _ g1 (fun is => by
      by_cases he : is = [i, j, r]
      · rw [if_pos he]; exact wrap_lt _
      · rw [if_neg he]; exact hc is)
    refine ⟨t2, ?_, g2.congr fun is hm => ?_⟩
    · unfold voteAll
      rw [List.foldlM_cons, hp1, bind_ok, e1, bind_ok]
      exact e2
    · obtain ⟨x, y, z, rfl⟩ := cell3_cases hm
      by_cases he : List.take 2 [x, y, z] = [i, j]
      · rw [if_pos he, if_pos he, hv]
        simp only [List.take_succ_cons, List.take_zero, List.cons.injEq, and_true] at he
        obtain ⟨rfl, rfl⟩ := he
        show wrap ((if [x, y, z] = [x, y, r] then _ else _) + votes f ps z) = wrap (_ + (votes f ps z + _))
        by_cases hz : z = r
        · rw [if_pos (by rw [hz]), wrap_add]
          show _ = wrap (_ + (_ + if r = z then 1 else 0))
          rw [if_pos hz.symm]
          congr 1
          omega
        · rw [if_neg (by simpa using hz)]
          show _ = wrap (_ + (_ + if r = z then 1 else 0))
          rw [if_neg (Ne.symm hz), add_zero]
      · rw [if_neg he, if_neg he, if_neg]
        intro h'
        exact he (by rw [h']; rfl)

/-- The transform after the insertion of points with the indices `f`. -/
def newTransform (t : List ℤ → ℕ) (f : List ℤ → V3 Flt → ℤ) (points : List (V3 Flt)) (is : List ℤ) : ℕ :=
  wrap (t is + votes (f (is.take 2)) points (is.getD 2 0))

/-- The points have the indices `f` for every normal. -/
def Indices (d : Plane Flt) (l : List ℤ → V3 Flt) (points : List (V3 Flt)) (f : List ℤ → V3 Flt → ℤ) : Prop :=
  ∀ i j, (0 ≤ i ∧ i < d.thetaNum) → (0 ≤ j ∧ j < d.phiNum) → ∀ p ∈ points, index d.rhoMin d.rhoRes (l [i, j]) p = .ok (f [i, j] p)

theorem insert_ok {d : Plane Flt} {t s : List ℤ → ℕ} {l : List ℤ → V3 Flt} (h : PlaneOk d t s l) (h8 : 8 ≤ d.phiNum) (hI : I32 d.phiNum)
    (points : List (V3 Flt)) (f : List ℤ → V3 Flt → ℤ) (hp : Indices d l points f) : ∃ T S, insert d points = .ok { d with transform := T, spectrum := S } ∧
      PlaneOk { d with transform := T, spectrum := S } (newTransform t f points) (newSpectrum d.rhoNum (newTransform t f points)) l := by
  have hdiv : Cxx.idiv d.phiNum 8 = .ok (d.phiNum.tdiv 8) := by
    unfold Cxx.idiv Cxx.int
    rw [if_neg (by norm_num), if_pos]
    unfold I32 at hI
    rw [Int.tdiv_eq_ediv_of_nonneg (by omega)]
    omega
  have hmod : ∀ j, (0 ≤ j ∧ j < d.phiNum) → Cxx.imod j (d.phiNum.tdiv 8) = .ok (j.tmod (d.phiNum.tdiv 8)) := by
    intro j hj
    unfold I32 at hI
    rw [Int.tdiv_eq_ediv_of_nonneg (by omega)]
    have hq : 0 < d.phiNum / 8 := by omega
    unfold Cxx.imod Cxx.idiv Cxx.int
    rw [if_neg (by omega), if_pos]
    · rfl
    · rw [Int.tdiv_eq_ediv_of_nonneg hj.1]
      have h1 := Int.ediv_nonneg hj.1 hq.le
      have h2 := Int.ediv_le_self (d.phiNum / 8) hj.1
      omega
  obtain ⟨T, e1, g1⟩ := rows_inv (dims := [d.rhoNum]) (c0 := t) (c1 := newTransform t f points) h.theta.le h.phi.le
    (fun is hm => by obtain ⟨i, j, k, rfl⟩ := cell3_cases hm; exact ⟨i, j, [k], rfl⟩) h.transform
    (fun itheta iphi t => do
      let _ ← Cxx.imod iphi (d.phiNum.tdiv 8)
      let n ← Grid.read d.lut [itheta, iphi]
      voteAll d.rhoMin d.rhoRes d.rhoNum itheta iphi n points t) (by
      intro i j hi hj g c hg hc hc0
      obtain ⟨g', v1, v2⟩ := voteAll_ok hi hj (l [i, j]) (f [i, j]) points (hp i j hi hj) g c hg (fun is => by
        rcases hc is with e | e <;> rw [e]
        · exact h.counters is
        · exact wrap_lt _)
      refine ⟨g', ?_, v2.congr fun is hm => ?_⟩
      · rw [hmod j hj, bind_ok, h.lut.read (cell2.2 ⟨hi, hj⟩), bind_ok]
        exact v1
      · by_cases he : is.take 2 = [i, j]
        · rw [if_pos he, if_pos he, hc0 is he]
          unfold newTransform
          rw [he]
        · rw [if_neg he, if_neg he])
  obtain ⟨S, e2, g2⟩ := rows_inv (dims := []) (c0 := s) (c1 := newSpectrum d.rhoNum (newTransform t f points)) h.theta.le h.phi.le
    (fun is hm => by obtain ⟨i, j, rfl⟩ := cell2_cases hm; exact ⟨i, j, [], rfl⟩) h.spectrum
    (fun itheta iphi s => do
      let e ← energy T d.rhoNum itheta iphi
      Grid.write s [itheta, iphi] e) (by
      intro i j hi hj g c hg _ _
      obtain ⟨g', w1, w2⟩ := hg.write (cell2.2 ⟨hi, hj⟩) (newSpectrum d.rhoNum (newTransform t f points) [i, j])
      refine ⟨g', ?_, w2.congr fun is hm => ?_⟩
      · rw [energy_ok g1 hi hj h.rho.le, bind_ok]
        exact w1
      · obtain ⟨x, y, rfl⟩ := cell2_cases hm
        by_cases he : [x, y] = [i, j]
        · rw [if_pos he, if_pos (by rw [he]; rfl), he]
        · rw [if_neg he, if_neg (by simpa using he)])
  refine ⟨T, S, ?_, g1, g2, h.lut, fun is => wrap_lt _, h.theta, h.phi, h.rho⟩
  unfold insert
  rw [hdiv, bind_ok, e1, bind_ok, e2, bind_ok]
  rfl

theorem get_ok {d : Plane Flt} {t s : List ℤ → ℕ} {l : List ℤ → V3 Flt} (h : PlaneOk d t s l) {i j r : ℤ} (hi : 0 ≤ i ∧ i < d.thetaNum)
    (hj : 0 ≤ j ∧ j < d.phiNum) : d.getNormal i j = .ok (l [i, j]) ∧ d.getHoughSpectrum i j = .ok (s [i, j]) ∧
      ((0 ≤ r ∧ r < d.rhoNum) → d.getHoughTransform i j r = .ok (t [i, j, r])) := by
  have a1 : ∀ {p : Prop} [Decidable p], p → Cxx.assert p = .ok () := fun hp => if_pos hp
  unfold Plane.getNormal Plane.getHoughSpectrum Plane.getHoughTransform
  refine ⟨?_, ?_, fun hr => ?_⟩
  · rw [a1 hi, bind_ok, a1 hj, bind_ok, h.lut.read (cell2.2 ⟨hi, hj⟩)]
  · rw [a1 hi, bind_ok, a1 hj, bind_ok, h.spectrum.read (cell2.2 ⟨hi, hj⟩)]
  · rw [a1 hi, bind_ok, a1 hj, bind_ok, a1 hr, bind_ok, h.transform.read (cell3.2 ⟨hi, hj, hr⟩)]

end Verif.HoughFp
