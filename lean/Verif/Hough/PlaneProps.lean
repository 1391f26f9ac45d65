import Verif.Hough.Lemmas
import Verif.Functions.Spec
import Mathlib.Tactic.Linarith
import Mathlib.Tactic.FieldSimp

/-! Property theorems C60, C61 (see properties.jsonl). -/
namespace Verif.Hough
open Verif Functions Interval Interval.Spec

variable {K : Type} [Field K] [LinearOrder K] [FloorRing K]

theorem initDims_ok {α : Type} (maxSize : ℕ) (z : α) (g : Grid.Grid α) (dims : List ℤ) (hd : ∀ d ∈ dims, 0 < d ∧ I32 d) (hc : dims.prod ≤ 2147483647)
    (hm : dims.prod ≤ maxSize) : ∃ g' c, Grid.initDims maxSize z g dims = .ok g' ∧ GridOk g' dims c := by
  have hiv : Interval.initBounds (dims.map fun _ => 0) dims = dims.map (fun d => ⟨0, d⟩) := by
    unfold Interval.initBounds
    rw [List.zipWith_map_left, List.zipWith_self]
  have hp : Proper (dims.map (fun d => (⟨0, d⟩ : Axis))) := by
    intro a ha
    obtain ⟨d, hd', rfl⟩ := List.mem_map.1 ha
    have := hd d hd'
    unfold I32 at *
    simp only
    omega
  have hcard : card (dims.map (fun d => (⟨0, d⟩ : Axis))) = dims.prod := by
    unfold card; rw [List.map_map]; exact congrArg List.prod (List.map_id dims)
  have hs := size_ok hp (by rw [hcard]; exact hc)
  have hv : Grid.Valid (⟨⟨size (dims.map (fun d => (⟨0, d⟩ : Axis))), fun i => if i < g.data.len then g.data.val i else z⟩,
      dims.map (fun d => ⟨0, d⟩)⟩ : Grid.Grid α) := ⟨hp, by rw [hcard]; exact hc, hs⟩
  refine ⟨_, fun is => if (rank (dims.map (fun d => (⟨0, d⟩ : Axis))) is).toNat < g.data.len then
    g.data.val (rank (dims.map (fun d => (⟨0, d⟩ : Axis))) is).toNat else z, ?_, hv, rfl, ?_⟩
  · unfold Grid.initDims Grid.initBounds Grid.resize
    rw [hiv]
    simp only [bind, Except.bind]
    rw [if_neg (by rw [hcard] at hs; omega)]
    rfl
  · intro is his
    have := Grid.read_ok hv his
    rw [this.1, this.2]
    exact ⟨rfl, rfl⟩

/-- The sizes of a usable detector. -/
def SizesOk (maxSize : ℕ) (a b c : ℤ) : Prop := 0 < a ∧ 0 < b ∧ 0 < c ∧ a * b * c ≤ 2147483647 ∧ a * b * c ≤ maxSize

/-- C60, initialisation: the transform and the spectrum are zero, whatever they were before, and the normals are those of the angles. -/
theorem C60_init (L : Libm K) (maxSize : ℕ) (d : Plane K) {a b c : ℤ} (h : SizesOk maxSize a b c) (thetaMin phiMin rhoMin thetaRes phiRes rhoRes : K) :
    ∃ d', d.init L maxSize a b c thetaMin phiMin rhoMin thetaRes phiRes rhoRes = .ok d' ∧
      PlaneOk d' (fun _ => 0) (fun _ => 0) (fun is => (L.cos (thetaRes * (is.getD 0 0 : ℤ) + thetaMin) * L.cos (phiRes * (is.getD 1 0 : ℤ) + phiMin),
        L.cos (thetaRes * (is.getD 0 0 : ℤ) + thetaMin) * L.sin (phiRes * (is.getD 1 0 : ℤ) + phiMin), L.sin (thetaRes * (is.getD 0 0 : ℤ) + thetaMin))) ∧
      (d'.thetaNum, d'.phiNum, d'.rhoNum) = (a, b, c) ∧ (d'.rhoMin, d'.rhoRes) = (rhoMin, rhoRes) := by
  obtain ⟨ha, hb, hc, h1, h2⟩ := h
  have p1 : a ≤ a * b := le_mul_of_one_le_right ha.le hb
  have p2 : b ≤ a * b := le_mul_of_one_le_left hb.le ha
  have p3 : a * b ≤ a * b * c := le_mul_of_one_le_right (by positivity) hc
  have p4 : c ≤ a * b * c := le_mul_of_one_le_left hc.le (by nlinarith)
  have i3 : ∀ x ∈ [a, b, c], 0 < x ∧ I32 x := by
    unfold I32
    intro x hx
    simp only [List.mem_cons, List.not_mem_nil, or_false] at hx
    rcases hx with rfl | rfl | rfl <;> omega
  have i2 : ∀ x ∈ [a, b], 0 < x ∧ I32 x := fun x hx => i3 x (by simp at hx ⊢; tauto)
  have e3 : [a, b, c].prod = a * b * c := by simp [mul_assoc]
  have e2 : [a, b].prod = a * b := by simp
  obtain ⟨t, ct, t1, t2⟩ := initDims_ok maxSize 0 d.transform [a, b, c] i3 (by rw [e3]; exact h1) (by rw [e3]; exact h2)
  obtain ⟨s, cs, s1, s2⟩ := initDims_ok maxSize 0 d.spectrum [a, b] i2 (by rw [e2]; omega) (by rw [e2]; omega)
  obtain ⟨l, cl, l1, l2⟩ := initDims_ok maxSize (0, 0, 0) d.lut [a, b] i2 (by rw [e2]; omega) (by rw [e2]; omega)
  obtain ⟨l', l3, l4⟩ := rows_inv (dims := []) (c1 := fun is => normal L thetaMin phiMin thetaRes phiRes (is.getD 0 0) (is.getD 1 0)) ha.le hb.le
    (fun is hm => by obtain ⟨i, j, rfl⟩ := cell2_cases hm; exact ⟨i, j, [], rfl⟩) l2
    (fun itheta iphi l => Grid.write l [itheta, iphi] (normal L thetaMin phiMin thetaRes phiRes itheta iphi)) (by
      intro i j hi hj g cc hg _ _
      obtain ⟨g', w1, w2⟩ := hg.write (cell2.2 ⟨hi, hj⟩) (normal L thetaMin phiMin thetaRes phiRes i j)
      refine ⟨g', w1, w2.congr fun is hm => ?_⟩
      obtain ⟨x, y, rfl⟩ := cell2_cases hm
      by_cases he : [x, y] = [i, j]
      · rw [if_pos he, if_pos (by rw [he]; rfl), he]
        rfl
      · rw [if_neg he, if_neg (by simpa using he)])
  refine ⟨⟨Grid.fill t 0, Grid.fill s 0, l', a, b, c, thetaMin, phiMin, rhoMin, thetaRes, phiRes, rhoRes, d.ithetaWin, d.iphiWin, d.irhoWin⟩, ?_,
    ⟨t2.fill 0, s2.fill 0, l4, fun _ => by norm_num, ha, hb, hc⟩, rfl, rfl⟩
  unfold Plane.init
  rw [t1, bind_ok, s1, bind_ok, l1, bind_ok, l3, bind_ok]
  rfl

/-- C60, reset: `setZero` clears the counters. -/
theorem setZero_ok {d : Plane K} {t s : List ℤ → ℕ} {l : List ℤ → V3 K} (h : PlaneOk d t s l) : PlaneOk d.setZero (fun _ => 0) (fun _ => 0) l :=
  ⟨h.transform.fill 0, h.spectrum.fill 0, h.lut, fun _ => by norm_num, h.theta, h.phi, h.rho⟩

/-- The points of a detector whose index can be computed for every normal. -/
def AllCastable (d : Plane K) (l : List ℤ → V3 K) (points : List (V3 K)) : Prop :=
  ∀ i j, (0 ≤ i ∧ i < d.thetaNum) → (0 ≤ j ∧ j < d.phiNum) → Castable d.rhoMin d.rhoRes (l [i, j]) points

theorem insert_ok {d : Plane K} {t s : List ℤ → ℕ} {l : List ℤ → V3 K} (h : PlaneOk d t s l) (h8 : 8 ≤ d.phiNum) (hI : I32 d.phiNum) (hr : d.rhoRes ≠ 0)
    (points : List (V3 K)) (hp : AllCastable d l points) : ∃ T S, d.insert points = .ok { d with transform := T, spectrum := S } ∧
      PlaneOk { d with transform := T, spectrum := S } (newTransform d t l points) (newSpectrum d.rhoNum (newTransform d t l points)) l := by
  have hdiv : Cxx.idiv d.phiNum 8 = .ok (d.phiNum.tdiv 8) := by
    unfold Cxx.idiv Cxx.int
    rw [if_neg (by norm_num), if_pos]
    unfold I32 at hI
    rw [Int.tdiv_eq_ediv_of_nonneg (by omega)]
    omega
  have hmod : ∀ j, (0 ≤ j ∧ j < d.phiNum) → Cxx.imod j (d.phiNum.tdiv 8) = .ok (j.tmod (d.phiNum.tdiv 8)) := by
    intro j hj
    unfold I32 at hI
    rw [Int.tdiv_eq_ediv_of_nonneg (by omega)]
    have hq : 0 < d.phiNum / 8 := by omega
    unfold Cxx.imod Cxx.idiv Cxx.int
    rw [if_neg (by omega), if_pos]
    · rfl
    · rw [Int.tdiv_eq_ediv_of_nonneg hj.1]
      have h1 := Int.ediv_nonneg hj.1 hq.le
      have h2 := Int.ediv_le_self (d.phiNum / 8) hj.1
      omega
  obtain ⟨T, e1, g1⟩ := rows_inv (dims := [d.rhoNum]) (c0 := t) (c1 := newTransform d t l points) h.theta.le h.phi.le
    (fun is hm => by obtain ⟨i, j, k, rfl⟩ := cell3_cases hm; exact ⟨i, j, [k], rfl⟩) h.transform
    (fun itheta iphi t => do
      let _ ← Cxx.imod iphi (d.phiNum.tdiv 8)
      let n ← Grid.read d.lut [itheta, iphi]
      voteAll d.rhoMin d.rhoRes d.rhoNum itheta iphi n points t) (by
      intro i j hi hj g c hg hc hc0
      obtain ⟨g', v1, v2⟩ := voteAll_ok hr hi hj (l [i, j]) points (hp i j hi hj) g c hg (fun is => by
        rcases hc is with e | e <;> rw [e]
        · exact h.counters is
        · exact wrap_lt _)
      refine ⟨g', ?_, v2.congr fun is hm => ?_⟩
      · rw [hmod j hj, bind_ok, h.lut.read (cell2.2 ⟨hi, hj⟩), bind_ok]
        exact v1
      · by_cases he : is.take 2 = [i, j]
        · rw [if_pos he, if_pos he, hc0 is he]
          unfold newTransform
          rw [he]
        · rw [if_neg he, if_neg he])
  obtain ⟨S, e2, g2⟩ := rows_inv (dims := []) (c0 := s) (c1 := newSpectrum d.rhoNum (newTransform d t l points)) h.theta.le h.phi.le
    (fun is hm => by obtain ⟨i, j, rfl⟩ := cell2_cases hm; exact ⟨i, j, [], rfl⟩) h.spectrum
    (fun itheta iphi s => do
      let e ← energy T d.rhoNum itheta iphi
      Grid.write s [itheta, iphi] e) (by
      intro i j hi hj g c hg _ _
      obtain ⟨g', w1, w2⟩ := hg.write (cell2.2 ⟨hi, hj⟩) (newSpectrum d.rhoNum (newTransform d t l points) [i, j])
      refine ⟨g', ?_, w2.congr fun is hm => ?_⟩
      · rw [energy_ok g1 hi hj h.rho.le, bind_ok]
        exact w1
      · obtain ⟨x, y, rfl⟩ := cell2_cases hm
        by_cases he : [x, y] = [i, j]
        · rw [if_pos he, if_pos (by rw [he]; rfl), he]
        · rw [if_neg he, if_neg (by simpa using he)])
  refine ⟨T, S, ?_, g1, g2, h.lut, fun is => wrap_lt _, h.theta, h.phi, h.rho⟩
  unfold Plane.insert
  rw [hdiv, bind_ok, e1, bind_ok, e2, bind_ok]
  rfl

variable [IsStrictOrderedRing K]

/-- The index of a point with positive resolution: bins of one resolution, except that the first one also takes the bin before it. -/
theorem bin_iff {rhoMin rhoRes : K} (hr : 0 < rhoRes) (n p : V3 K) (r : ℤ) (h0 : 0 ≤ r) : bin rhoMin rhoRes n p = r ↔
    (if r = 0 then rhoMin - rhoRes < project n p else rhoMin + r * rhoRes ≤ project n p) ∧ project n p < rhoMin + (r + 1) * rhoRes := by
  unfold bin trunc
  set y := project n p
  have h1 : ∀ k : ℤ, (k : K) ≤ (y - rhoMin) / rhoRes ↔ rhoMin + k * rhoRes ≤ y := fun k => by rw [le_div_iff₀ hr]; constructor <;> intro h <;> linarith
  have h2 : ∀ k : ℤ, (y - rhoMin) / rhoRes < k ↔ y < rhoMin + k * rhoRes := fun k => by rw [div_lt_iff₀ hr]; constructor <;> intro h <;> linarith
  have h3 : ∀ k : ℤ, (k : K) < (y - rhoMin) / rhoRes ↔ rhoMin + k * rhoRes < y := fun k => by rw [lt_div_iff₀ hr]; constructor <;> intro h <;> linarith
  by_cases hx : 0 ≤ (y - rhoMin) / rhoRes
  · rw [if_pos hx, Int.floor_eq_iff, h1]
    have hy := (h1 0).1 (by simpa using hx)
    rw [show ((r : K) + 1) = ((r + 1 : ℤ) : K) by push_cast; rfl, h2]
    refine and_congr_left fun _ => ?_
    by_cases hr0 : r = 0
    · rw [if_pos hr0, hr0]
      push_cast at hy ⊢
      constructor <;> intro _ <;> linarith
    · rw [if_neg hr0]
  · rw [if_neg hx]
    have hx := not_le.1 hx
    have hy := (h2 0).1 (by simpa using hx)
    push_cast at hy
    rw [Int.ceil_eq_iff]
    by_cases hr0 : r = 0
    · rw [if_pos hr0, hr0]
      have := h3 (-1)
      push_cast at this ⊢
      rw [show (0 : K) - 1 = -1 by ring, this]
      constructor
      · rintro ⟨a, -⟩; constructor <;> linarith
      · rintro ⟨a, -⟩; exact ⟨by linarith, hx.le⟩
    · rw [if_neg hr0]
      have hr1 : (1 : K) ≤ r := by exact_mod_cast (by omega : 1 ≤ r)
      constructor
      · rintro ⟨a, -⟩
        linarith
      · rintro ⟨a, -⟩
        nlinarith

/-- What C60 asks of the detector `d'` after the insertion of points in `d`: each cell of the transform counts the points with projection in the
bin `lo ≤ rho < hi` and each cell of the spectrum is the sum of the squares along rho (in the arithmetic of `size_t`). -/
def Counted (d d' : Plane K) (points : List (V3 K)) (inBin : ℤ → K → Bool) : Prop :=
  ∀ i j, (0 ≤ i ∧ i < d.thetaNum) → (0 ≤ j ∧ j < d.phiNum) → ∃ n, d.getNormal i j = .ok n ∧
    (∀ r, (0 ≤ r ∧ r < d.rhoNum) → ∃ old, d.getHoughTransform i j r = .ok old ∧
      d'.getHoughTransform i j r = .ok (wrap (old + (points.filter fun p => inBin r (n.1 * p.1 + n.2.1 * p.2.1 + n.2.2 * p.2.2)).length))) ∧
    ∃ f : ℕ → ℕ, (∀ r : ℕ, (r : ℤ) < d.rhoNum → d'.getHoughTransform i j r = .ok (f r)) ∧
      d'.getHoughSpectrum i j = .ok (wrap (∑ r ∈ Finset.range d.rhoNum.toNat, f r ^ 2))

/-- The bins of one resolution. -/
def regularBin (d : Plane K) (r : ℤ) (y : K) : Bool := decide (d.rhoMin + r * d.rhoRes ≤ y ∧ y < d.rhoMin + (r + 1) * d.rhoRes)

/-- The bins of the code: the first has twice the width. -/
def codeBin (d : Plane K) (r : ℤ) (y : K) : Bool :=
  decide ((if r = 0 then d.rhoMin - d.rhoRes < y else d.rhoMin + r * d.rhoRes ≤ y) ∧ y < d.rhoMin + (r + 1) * d.rhoRes)

/-- C60: insertion works on every initialised detector and counts in regular bins. -/
def C60_statement (K : Type) [Field K] [LinearOrder K] [FloorRing K] [IsStrictOrderedRing K] (L : Libm K) : Prop :=
  ∀ (maxSize : ℕ) (a b c : ℤ) (rhoRes : K) (points : List (V3 K)), SizesOk maxSize a b c → 0 < rhoRes →
    ∀ d, Plane.new.initSizes L maxSize a b c rhoRes = .ok d → (∀ l, GridOk d.lut [d.thetaNum, d.phiNum] l → AllCastable d l points) →
      ∃ d', d.insert points = .ok d' ∧ Counted d d' points (regularBin d)

omit [IsStrictOrderedRing K] in
theorem get_ok {d : Plane K} {t s : List ℤ → ℕ} {l : List ℤ → V3 K} (h : PlaneOk d t s l) {i j r : ℤ} (hi : 0 ≤ i ∧ i < d.thetaNum)
    (hj : 0 ≤ j ∧ j < d.phiNum) : d.getNormal i j = .ok (l [i, j]) ∧ d.getHoughSpectrum i j = .ok (s [i, j]) ∧
      ((0 ≤ r ∧ r < d.rhoNum) → d.getHoughTransform i j r = .ok (t [i, j, r])) := by
  have a1 : Cxx.assert (0 ≤ i ∧ i < d.thetaNum) = .ok () := if_pos hi
  have a2 : Cxx.assert (0 ≤ j ∧ j < d.phiNum) = .ok () := if_pos hj
  refine ⟨?_, ?_, fun hr => ?_⟩
  · unfold Plane.getNormal
    rw [a1, bind_ok, a2, bind_ok, h.lut.read (cell2.2 ⟨hi, hj⟩)]
  · unfold Plane.getHoughSpectrum
    rw [a1, bind_ok, a2, bind_ok, h.spectrum.read (cell2.2 ⟨hi, hj⟩)]
  · have a3 : Cxx.assert (0 ≤ r ∧ r < d.rhoNum) = .ok () := if_pos hr
    unfold Plane.getHoughTransform
    rw [a1, bind_ok, a2, bind_ok, a3, bind_ok, h.transform.read (cell3.2 ⟨hi, hj, hr⟩)]

/-- C60, the part that holds: with at least 8 cells of phi and positive resolution, insertion counts in the bins of the code, also on top of earlier
insertions, and it leaves the detector usable. -/
theorem C60_insert_partial {d : Plane K} {t s : List ℤ → ℕ} {l : List ℤ → V3 K} (h : PlaneOk d t s l) (h8 : 8 ≤ d.phiNum) (hI : I32 d.phiNum)
    (hr : 0 < d.rhoRes) (points : List (V3 K)) (hp : AllCastable d l points) :
    ∃ d', d.insert points = .ok d' ∧ Counted d d' points (codeBin d) ∧ (∃ t' s', PlaneOk d' t' s' l) ∧
      (d'.thetaNum, d'.phiNum, d'.rhoNum, d'.rhoMin, d'.rhoRes) = (d.thetaNum, d.phiNum, d.rhoNum, d.rhoMin, d.rhoRes) := by
  obtain ⟨T, S, e, g⟩ := insert_ok h h8 hI hr.ne' points hp
  refine ⟨_, e, fun i j hi hj => ⟨l [i, j], (get_ok h (r := 0) hi hj).1, fun r hrho => ⟨t [i, j, r], (get_ok h hi hj).2.2 hrho, ?_⟩,
    fun r => newTransform d t l points [i, j, (r : ℤ)], fun r hrho => (get_ok g hi hj).2.2 ⟨by omega, hrho⟩, ?_⟩, ⟨_, _, g⟩, rfl⟩
  · rw [(get_ok g hi hj).2.2 hrho]
    refine congrArg Except.ok (congrArg wrap (congrArg (t [i, j, r] + ·) ?_))
    rw [← List.countP_eq_length_filter]
    unfold votes
    refine List.countP_congr fun p _ => ?_
    simp only [codeBin, decide_eq_true_eq]
    exact bin_iff hr _ p r hrho.1
  · rw [(get_ok g (r := 0) hi hj).2.1]
    rfl

/-- C60, insertion through iterators: the counters start from zero. -/
theorem C60_range_partial {d : Plane K} {t s : List ℤ → ℕ} {l : List ℤ → V3 K} (h : PlaneOk d t s l) (h8 : 8 ≤ d.phiNum) (hI : I32 d.phiNum)
    (hr : 0 < d.rhoRes) (points : List (V3 K)) (hp : AllCastable d l points) :
    ∃ d', d.insertRange points = .ok d' ∧ Counted d.setZero d' points (codeBin d) ∧
      ∀ i j r, (0 ≤ i ∧ i < d.thetaNum) → (0 ≤ j ∧ j < d.phiNum) → (0 ≤ r ∧ r < d.rhoNum) → d.setZero.getHoughTransform i j r = .ok 0 := by
  obtain ⟨d', e, c, -⟩ := C60_insert_partial (setZero_ok h) h8 hI hr points hp
  exact ⟨d', e, c, fun i j r hi hj hr => (get_ok (setZero_ok h) hi hj).2.2 hr⟩

omit [IsStrictOrderedRing K] in
/-- C60 fails for every detector with less than 8 cells of phi and every set of points: remainder by zero. -/
theorem C60_notify_violated {d : Plane K} {t s : List ℤ → ℕ} {l : List ℤ → V3 K} (h : PlaneOk d t s l) (h8 : d.phiNum < 8) (points : List (V3 K)) :
    d.insert points = .error (.ub .divZero) := by
  have hdiv : Cxx.idiv d.phiNum 8 = .ok 0 := by
    unfold Cxx.idiv Cxx.int
    have : d.phiNum.tdiv 8 = 0 := by rw [Int.tdiv_eq_ediv_of_nonneg h.phi.le]; have := h.phi; omega
    rw [if_neg (by norm_num), this]
    rfl
  unfold Plane.insert
  rw [hdiv, bind_ok]
  obtain ⟨m, hm⟩ : ∃ m, d.thetaNum.toNat = m + 1 := ⟨d.thetaNum.toNat - 1, by have := h.theta; omega⟩
  obtain ⟨k, hk⟩ : ∃ k, d.phiNum.toNat = k + 1 := ⟨d.phiNum.toNat - 1, by have := h.phi; omega⟩
  unfold forN
  rw [hm, hk, List.range_succ_eq_map, List.range_succ_eq_map]
  rfl

theorem real_init (maxSize : ℕ) {a b c : ℤ} (h : SizesOk maxSize a b c) (rhoRes : ℝ) : ∃ d l, Plane.new.initSizes Functions.Spec.real maxSize a b c rhoRes = .ok d ∧
    PlaneOk d (fun _ => 0) (fun _ => 0) l ∧ l [0, 0] = (1, 0, 0) ∧ (d.thetaNum, d.phiNum, d.rhoNum) = (a, b, c) ∧
    (d.rhoMin, d.rhoRes) = (-((c.tdiv 2 : ℤ) : ℝ) * rhoRes, rhoRes) := by
  obtain ⟨d, h1, h2, h3, h4⟩ := C60_init Functions.Spec.real maxSize Plane.new h 0 0 (-((c.tdiv 2 : ℤ) : ℝ) * rhoRes) (1 / 2 * Functions.Spec.real.pi / a)
    (2 * Functions.Spec.real.pi / b) rhoRes
  exact ⟨d, _, h1, h2, by simp [Functions.Spec.real], h3, h4⟩

/-- C60 fails also with 8 cells of phi: a point before the first bin is counted in it. -/
theorem C60_bin_violated : ¬ C60_statement ℝ Functions.Spec.real := by
  intro h
  have hs : SizesOk 100 1 8 1 := by unfold SizesOk; norm_num
  obtain ⟨d, l, h1, h2, h3, h4, h5⟩ := real_init 100 hs 1
  simp only [Prod.mk.injEq] at h4 h5
  obtain ⟨a1, a2, a3⟩ := h4
  obtain ⟨b1, b2⟩ := h5
  rw [show (1 : ℤ).tdiv 2 = 0 from rfl] at b1
  norm_num at b1
  have hcast : ∀ n p : V3 ℝ, |project n p| ≤ 1 → I32 (bin d.rhoMin d.rhoRes n p) := by
    intro n p hp
    unfold bin trunc
    rw [b1, b2, sub_zero, div_one]
    have := abs_le.1 hp
    unfold I32
    by_cases h : 0 ≤ project n p
    · rw [if_pos h]
      have := Int.floor_le_floor this.2
      have h' := Int.floor_nonneg.2 h
      rw [Int.floor_one] at this
      omega
    · rw [if_neg h]
      have h1 := Int.ceil_le_ceil this.1
      have h2 := Int.ceil_le_ceil this.2
      rw [Int.ceil_one] at h2
      rw [show (-1 : ℝ) = ((-1 : ℤ) : ℝ) by norm_num, Int.ceil_intCast] at h1
      omega
  have huniq : ∀ l', GridOk d.lut [d.thetaNum, d.phiNum] l' → ∀ i j, (0 ≤ i ∧ i < d.thetaNum) → (0 ≤ j ∧ j < d.phiNum) → l' [i, j] = l [i, j] := by
    intro l' hl i j hi hj
    have e1 := hl.read (cell2.2 ⟨hi, hj⟩)
    rw [h2.lut.read (cell2.2 ⟨hi, hj⟩)] at e1
    exact (Except.ok.inj e1).symm
  obtain ⟨d0, i1, i2, i3, -⟩ := C60_init Functions.Spec.real 100 Plane.new hs 0 0 (-(((1 : ℤ).tdiv 2 : ℤ) : ℝ) * 1) (1 / 2 * Functions.Spec.real.pi / ((1 : ℤ) : ℝ))
    (2 * Functions.Spec.real.pi / ((8 : ℤ) : ℝ)) 1
  have hd0 : d0 = d := by
    have : Plane.new.initSizes Functions.Spec.real 100 1 8 1 1 = .ok d0 := i1
    rw [h1] at this
    exact (Except.ok.inj this).symm
  subst hd0
  have hnorm : ∀ i j, (0 ≤ i ∧ i < d0.thetaNum) → (0 ≤ j ∧ j < d0.phiNum) → |project (l [i, j]) (-1 / 2, 0, 0)| ≤ 1 := by
    intro i j hi hj
    have := huniq _ i2.lut i j hi hj
    rw [← this]
    unfold project
    simp only [Functions.Spec.real, mul_zero, add_zero]
    rw [abs_mul, abs_mul]
    have c1 := Real.abs_cos_le_one (1 / 2 * Real.pi / ((1 : ℤ) : ℝ) * (([i, j] : List ℤ).getD 0 0 : ℤ))
    have c2 := Real.abs_cos_le_one (2 * Real.pi / ((8 : ℤ) : ℝ) * (([i, j] : List ℤ).getD 1 0 : ℤ))
    have c3 := abs_nonneg (Real.cos (2 * Real.pi / ((8 : ℤ) : ℝ) * (([i, j] : List ℤ).getD 1 0 : ℤ)))
    have c4 := abs_nonneg (Real.cos (1 / 2 * Real.pi / ((1 : ℤ) : ℝ) * (([i, j] : List ℤ).getD 0 0 : ℤ)))
    have : |(-1 / 2 : ℝ)| = 1 / 2 := by norm_num [abs_div]
    rw [this]
    nlinarith [mul_le_one₀ c1 c3 c2]
  have hall : ∀ l', GridOk d0.lut [d0.thetaNum, d0.phiNum] l' → AllCastable d0 l' [(-1 / 2, 0, 0)] := by
    intro l' hl i j hi hj p hp
    rw [List.mem_singleton.1 hp, huniq l' hl i j hi hj]
    exact hcast _ _ (hnorm i j hi hj)
  obtain ⟨d', w1, w2⟩ := h 100 1 8 1 1 [(-1 / 2, 0, 0)] hs one_pos d0 h1 hall
  obtain ⟨d'', w3, w4, -⟩ := C60_insert_partial h2 (by omega) (by unfold I32; omega) (by rw [b2]; exact one_pos) [(-1 / 2, 0, 0)] (hall l h2.lut)
  rw [w1] at w3
  obtain rfl := Except.ok.inj w3
  obtain ⟨n, n1, n2, -⟩ := w2 0 0 (by omega) (by omega)
  obtain ⟨n', n1', n2', -⟩ := w4 0 0 (by omega) (by omega)
  rw [n1] at n1'
  obtain rfl := Except.ok.inj n1'
  rw [(get_ok h2 (r := 0) (by omega) (by omega)).1, h3] at n1
  obtain rfl := Except.ok.inj n1
  obtain ⟨o, o1, o2⟩ := n2 0 (by omega)
  obtain ⟨o', o1', o2'⟩ := n2' 0 (by omega)
  rw [o1] at o1'
  obtain rfl := Except.ok.inj o1'
  have oz := (get_ok h2 (r := 0) (i := 0) (j := 0) (by omega) (by omega)).2.2 (by omega)
  rw [o1] at oz
  obtain rfl := Except.ok.inj oz
  rw [o2] at o2'
  have := Except.ok.inj o2'
  norm_num [regularBin, codeBin, b1, b2, List.filter, wrap] at this

/-- An ordinary case: 2 cells of theta, 8 of phi, 4 of rho from -2, normal (1, 0, 0) of the first cell; the points 0.5, 0.7, -1, -2.5 vote for
the cells 2, 2, 1, 0. -/
example : (trunc ((0.5 - -2) / 1 : ℚ), trunc ((0.7 - -2) / 1 : ℚ), trunc ((-1 - -2) / 1 : ℚ), trunc ((-2.5 - -2) / 1 : ℚ)) = (2, 2, 1, 0) := by
  decide +kernel

/-! ### C61 -/

/-- The coordinates of a point satisfy the equation of a plane. -/
def OnPlane (q : V3 K × K) (p : V3 K) : Prop := q.1.1 * p.1 + q.1.2.1 * p.2.1 + q.1.2.2 * p.2.2 + q.2 = 0

/-- C61 for a detector: the overloads agree and points on the plane of a cell increment its counter. -/
def C61_statement (d : Plane K) : Prop :=
  ∀ i j r, (0 ≤ i ∧ i < d.thetaNum) → (0 ≤ j ∧ j < d.phiNum) → (0 ≤ r ∧ r < d.rhoNum) → ∃ q, d.getPlaneParam i j r = .ok q ∧
    d.getPlaneParam3 i j r = .ok q ∧
    ∀ points d', d.insert points = .ok d' → (∀ p ∈ points, OnPlane q p) → ∃ old, d.getHoughTransform i j r = .ok old ∧
      d'.getHoughTransform i j r = .ok (wrap (old + points.length))

omit [IsStrictOrderedRing K] in
/-- The parameters of a cell. -/
theorem param_ok {d : Plane K} {t s : List ℤ → ℕ} {l : List ℤ → V3 K} (h : PlaneOk d t s l) {i j r : ℤ} (hi : 0 ≤ i ∧ i < d.thetaNum)
    (hj : 0 ≤ j ∧ j < d.phiNum) (hr : 0 ≤ r ∧ r < d.rhoNum) : d.getPlaneParam i j r = .ok (l [i, j], -(d.rhoRes * r + d.rhoMin)) ∧
      d.getPlaneParam3 i j r = .ok (l [i, j], -(d.rhoRes * r)) := by
  have a1 : Cxx.assert (0 ≤ i ∧ i < d.thetaNum) = .ok () := if_pos hi
  have a2 : Cxx.assert (0 ≤ j ∧ j < d.phiNum) = .ok () := if_pos hj
  have a3 : Cxx.assert (0 ≤ r ∧ r < d.rhoNum) = .ok () := if_pos hr
  constructor
  · unfold Plane.getPlaneParam
    rw [a1, bind_ok, a2, bind_ok, a3, bind_ok, (get_ok h (r := r) hi hj).1, bind_ok]
    rfl
  · unfold Plane.getPlaneParam3
    rw [a1, bind_ok, a2, bind_ok, a3, bind_ok, (get_ok h (r := r) hi hj).1, bind_ok]
    rfl

/-- C61, outside of the grid both overloads stop. -/
theorem C61_outside (d : Plane K) (i j r : ℤ) (h : ¬ ((0 ≤ i ∧ i < d.thetaNum) ∧ (0 ≤ j ∧ j < d.phiNum) ∧ (0 ≤ r ∧ r < d.rhoNum))) :
    d.getPlaneParam i j r = .error .abort ∧ d.getPlaneParam3 i j r = .error .abort := by
  unfold Plane.getPlaneParam Plane.getPlaneParam3 Cxx.assert
  by_cases h1 : 0 ≤ i ∧ i < d.thetaNum
  · by_cases h2 : 0 ≤ j ∧ j < d.phiNum
    · have h3 : ¬ (0 ≤ r ∧ r < d.rhoNum) := fun h3 => h ⟨h1, h2, h3⟩
      rw [if_pos h1, if_pos h2, if_neg h3]
      exact ⟨rfl, rfl⟩
    · rw [if_pos h1, if_neg h2]
      exact ⟨rfl, rfl⟩
  · rw [if_neg h1]
    exact ⟨rfl, rfl⟩

omit [IsStrictOrderedRing K] in
/-- C61: the overloads agree exactly if the first rho is zero. -/
theorem C61_overloads_iff {d : Plane K} {t s : List ℤ → ℕ} {l : List ℤ → V3 K} (h : PlaneOk d t s l) {i j r : ℤ} (hi : 0 ≤ i ∧ i < d.thetaNum)
    (hj : 0 ≤ j ∧ j < d.phiNum) (hr : 0 ≤ r ∧ r < d.rhoNum) : d.getPlaneParam i j r = d.getPlaneParam3 i j r ↔ d.rhoMin = 0 := by
  rw [(param_ok h hi hj hr).1, (param_ok h hi hj hr).2]
  constructor
  · intro e
    have := (Prod.mk.inj (Except.ok.inj e)).2
    have := neg_injective this
    simpa using this
  · intro e
    rw [e, add_zero]

/-- C61, the votes: points on the plane of a cell (by the overload with an array of indices) increment its counter, each by one. -/
theorem C61_votes_partial {d : Plane K} {t s : List ℤ → ℕ} {l : List ℤ → V3 K} (h : PlaneOk d t s l) (h8 : 8 ≤ d.phiNum) (hI : I32 d.phiNum)
    (hres : 0 < d.rhoRes) {i j r : ℤ} (hi : 0 ≤ i ∧ i < d.thetaNum) (hj : 0 ≤ j ∧ j < d.phiNum) (hr : 0 ≤ r ∧ r < d.rhoNum) (points : List (V3 K))
    (hp : AllCastable d l points) : ∃ q d' old, d.getPlaneParam i j r = .ok q ∧ d.insert points = .ok d' ∧ d.getHoughTransform i j r = .ok old ∧
      ((∀ p ∈ points, OnPlane q p) → d'.getHoughTransform i j r = .ok (wrap (old + points.length))) := by
  obtain ⟨d', e, c, -⟩ := C60_insert_partial h h8 hI hres points hp
  obtain ⟨n, n1, n2, -⟩ := c i j hi hj
  obtain ⟨old, o1, o2⟩ := n2 r hr
  rw [(get_ok h (r := r) hi hj).1] at n1
  obtain rfl := Except.ok.inj n1
  refine ⟨_, d', old, (param_ok h hi hj hr).1, e, o1, fun hon => ?_⟩
  rw [o2]
  refine congrArg Except.ok (congrArg wrap (congrArg (old + ·) (congrArg List.length (List.filter_eq_self.2 fun p hpm => ?_))))
  have := hon p hpm
  unfold OnPlane at this
  simp only at this
  unfold codeBin
  rw [decide_eq_true_eq]
  have hy : (l [i, j]).1 * p.1 + (l [i, j]).2.1 * p.2.1 + (l [i, j]).2.2 * p.2.2 = d.rhoMin + r * d.rhoRes := by linear_combination this
  rw [hy]
  refine ⟨?_, by linarith⟩
  by_cases h0 : r = 0
  · rw [if_pos h0, h0]; push_cast; linarith
  · rw [if_neg h0]

/-- C61 holds for detectors with first rho zero and at least 8 cells of phi, apart from rounding. -/
theorem C61_partial {d : Plane K} {t s : List ℤ → ℕ} {l : List ℤ → V3 K} (h : PlaneOk d t s l) (h8 : 8 ≤ d.phiNum) (hI : I32 d.phiNum)
    (hres : 0 < d.rhoRes) (hmin : d.rhoMin = 0) {i j r : ℤ} (hi : 0 ≤ i ∧ i < d.thetaNum) (hj : 0 ≤ j ∧ j < d.phiNum) (hr : 0 ≤ r ∧ r < d.rhoNum)
    (points : List (V3 K)) (hp : AllCastable d l points) : ∃ q d' old, d.getPlaneParam i j r = .ok q ∧ d.getPlaneParam3 i j r = .ok q ∧
      d.insert points = .ok d' ∧ d.getHoughTransform i j r = .ok old ∧
      ((∀ p ∈ points, OnPlane q p) → d'.getHoughTransform i j r = .ok (wrap (old + points.length))) := by
  obtain ⟨q, d', old, a, b⟩ := C61_votes_partial h h8 hI hres hi hj hr points hp
  exact ⟨q, d', old, a, ((C61_overloads_iff h hi hj hr).2 hmin).symm.trans a, b⟩

/-- C61 fails for every detector initialised by sizes with at least two cells of rho. -/
theorem C61_violated (maxSize : ℕ) {a b c : ℤ} (h : SizesOk maxSize a b c) (hc : 2 ≤ c) {rhoRes : ℝ} (hr : rhoRes ≠ 0) :
    ∃ d, Plane.new.initSizes Functions.Spec.real maxSize a b c rhoRes = .ok d ∧ ¬ C61_statement d := by
  obtain ⟨d, l, h1, h2, -, h4, h5⟩ := real_init maxSize h rhoRes
  simp only [Prod.mk.injEq] at h4 h5
  refine ⟨d, h1, fun hst => ?_⟩
  have i1 : 0 ≤ (0 : ℤ) ∧ 0 < d.thetaNum := ⟨le_rfl, h2.theta⟩
  have i2 : 0 ≤ (0 : ℤ) ∧ 0 < d.phiNum := ⟨le_rfl, h2.phi⟩
  have i3 : 0 ≤ (0 : ℤ) ∧ 0 < d.rhoNum := ⟨le_rfl, h2.rho⟩
  obtain ⟨q, q1, q2, -⟩ := hst 0 0 0 i1 i2 i3
  have := (C61_overloads_iff h2 i1 i2 i3).1 (q1.trans q2.symm)
  rw [h5.1] at this
  rcases mul_eq_zero.1 this with h' | h'
  · have : c.tdiv 2 = 0 := by exact_mod_cast neg_eq_zero.1 h'
    rw [Int.tdiv_eq_ediv_of_nonneg (by omega)] at this
    omega
  · exact hr h'

/-- The quotient of line 215 in the arithmetic of `float` (the scalar type of the library) for the rho of a cell. -/
def floatQuotient (rhoMin rhoRes irho : Float32) : Float32 := ((rhoRes * irho + rhoMin) - rhoMin) / rhoRes

/-- C61 fails also by rounding: with 10 cells of resolution 0.1 the points with the rho of the cell 1 vote for the cell 0. -/
theorem C61_rounding_violated : floatQuotient (-5 * 0.1) 0.1 1 < 1 ∧ (floatQuotient (-5 * 0.1) 0.1 1).toUInt64 = 0 := by
  decide +kernel

end Verif.Hough
