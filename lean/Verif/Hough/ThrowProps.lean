import Verif.Hough.ThrowModel
import Verif.Hough.LineProps
import Verif.Grid.ThrowProps

/-! Property theorems C130 (see properties.jsonl): the Hough detectors after an initialisation that throws. -/
namespace Verif.Hough
open Verif Functions Interval Interval.Spec

variable {K : Type} [Field K] [LinearOrder K] [FloorRing K]

/-! ### Grids -/

/-- The allocation of `n` elements for a storage fails. -/
def Fails {α : Type} (ok : ℕ → Bool) (v : Vec α) (n : ℤ) : Prop := (v.len : ℤ) < n ∧ ok n.toNat = false

theorem dims_domain (dims : List ℤ) : Interval.initBounds (dims.map fun _ => 0) dims = dims.map (fun d => ⟨0, d⟩) := by
  unfold Interval.initBounds
  rw [List.zipWith_map_left, List.zipWith_self]

/-- The size of a domain with positive dimensions. -/
theorem dims_size {dims : List ℤ} (hd : ∀ d ∈ dims, 0 < d ∧ I32 d) (hc : dims.prod ≤ 2147483647) :
    Proper (dims.map (fun d => (⟨0, d⟩ : Axis))) ∧ card (dims.map (fun d => (⟨0, d⟩ : Axis))) = dims.prod ∧ size (dims.map (fun d => (⟨0, d⟩ : Axis))) = dims.prod.toNat := by
  have hp : Proper (dims.map (fun d => (⟨0, d⟩ : Axis))) := by
    intro a ha
    obtain ⟨d, hd', rfl⟩ := List.mem_map.1 ha
    have := hd d hd'
    unfold I32 at *
    simp only
    omega
  have hcard : card (dims.map (fun d => (⟨0, d⟩ : Axis))) = dims.prod := by
    unfold card; rw [List.map_map]; exact congrArg List.prod (List.map_id dims)
  have := size_ok hp (by rw [hcard]; exact hc)
  exact ⟨hp, hcard, by omega⟩

theorem tryInit_fails {α : Type} {ok : ℕ → Bool} {z : α} {g : Grid.Grid α} {dims : List ℤ} (hd : ∀ d ∈ dims, 0 < d ∧ I32 d) (hc : dims.prod ≤ 2147483647)
    (h : Fails ok g.data dims.prod) : Grid.tryInit ok z g (.dims dims) = .ok (⟨g.data, dims.map (fun d => ⟨0, d⟩)⟩, true) := by
  unfold Grid.tryInit Grid.Init.domain Grid.tryResize
  simp only [dims_domain, bind, Except.bind, (dims_size hd hc).2.2]
  rw [if_neg (by
    rintro (h' | h')
    · have := h.1; omega
    · rw [h.2] at h'; cases h')]
  rfl

theorem tryInit_ok {α : Type} {ok : ℕ → Bool} {z : α} {g : Grid.Grid α} {dims : List ℤ} (hd : ∀ d ∈ dims, 0 < d ∧ I32 d) (hc : dims.prod ≤ 2147483647)
    (h : ¬ Fails ok g.data dims.prod) {maxSize : ℕ} (hm : dims.prod ≤ maxSize) :
    ∃ g', Grid.tryInit ok z g (.dims dims) = .ok (g', false) ∧ Grid.initDims maxSize z g dims = .ok g' ∧
      g' = ⟨⟨dims.prod.toNat, fun i => if i < g.data.len then g.data.val i else z⟩, dims.map (fun d => ⟨0, d⟩)⟩ := by
  refine ⟨_, ?_, ?_, rfl⟩
  · unfold Grid.tryInit Grid.Init.domain Grid.tryResize
    simp only [dims_domain, bind, Except.bind, (dims_size hd hc).2.2]
    rw [if_pos]
    · rfl
    · by_contra hn
      push Not at hn
      exact h ⟨by omega, by simpa using hn.2⟩
  · unfold Grid.initDims Grid.initBounds Grid.resize
    simp only [dims_domain, bind, Except.bind, (dims_size hd hc).2.2]
    rw [if_neg (by omega)]
    rfl

theorem GridOk.len {α : Type} {g : Grid.Grid α} {dims : List ℤ} {f : List ℤ → α} (hg : GridOk g dims f) : (g.data.len : ℤ) = dims.prod ∧ (g.data.len : ℤ) ≤ 2147483647 := by
  have e : card g.domain = dims.prod := by
    rw [hg.2.1]; unfold card; rw [List.map_map]; exact congrArg List.prod (List.map_id dims)
  have h1 := hg.1.2.1
  have h2 := hg.1.2.2
  omega

theorem int_ok {z : ℤ} (h : 0 ≤ z ∧ z ≤ 2147483647) : Cxx.int z = .ok z := if_pos (by omega)

theorem int_over {z : ℤ} (h : 2147483647 < z) : Cxx.int z = .error (.ub .overflow) := if_neg (by omega)

/-- A cell of a two-dimensional grid: position `i + a j`. -/
theorem read2 {α : Type} {g : Grid.Grid α} {a b i j : ℤ} (hg : g.domain = [⟨0, a⟩, ⟨0, b⟩]) (hl : g.data.len ≤ 2147483647) (ha : 0 < a) (hi : 0 ≤ i ∧ i ≤ 2147483647) (hj : 0 ≤ j ∧ j ≤ 2147483647) :
    (i + a * j < g.data.len → Grid.read g [i, j] = .ok (g.data.val (i + a * j).toNat)) ∧
    (g.data.len ≤ i + a * j → ∃ k, Grid.read g [i, j] = .error (.ub k)) := by
  have haj : 0 ≤ a * j := mul_nonneg ha.le hj.1
  have e : Grid.read g [i, j] = (Cxx.int (a * j) >>= fun y => Cxx.int (i + y) >>= fun p => g.data.get p) := by
    unfold Grid.read
    rw [hg]
    simp only [staticGetPos, sub_zero, int_ok hi, int_ok hj, bind_ok, mul_zero, int_ok (z := 0) (by omega), add_zero]
    cases Cxx.int (a * j) <;> rfl
  rw [e]
  constructor
  · intro h
    rw [int_ok (by omega), bind_ok, int_ok (by omega), bind_ok]
    exact if_pos (by omega)
  · intro h
    by_cases h1 : a * j ≤ 2147483647
    · rw [int_ok (by omega), bind_ok]
      by_cases h2 : i + a * j ≤ 2147483647
      · rw [int_ok (by omega), bind_ok]
        exact ⟨.outOfBounds, if_neg (by omega)⟩
      · rw [int_over (by omega)]
        exact ⟨_, rfl⟩
    · rw [int_over (by omega)]
      exact ⟨_, rfl⟩

/-- A cell of a three-dimensional grid that belongs to the domain: position `i + a (j + b r)`. -/
theorem read3 {α : Type} {g : Grid.Grid α} {a b c i j r : ℤ} (hg : g.domain = [⟨0, a⟩, ⟨0, b⟩, ⟨0, c⟩]) (hc : a * b * c ≤ 2147483647)
    (hi : 0 ≤ i ∧ i < a) (hj : 0 ≤ j ∧ j < b) (hr : 0 ≤ r ∧ r < c) :
    0 ≤ i + a * (j + b * r) ∧ i + a * (j + b * r) < a * b * c ∧
      Grid.read g [i, j, r] = if i + a * (j + b * r) < g.data.len then .ok (g.data.val (i + a * (j + b * r)).toNat) else .error (.ub .outOfBounds) := by
  have h1 : 0 ≤ b * r := mul_nonneg (by omega) hr.1
  have h2 : j + b * r + 1 ≤ b * c := by nlinarith
  have h3 : 0 ≤ a * (j + b * r) := mul_nonneg (by omega) (by omega)
  have h4 : a * (j + b * r + 1) ≤ a * (b * c) := mul_le_mul_of_nonneg_left h2 (by omega)
  have h5 : j + b * r ≤ a * (j + b * r) := le_mul_of_one_le_left (by omega) (by omega)
  have h6 : a * (b * c) = a * b * c := by ring
  have h7 : a * (j + b * r + 1) = a * (j + b * r) + a := by ring
  have h8 : 0 ≤ a * b * c := by nlinarith
  have h9 : r ≤ b * r := le_mul_of_one_le_left hr.1 (by omega)
  refine ⟨by omega, by omega, ?_⟩
  unfold Grid.read
  rw [hg]
  simp only [staticGetPos, sub_zero, int_ok (z := i) (by omega), int_ok (z := j) (by omega), int_ok (z := r) (by omega), bind_ok, mul_zero, int_ok (z := 0) (by omega), add_zero,
    int_ok (z := b * r) (by omega), int_ok (z := j + b * r) (by omega), int_ok (z := a * (j + b * r)) (by omega), int_ok (z := i + a * (j + b * r)) (by omega)]
  unfold Vec.get
  split_ifs <;> first | rfl | omega

/-! ### Planes -/

/-- The numbers of bins are positive and their product is an `int`. -/
def Bins (a b c : ℤ) : Prop := 0 < a ∧ 0 < b ∧ 0 < c ∧ a * b * c ≤ 2147483647

theorem Bins.facts {a b c : ℤ} (h : Bins a b c) : (∀ x ∈ [a, b, c], 0 < x ∧ I32 x) ∧ (∀ x ∈ [a, b], 0 < x ∧ I32 x) ∧ a * b ≤ a * b * c ∧ a ≤ a * b ∧ b ≤ a * b := by
  obtain ⟨ha, hb, hc, h1⟩ := h
  have p1 : a ≤ a * b := le_mul_of_one_le_right ha.le hb
  have p2 : b ≤ a * b := le_mul_of_one_le_left hb.le ha
  have p3 : a * b ≤ a * b * c := le_mul_of_one_le_right (by positivity) hc
  have p4 : c ≤ a * b * c := le_mul_of_one_le_left hc.le (by nlinarith)
  have i3 : ∀ x ∈ [a, b, c], 0 < x ∧ I32 x := by
    unfold I32
    intro x hx
    simp only [List.mem_cons, List.not_mem_nil, or_false] at hx
    rcases hx with rfl | rfl | rfl <;> omega
  exact ⟨i3, fun x hx => i3 x (by simp at hx ⊢; tauto), p3, p1, p2⟩

theorem prod3 (a b c : ℤ) : [a, b, c].prod = a * b * c := by simp [mul_assoc]
theorem prod2 (a b : ℤ) : [a, b].prod = a * b := by simp

theorem get_transform {d : Plane K} {i j r : ℤ} (hi : 0 ≤ i ∧ i < d.thetaNum) (hj : 0 ≤ j ∧ j < d.phiNum) (hr : 0 ≤ r ∧ r < d.rhoNum) :
    d.getHoughTransform i j r = Grid.read d.transform [i, j, r] := by
  unfold Plane.getHoughTransform Cxx.assert
  rw [if_pos hi, if_pos hj, if_pos hr]
  rfl

theorem get_spectrum {d : Plane K} {i j : ℤ} (hi : 0 ≤ i ∧ i < d.thetaNum) (hj : 0 ≤ j ∧ j < d.phiNum) :
    d.getHoughSpectrum i j = Grid.read d.spectrum [i, j] ∧ d.getNormal i j = Grid.read d.lut [i, j] := by
  unfold Plane.getHoughSpectrum Plane.getNormal Cxx.assert
  rw [if_pos hi, if_pos hj]
  exact ⟨rfl, rfl⟩

/-- C130, full statement: after an initialisation of a new or usable detector, whether it returns or throws, all the bins of the numbers reported can be read. -/
def C130_statement (K : Type) [Field K] [LinearOrder K] [FloorRing K] : Prop :=
  (∀ (L : Libm K) (okT okS okN : ℕ → Bool) (d d' : Plane K) (a b c : ℤ) (x1 x2 x3 x4 x5 x6 : K) (thrown : Bool), (d = Plane.new ∨ ∃ t s l, PlaneOk d t s l) → Bins a b c →
    d.tryInit L okT okS okN a b c x1 x2 x3 x4 x5 x6 = .ok (d', thrown) →
    ∀ i j r, (0 ≤ i ∧ i < d'.thetaNum) → (0 ≤ j ∧ j < d'.phiNum) → (0 ≤ r ∧ r < d'.rhoNum) →
      (∃ v, d'.getHoughTransform i j r = .ok v) ∧ (∃ v, d'.getHoughSpectrum i j = .ok v) ∧ ∃ n, d'.getNormal i j = .ok n) ∧
  (∀ (L : Libm K) (okT okS okN : ℕ → Bool) (d d' : Line K) (a b : ℤ) (x1 x2 x3 x4 : K) (thrown : Bool), (d = Line.new ∨ ∃ t s, LineOk d t s) → (0 < a ∧ 0 < b ∧ a * b ≤ 2147483647) →
    d.tryInit L okT okS okN a b x1 x2 x3 x4 = .ok (d', thrown) →
    ∀ i r, (0 ≤ i ∧ i < d'.thetaNum) → (0 ≤ r ∧ r < d'.rhoNum) → (∃ v, d'.getHoughTransform i r = .ok v) ∧ ∃ v, d'.getHoughSpectrum i = .ok v)

/-- The transform of a detector of lines that was created by default cannot be enlarged to one bin. -/
theorem C130_violated (L : Libm K) : ¬ C130_statement K := by
  intro h
  obtain ⟨⟨v, hv⟩, -⟩ := h.2 L (fun _ => false) (fun _ => true) (fun _ => true) Line.new ⟨⟨Vec.empty 0, [⟨0, 1⟩, ⟨0, 1⟩]⟩, Vec.empty 0, Vec.empty (0, 0), 1, 1, 0, 0, 0, 0, 1, 1⟩
    1 1 0 0 0 0 true (Or.inl rfl) (by norm_num) rfl 0 0 (by norm_num) (by norm_num)
  exact absurd (hv.symm.trans (show _ = Except.error (.ub .outOfBounds) from rfl)) (by intro h; cases h)

variable (L : Libm K) (okT okS okN : ℕ → Bool) (d : Plane K) {a b c : ℤ} (x1 x2 x3 x4 x5 x6 : K)

/-- C130 for planes, when all the storages can be enlarged (or need not be): the initialisation is that of C60, which asks nothing of the detector, so that a detector whose initialisation
threw is repaired by one that returns. Missing: the failed allocations, which leave bins that cannot be read. -/
theorem C130_planes_partial (h : Bins a b c) (hT : ¬ Fails okT d.transform.data (a * b * c)) (hS : ¬ Fails okS d.spectrum.data (a * b)) (hN : ¬ Fails okN d.lut.data (a * b)) :
    ∃ d', d.tryInit L okT okS okN a b c x1 x2 x3 x4 x5 x6 = .ok (d', false) ∧ (∀ maxSize : ℕ, a * b * c ≤ maxSize → d.init L maxSize a b c x1 x2 x3 x4 x5 x6 = .ok d') ∧
      (d'.thetaNum, d'.phiNum, d'.rhoNum) = (a, b, c) ∧
      ∀ i j r, (0 ≤ i ∧ i < a) → (0 ≤ j ∧ j < b) → (0 ≤ r ∧ r < c) →
        d'.getHoughTransform i j r = .ok 0 ∧ d'.getHoughSpectrum i j = .ok 0 ∧ d'.getNormal i j = .ok (normal L x1 x2 x4 x5 i j) := by
  obtain ⟨i3, i2, p3, -, -⟩ := h.facts
  have key : ∀ maxSize : ℕ, a * b * c ≤ maxSize → ∃ d', d.tryInit L okT okS okN a b c x1 x2 x3 x4 x5 x6 = .ok (d', false) ∧ d.init L maxSize a b c x1 x2 x3 x4 x5 x6 = .ok d' := by
    intro maxSize hm
    obtain ⟨t, t1, t2, -⟩ := tryInit_ok (ok := okT) (z := 0) (g := d.transform) i3 (by rw [prod3]; exact h.2.2.2) (by rw [prod3]; exact hT) (maxSize := maxSize) (by rw [prod3]; exact hm)
    obtain ⟨s, s1, s2, -⟩ := tryInit_ok (ok := okS) (z := 0) (g := d.spectrum) i2 (by rw [prod2]; exact p3.trans h.2.2.2) (by rw [prod2]; exact hS) (maxSize := maxSize)
      (by rw [prod2]; exact p3.trans hm)
    obtain ⟨l, l1, l2, -⟩ := tryInit_ok (ok := okN) (z := (0, 0, 0)) (g := d.lut) i2 (by rw [prod2]; exact p3.trans h.2.2.2) (by rw [prod2]; exact hN) (maxSize := maxSize)
      (by rw [prod2]; exact p3.trans hm)
    obtain ⟨d', e, -⟩ := C60_init L maxSize d ⟨h.1, h.2.1, h.2.2.1, h.2.2.2, hm⟩ x1 x2 x3 x4 x5 x6
    refine ⟨d', ?_, e⟩
    unfold Plane.init at e
    rw [t2, bind_ok, s2, bind_ok, l2, bind_ok] at e
    unfold Plane.tryInit
    simp only [t1, bind_ok, s1, l1, Bool.false_eq_true, if_false]
    cases hf : forN a (fun itheta l => forN b (fun iphi l => Grid.write l [itheta, iphi] (normal L x1 x2 x4 x5 itheta iphi)) l) l with
    | error k => rw [hf] at e; cases e
    | ok l' =>
      rw [hf, bind_ok] at e
      rw [bind_ok]
      cases e
      rfl
  obtain ⟨d', e1, e2⟩ := key 2147483647 h.2.2.2
  obtain ⟨d'', f1, f2, f3, -⟩ := C60_init L 2147483647 d ⟨h.1, h.2.1, h.2.2.1, h.2.2.2, h.2.2.2⟩ x1 x2 x3 x4 x5 x6
  obtain rfl := Except.ok.inj (f1.symm.trans e2)
  refine ⟨d'', e1, ?_, f3, ?_⟩
  · intro maxSize hm
    obtain ⟨d3, g1, g2⟩ := key maxSize hm
    rw [g2]
    exact congrArg Except.ok (Prod.mk.inj (Except.ok.inj (g1.symm.trans e1))).1
  · intro i j r hi hj hr
    simp only [Prod.mk.injEq] at f3
    obtain ⟨rfl, rfl, rfl⟩ := f3
    rw [get_transform hi hj hr, (get_spectrum hi hj).1, (get_spectrum hi hj).2]
    exact ⟨f2.transform.read (cell3.2 ⟨hi, hj, hr⟩), f2.spectrum.read (cell2.2 ⟨hi, hj⟩), f2.lut.read (cell2.2 ⟨hi, hj⟩)⟩

/-- C130 for planes, when the transform of a usable detector with `a' × b' × c'` bins cannot be enlarged: the numbers reported are the new ones; a bin of the transform reads the old element of its
new position, or out of bounds; the spectrum and the normals are the old ones, read at the position given by the old number of latitudes, and the others are undefined. -/
theorem C130_transform_violated (h : Bins a b c) (hT : Fails okT d.transform.data (a * b * c)) {t s : List ℤ → ℕ} {l : List ℤ → V3 K} (hd : PlaneOk d t s l) :
    ∃ d', d.tryInit L okT okS okN a b c x1 x2 x3 x4 x5 x6 = .ok (d', true) ∧ (d'.thetaNum, d'.phiNum, d'.rhoNum) = (a, b, c) ∧
      ∀ i j r, (0 ≤ i ∧ i < a) → (0 ≤ j ∧ j < b) → (0 ≤ r ∧ r < c) →
        (d'.getHoughTransform i j r = if i + a * (j + b * r) < d.thetaNum * d.phiNum * d.rhoNum then .ok (d.transform.data.val (i + a * (j + b * r)).toNat)
          else .error (.ub .outOfBounds)) ∧
        (i + d.thetaNum * j < d.thetaNum * d.phiNum → d'.getHoughSpectrum i j = .ok (d.spectrum.data.val (i + d.thetaNum * j).toNat) ∧
          d'.getNormal i j = .ok (d.lut.data.val (i + d.thetaNum * j).toNat)) ∧
        (d.thetaNum * d.phiNum ≤ i + d.thetaNum * j → (∃ k, d'.getHoughSpectrum i j = .error (.ub k)) ∧ ∃ k, d'.getNormal i j = .error (.ub k)) := by
  obtain ⟨i3, i2, p3, p1, p2⟩ := h.facts
  refine ⟨⟨⟨d.transform.data, [⟨0, a⟩, ⟨0, b⟩, ⟨0, c⟩]⟩, d.spectrum, d.lut, a, b, c, x1, x2, x3, x4, x5, x6, d.ithetaWin, d.iphiWin, d.irhoWin⟩, ?_, rfl, ?_⟩
  · unfold Plane.tryInit
    simp only [tryInit_fails (z := 0) i3 (by rw [prod3]; exact h.2.2.2) (by rw [prod3]; exact hT), bind_ok, if_true]
    rfl
  · intro i j r hi hj hr
    have hlt := hd.transform.len
    have hls := hd.spectrum.len
    have hll := hd.lut.len
    rw [prod3] at hlt
    rw [prod2] at hls hll
    rw [get_transform hi hj hr, (get_spectrum hi hj).1, (get_spectrum hi hj).2]
    have h2 := h.2.2.2
    refine ⟨?_, ?_⟩
    · rw [(read3 (g := ⟨d.transform.data, [⟨0, a⟩, ⟨0, b⟩, ⟨0, c⟩]⟩) rfl h.2.2.2 hi hj hr).2.2]
      simp only [hlt.1]
    · have rs := read2 (g := d.spectrum) hd.spectrum.2.1 (by omega) hd.theta (i := i) (j := j) (by omega) (by omega)
      have rl := read2 (g := d.lut) hd.lut.2.1 (by omega) hd.theta (i := i) (j := j) (by omega) (by omega)
      rw [hls.1] at rs
      rw [hll.1] at rl
      exact ⟨fun hp => ⟨rs.1 hp, rl.1 hp⟩, fun hp => ⟨rs.2 hp, rl.2 hp⟩⟩

/-- A grid of latitudes and longitudes after its initialisation, which threw or not. -/
theorem read_new {α : Type} {v : Vec α} {a b : ℤ} (h2 : a * b ≤ 2147483647) {i j : ℤ} (hi : 0 ≤ i ∧ i < a) (hj : 0 ≤ j ∧ j < b) :
    0 ≤ i + a * j ∧ i + a * j < a * b ∧ Grid.read ⟨v, [⟨0, a⟩, ⟨0, b⟩]⟩ [i, j] = if i + a * j < v.len then .ok (v.val (i + a * j).toNat) else .error (.ub .outOfBounds) := by
  have h1 : a * (j + 1) ≤ a * b := mul_le_mul_of_nonneg_left (by omega) (by omega)
  have h3 : 0 ≤ a * j := mul_nonneg (by omega) hj.1
  have h5 : j ≤ a * j := le_mul_of_one_le_left (by omega) (by omega)
  have h4 : a * (j + 1) = a * j + a := by ring
  refine ⟨by omega, by omega, ?_⟩
  unfold Grid.read
  simp only [staticGetPos, sub_zero, int_ok (z := i) (by omega), int_ok (z := j) (by omega), bind_ok, mul_zero, int_ok (z := 0) (by omega), add_zero,
    int_ok (z := a * j) (by omega), int_ok (z := i + a * j) (by omega)]
  unfold Vec.get
  split_ifs <;> first | rfl | omega

/-- C130 for planes, when the spectrum cannot be enlarged: the transform has the new size and has not been cleared, a bin of the spectrum reads the old element of its new position, or out of bounds,
and the normals are the old ones. -/
theorem C130_spectrum_violated (h : Bins a b c) (hT : ¬ Fails okT d.transform.data (a * b * c)) (hS : Fails okS d.spectrum.data (a * b)) :
    ∃ d', d.tryInit L okT okS okN a b c x1 x2 x3 x4 x5 x6 = .ok (d', true) ∧ (d'.thetaNum, d'.phiNum, d'.rhoNum) = (a, b, c) ∧ d'.lut = d.lut ∧
      ∀ i j r, (0 ≤ i ∧ i < a) → (0 ≤ j ∧ j < b) → (0 ≤ r ∧ r < c) →
        (d'.getHoughTransform i j r = .ok (if i + a * (j + b * r) < d.transform.data.len then d.transform.data.val (i + a * (j + b * r)).toNat else 0)) ∧
        d'.getHoughSpectrum i j = if i + a * j < d.spectrum.data.len then .ok (d.spectrum.data.val (i + a * j).toNat) else .error (.ub .outOfBounds) := by
  obtain ⟨i3, i2, p3, p1, p2⟩ := h.facts
  obtain ⟨t, t1, -, t3⟩ := tryInit_ok (ok := okT) (z := 0) (g := d.transform) i3 (by rw [prod3]; exact h.2.2.2) (by rw [prod3]; exact hT) (maxSize := 2147483647)
    (by rw [prod3]; exact h.2.2.2)
  refine ⟨⟨t, ⟨d.spectrum.data, [⟨0, a⟩, ⟨0, b⟩]⟩, d.lut, a, b, c, x1, x2, x3, x4, x5, x6, d.ithetaWin, d.iphiWin, d.irhoWin⟩, ?_, rfl, rfl, ?_⟩
  · unfold Plane.tryInit
    simp only [t1, bind_ok, tryInit_fails (z := 0) i2 (by rw [prod2]; exact p3.trans h.2.2.2) (by rw [prod2]; exact hS), if_true, Bool.false_eq_true, if_false]
    rfl
  · intro i j r hi hj hr
    rw [get_transform hi hj hr, (get_spectrum hi hj).1]
    refine ⟨?_, (read_new (p3.trans h.2.2.2) hi hj).2.2⟩
    have hread := read3 (g := t) (by rw [t3]; rfl) h.2.2.2 hi hj hr
    rw [hread.2.2, t3, prod3]
    simp only
    rw [if_pos (by have := hread.2.1; omega)]
    have := hread.1
    by_cases hp : i + a * (j + b * r) < d.transform.data.len
    · rw [if_pos hp, if_pos (by omega)]
    · rw [if_neg hp, if_neg (by omega)]

/-- C130 for planes, when the normals cannot be stored: the transform and the spectrum have the new sizes and have not been cleared, a normal reads the old element of its new position, or out of
bounds. -/
theorem C130_normals_violated (h : Bins a b c) (hT : ¬ Fails okT d.transform.data (a * b * c)) (hS : ¬ Fails okS d.spectrum.data (a * b)) (hN : Fails okN d.lut.data (a * b)) :
    ∃ d', d.tryInit L okT okS okN a b c x1 x2 x3 x4 x5 x6 = .ok (d', true) ∧ (d'.thetaNum, d'.phiNum, d'.rhoNum) = (a, b, c) ∧
      ∀ i j r, (0 ≤ i ∧ i < a) → (0 ≤ j ∧ j < b) → (0 ≤ r ∧ r < c) →
        (d'.getHoughTransform i j r = .ok (if i + a * (j + b * r) < d.transform.data.len then d.transform.data.val (i + a * (j + b * r)).toNat else 0)) ∧
        (d'.getHoughSpectrum i j = .ok (if i + a * j < d.spectrum.data.len then d.spectrum.data.val (i + a * j).toNat else 0)) ∧
        d'.getNormal i j = if i + a * j < d.lut.data.len then .ok (d.lut.data.val (i + a * j).toNat) else .error (.ub .outOfBounds) := by
  obtain ⟨i3, i2, p3, p1, p2⟩ := h.facts
  obtain ⟨t, t1, -, t3⟩ := tryInit_ok (ok := okT) (z := 0) (g := d.transform) i3 (by rw [prod3]; exact h.2.2.2) (by rw [prod3]; exact hT) (maxSize := 2147483647)
    (by rw [prod3]; exact h.2.2.2)
  obtain ⟨s, s1, -, s3⟩ := tryInit_ok (ok := okS) (z := 0) (g := d.spectrum) i2 (by rw [prod2]; exact p3.trans h.2.2.2) (by rw [prod2]; exact hS) (maxSize := 2147483647)
    (by rw [prod2]; exact p3.trans h.2.2.2)
  refine ⟨⟨t, s, ⟨d.lut.data, [⟨0, a⟩, ⟨0, b⟩]⟩, a, b, c, x1, x2, x3, x4, x5, x6, d.ithetaWin, d.iphiWin, d.irhoWin⟩, ?_, rfl, ?_⟩
  · unfold Plane.tryInit
    simp only [t1, s1, bind_ok, tryInit_fails (ok := okN) (z := (0, 0, 0)) (g := d.lut) i2 (by rw [prod2]; exact p3.trans h.2.2.2) (by rw [prod2]; exact hN), if_true, Bool.false_eq_true, if_false]
    rfl
  · intro i j r hi hj hr
    rw [get_transform hi hj hr, (get_spectrum hi hj).1, (get_spectrum hi hj).2]
    refine ⟨?_, ?_, (read_new (p3.trans h.2.2.2) hi hj).2.2⟩
    · have hread := read3 (g := t) (by rw [t3]; rfl) h.2.2.2 hi hj hr
      rw [hread.2.2, t3, prod3]
      simp only
      rw [if_pos (by have := hread.2.1; omega)]
      have := hread.1
      by_cases hp : i + a * (j + b * r) < d.transform.data.len
      · rw [if_pos hp, if_pos (by omega)]
      · rw [if_neg hp, if_neg (by omega)]
    · have hread := read_new (v := s.data) (p3.trans h.2.2.2) hi hj
      rw [show s = ⟨s.data, [⟨0, a⟩, ⟨0, b⟩]⟩ by rw [s3]; rfl, hread.2.2, s3, prod2]
      simp only
      rw [if_pos (by have := hread.2.1; omega)]
      have := hread.1
      by_cases hp : i + a * j < d.spectrum.data.len
      · rw [if_pos hp, if_pos (by omega)]
      · rw [if_neg hp, if_neg (by omega)]

/-! ### Lines -/

theorem vec_get {α : Type} (v : Vec α) {i : ℤ} (hi : 0 ≤ i) : v.get i = if i < v.len then .ok (v.val i.toNat) else .error (.ub .outOfBounds) := by
  unfold Vec.get
  split_ifs <;> first | rfl | omega

theorem line_get {e : Line K} {i r : ℤ} (hi : 0 ≤ i ∧ i < e.thetaNum) :
    e.getHoughSpectrum i = e.spectrum.get i ∧ ((0 ≤ r ∧ r < e.rhoNum) → e.getHoughTransform i r = Grid.read e.transform [i, r]) := by
  unfold Line.getHoughTransform Line.getHoughSpectrum Cxx.assert
  rw [if_pos hi]
  refine ⟨rfl, fun hr => ?_⟩
  rw [if_pos hr]
  rfl

theorem tryResize_fails {α : Type} {ok : ℕ → Bool} {z : α} {v : Vec α} {n : ℤ} (hn : 0 ≤ n ∧ n ≤ 2147483647) (h : Fails ok v n) : Grid.tryResize ok z v (Cxx.toSize n) = none := by
  have hz : Cxx.toSize n = n.toNat := by unfold Cxx.toSize; omega
  unfold Grid.tryResize
  rw [hz, if_neg]
  rintro (h' | h')
  · have := h.1; omega
  · rw [h.2] at h'; cases h'

theorem tryResize_ok {α : Type} {ok : ℕ → Bool} {z : α} {v : Vec α} {n : ℤ} (hn : 0 ≤ n ∧ n ≤ 2147483647) (h : ¬ Fails ok v n) :
    Grid.tryResize ok z v (Cxx.toSize n) = some ⟨n.toNat, fun i => if i < v.len then v.val i else z⟩ := by
  have hz : Cxx.toSize n = n.toNat := by unfold Cxx.toSize; omega
  unfold Grid.tryResize
  rw [hz, if_pos]
  by_contra hn
  push Not at hn
  exact h ⟨by omega, by simpa using hn.2⟩

/-- The numbers of bins are positive and their product is an `int`. -/
def LineBins (a b : ℤ) : Prop := 0 < a ∧ 0 < b ∧ a * b ≤ 2147483647

theorem LineBins.facts {a b : ℤ} (h : LineBins a b) : (∀ x ∈ [a, b], 0 < x ∧ I32 x) ∧ [a, b].prod ≤ 2147483647 ∧ a ≤ a * b ∧ b ≤ a * b := by
  obtain ⟨ha, hb, h1⟩ := h
  have p1 : a ≤ a * b := le_mul_of_one_le_right ha.le hb
  have p2 : b ≤ a * b := le_mul_of_one_le_left hb.le ha
  refine ⟨?_, by rw [prod2]; exact h1, p1, p2⟩
  unfold I32
  intro x hx
  simp only [List.mem_cons, List.not_mem_nil, or_false] at hx
  rcases hx with rfl | rfl <;> omega

variable (e : Line K)

/-- C130 for lines, when all the storages can be enlarged (or need not be): the initialisation is that of C62. Missing: the failed allocations. -/
theorem C130_lines_partial (h : LineBins a b) (hT : ¬ Fails okT e.transform.data (a * b)) (hS : ¬ Fails okS e.spectrum a) (hN : ¬ Fails okN e.lut a) :
    ∃ e', e.tryInit L okT okS okN a b x1 x2 x3 x4 = .ok (e', false) ∧ (∀ maxSize : ℕ, a * b ≤ maxSize → e.init L maxSize a b x1 x2 x3 x4 = .ok e') ∧ (e'.thetaNum, e'.rhoNum) = (a, b) ∧
      ∀ i r, (0 ≤ i ∧ i < a) → (0 ≤ r ∧ r < b) → e'.getHoughTransform i r = .ok 0 ∧ e'.getHoughSpectrum i = .ok 0 := by
  obtain ⟨i2, hp, p1, p2⟩ := h.facts
  have ha : 0 ≤ a ∧ a ≤ 2147483647 := ⟨h.1.le, p1.trans h.2.2⟩
  have hz : Cxx.toSize a = a.toNat := by unfold Cxx.toSize; omega
  have key : ∀ maxSize : ℕ, a * b ≤ maxSize → ∃ e', e.tryInit L okT okS okN a b x1 x2 x3 x4 = .ok (e', false) ∧ e.init L maxSize a b x1 x2 x3 x4 = .ok e' := by
    intro maxSize hm
    obtain ⟨t, t1, t2, -⟩ := tryInit_ok (ok := okT) (z := 0) (g := e.transform) i2 hp (by rw [prod2]; exact hT) (maxSize := maxSize) (by rw [prod2]; exact hm)
    obtain ⟨e', f, -⟩ := C62_init L maxSize e ⟨h.1, h.2.1, h.2.2, hm⟩ x1 x2 x3 x4
    refine ⟨e', ?_, f⟩
    unfold Line.init Grid.resize at f
    rw [t2, bind_ok, hz, if_neg (by omega), bind_ok, if_neg (by omega), bind_ok] at f
    unfold Line.tryInit
    simp only [t1, bind_ok, tryResize_ok ha hS, tryResize_ok ha hN, Bool.false_eq_true, if_false]
    generalize (⟨a.toNat, fun i => if i < e.lut.len then e.lut.val i else (0, 0)⟩ : Vec (K × K)) = l at f ⊢
    cases hf : forN a (fun itheta l => Vec.set l itheta (L.cos (x3 * itheta + x1), L.sin (x3 * itheta + x1))) l with
    | error k => rw [hf] at f; cases f
    | ok l' =>
      rw [hf, bind_ok] at f
      rw [bind_ok]
      cases f
      rfl
  obtain ⟨e', e1, e2⟩ := key 2147483647 h.2.2
  obtain ⟨e'', f1, f2, f3, -⟩ := C62_init L 2147483647 e ⟨h.1, h.2.1, h.2.2, h.2.2⟩ x1 x2 x3 x4
  obtain rfl := Except.ok.inj (f1.symm.trans e2)
  refine ⟨e'', e1, ?_, f3, ?_⟩
  · intro maxSize hm
    obtain ⟨d3, g1, g2⟩ := key maxSize hm
    rw [g2]
    exact congrArg Except.ok (Prod.mk.inj (Except.ok.inj (g1.symm.trans e1))).1
  · intro i r hi hr
    simp only [Prod.mk.injEq] at f3
    obtain ⟨rfl, rfl⟩ := f3
    have := line_get_ok f2 (i := i) (r := r) hi
    exact ⟨this.2 hr, this.1⟩

/-- C130 for lines, when the transform cannot be enlarged: a bin of the transform reads the old element of its new position, or out of bounds; the spectrum is the old one. -/
theorem C130_line_transform_violated (h : LineBins a b) (hT : Fails okT e.transform.data (a * b)) :
    ∃ e', e.tryInit L okT okS okN a b x1 x2 x3 x4 = .ok (e', true) ∧ (e'.thetaNum, e'.rhoNum) = (a, b) ∧
      ∀ i r, (0 ≤ i ∧ i < a) → (0 ≤ r ∧ r < b) →
        (e'.getHoughTransform i r = if i + a * r < e.transform.data.len then .ok (e.transform.data.val (i + a * r).toNat) else .error (.ub .outOfBounds)) ∧
        e'.getHoughSpectrum i = if i < e.spectrum.len then .ok (e.spectrum.val i.toNat) else .error (.ub .outOfBounds) := by
  obtain ⟨i2, hp, p1, p2⟩ := h.facts
  refine ⟨⟨⟨e.transform.data, [⟨0, a⟩, ⟨0, b⟩]⟩, e.spectrum, e.lut, a, b, x1, x2, x3, x4, e.ithetaWin, e.irhoWin⟩, ?_, rfl, ?_⟩
  · unfold Line.tryInit
    simp only [tryInit_fails (z := 0) i2 hp (by rw [prod2]; exact hT), bind_ok, if_true]
    rfl
  · intro i r hi hr
    rw [(line_get (r := r) hi).1, (line_get hi).2 hr, (read_new h.2.2 hi hr).2.2]
    exact ⟨rfl, vec_get _ hi.1⟩

/-- C130 for lines, when the spectrum or the normals cannot be enlarged: the transform has the new size and has not been cleared; in the first case the spectrum is the old one, in the second
one it has the new size and has not been cleared. -/
theorem C130_line_spectrum_violated (h : LineBins a b) (hT : ¬ Fails okT e.transform.data (a * b)) (hS : Fails okS e.spectrum a ∨ Fails okN e.lut a) :
    ∃ e', e.tryInit L okT okS okN a b x1 x2 x3 x4 = .ok (e', true) ∧ (e'.thetaNum, e'.rhoNum) = (a, b) ∧
      ∀ i r, (0 ≤ i ∧ i < a) → (0 ≤ r ∧ r < b) →
        e'.getHoughTransform i r = .ok (if i + a * r < e.transform.data.len then e.transform.data.val (i + a * r).toNat else 0) ∧
        (Fails okS e.spectrum a → e'.getHoughSpectrum i = if i < e.spectrum.len then .ok (e.spectrum.val i.toNat) else .error (.ub .outOfBounds)) ∧
        (¬ Fails okS e.spectrum a → e'.getHoughSpectrum i = .ok (if i < e.spectrum.len then e.spectrum.val i.toNat else 0)) := by
  obtain ⟨i2, hp, p1, p2⟩ := h.facts
  have ha : 0 ≤ a ∧ a ≤ 2147483647 := ⟨h.1.le, p1.trans h.2.2⟩
  obtain ⟨t, t1, -, t3⟩ := tryInit_ok (ok := okT) (z := 0) (g := e.transform) i2 hp (by rw [prod2]; exact hT) (maxSize := 2147483647) hp
  have ht : ∀ i r, (0 ≤ i ∧ i < a) → (0 ≤ r ∧ r < b) →
      Grid.read t [i, r] = .ok (if i + a * r < e.transform.data.len then e.transform.data.val (i + a * r).toNat else 0) := by
    intro i r hi hr
    have hread := read_new (v := t.data) h.2.2 hi hr
    rw [show t = ⟨t.data, [⟨0, a⟩, ⟨0, b⟩]⟩ by rw [t3]; rfl, hread.2.2, t3, prod2]
    simp only
    rw [if_pos (by have := hread.2.1; omega)]
    have := hread.1
    by_cases hp : i + a * r < e.transform.data.len
    · rw [if_pos hp, if_pos (by omega)]
    · rw [if_neg hp, if_neg (by omega)]
  by_cases hs : Fails okS e.spectrum a
  · refine ⟨⟨t, e.spectrum, e.lut, a, b, x1, x2, x3, x4, e.ithetaWin, e.irhoWin⟩, ?_, rfl, ?_⟩
    · unfold Line.tryInit
      simp only [t1, bind_ok, Bool.false_eq_true, if_false, tryResize_fails ha hs]
      rfl
    · intro i r hi hr
      rw [(line_get (r := r) hi).1, (line_get hi).2 hr]
      exact ⟨ht i r hi hr, fun _ => vec_get _ hi.1, fun hn => absurd hs hn⟩
  · refine ⟨⟨t, ⟨a.toNat, fun i => if i < e.spectrum.len then e.spectrum.val i else 0⟩, e.lut, a, b, x1, x2, x3, x4, e.ithetaWin, e.irhoWin⟩, ?_, rfl, ?_⟩
    · unfold Line.tryInit
      simp only [t1, bind_ok, Bool.false_eq_true, if_false, tryResize_ok ha hs, tryResize_fails ha (hS.resolve_left hs)]
      rfl
    · intro i r hi hr
      rw [(line_get (r := r) hi).1, (line_get hi).2 hr]
      refine ⟨ht i r hi hr, fun hn => absurd hn hs, fun _ => ?_⟩
      unfold Vec.get
      rw [if_pos (by simp only; omega)]
      simp only
      by_cases hp : i < e.spectrum.len
      · rw [if_pos hp, if_pos (by omega)]
      · rw [if_neg hp, if_neg (by omega)]

/-- A detector of planes with 1 × 1 × 2 bins to be enlarged to 1 × 2 × 2 bins: without memory for the transform its third bin is out of bounds; without memory for the spectrum
only its second bin is. -/
example : (do
    let (d, _) ← (Plane.new : Plane ℚ).tryInit ⟨3, id, id, id, id, fun x _ => x⟩ (fun _ => true) (fun _ => true) (fun _ => true) 1 1 2 0 0 0 1 1 1
    let (d1, t1) ← d.tryInit ⟨3, id, id, id, id, fun x _ => x⟩ (fun _ => false) (fun _ => true) (fun _ => true) 1 2 2 0 0 0 1 1 1
    let (d2, t2) ← d.tryInit ⟨3, id, id, id, id, fun x _ => x⟩ (fun _ => true) (fun _ => false) (fun _ => true) 1 2 2 0 0 0 1 1 1
    return (t1, d1.getHoughTransform 0 0 1, t2, d2.getHoughTransform 0 1 1, d2.getHoughSpectrum 0 1)) =
    .ok (true, .error (.ub .outOfBounds), true, .ok 0, .error (.ub .outOfBounds)) := by decide +kernel

end Verif.Hough
