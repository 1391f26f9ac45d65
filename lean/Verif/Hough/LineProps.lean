import Verif.Hough.Line
import Verif.Hough.FindProps

/-! Property theorems C62, C83 (see properties.jsonl). -/
namespace Verif.Hough
open Verif Functions Interval Interval.Spec PeakFinder PeakFinder.Spec Heap.Spec

variable {K : Type} [Field K] [LinearOrder K] [FloorRing K]

/-- The detector is initialised, with transform `t` and spectrum `s`. -/
structure LineOk (d : Line K) (t : List ℤ → ℕ) (s : ℤ → ℕ) : Prop where
  transform : GridOk d.transform [d.thetaNum, d.rhoNum] t
  spectrum : ∀ i, 0 ≤ i ∧ i < d.thetaNum → d.spectrum.get i = .ok (s i)
  theta : 0 < d.thetaNum
  rho : 0 < d.rhoNum

/-- The sizes of a usable detector. -/
def LineSizes (maxSize : ℕ) (a b : ℤ) : Prop := 0 < a ∧ 0 < b ∧ a * b ≤ 2147483647 ∧ a * b ≤ maxSize

theorem fillVec_get (v : Vec ℕ) {i : ℤ} (h : 0 ≤ i ∧ i < v.len) : (fillVec v).get i = .ok 0 := by
  unfold Vec.get fillVec
  rw [if_pos (by simpa using h)]
  simp only
  rw [if_pos (by omega)]

/-- C62, initialisation: the transform and the spectrum are zero. -/
theorem C62_init (L : Libm K) (maxSize : ℕ) (d : Line K) {a b : ℤ} (h : LineSizes maxSize a b) (thetaMin rhoMin thetaRes rhoRes : K) :
    ∃ d', d.init L maxSize a b thetaMin rhoMin thetaRes rhoRes = .ok d' ∧ LineOk d' (fun _ => 0) (fun _ => 0) ∧
      (d'.thetaNum, d'.rhoNum) = (a, b) ∧ (d'.thetaMin, d'.rhoMin, d'.thetaRes, d'.rhoRes) = (thetaMin, rhoMin, thetaRes, rhoRes) ∧
      d'.lut.len = a.toNat ∧ ∀ i, 0 ≤ i ∧ i < a → d'.lut.get i = .ok (L.cos (thetaRes * i + thetaMin), L.sin (thetaRes * i + thetaMin)) := by
  obtain ⟨ha, hb, h1, h2⟩ := h
  have p1 : a ≤ a * b := le_mul_of_one_le_right ha.le hb
  have p2 : b ≤ a * b := le_mul_of_one_le_left hb.le ha
  have i2 : ∀ x ∈ [a, b], 0 < x ∧ I32 x := by
    unfold I32
    intro x hx
    simp only [List.mem_cons, List.not_mem_nil, or_false] at hx
    rcases hx with rfl | rfl <;> omega
  have e2 : [a, b].prod = a * b := by simp
  obtain ⟨t, ct, t1, t2⟩ := initDims_ok maxSize 0 d.transform [a, b] i2 (by rw [e2]; omega) (by rw [e2]; omega)
  have hsz : Cxx.toSize a = a.toNat := by unfold Cxx.toSize; omega
  have hs : Grid.resize maxSize 0 d.spectrum a.toNat = .ok ⟨a.toNat, fun i => if i < d.spectrum.len then d.spectrum.val i else 0⟩ := if_neg (by omega)
  have hl : Grid.resize maxSize (0, 0) d.lut a.toNat = .ok ⟨a.toNat, fun i => if i < d.lut.len then d.lut.val i else (0, 0)⟩ := if_neg (by omega)
  obtain ⟨l, l1, l2, l3⟩ := forN_inv (f := fun itheta l => Vec.set l itheta (L.cos (thetaRes * itheta + thetaMin), L.sin (thetaRes * itheta + thetaMin)))
    (fun i v => v.len = a.toNat ∧ ∀ j, 0 ≤ j ∧ j < i → v.get j = .ok (L.cos (thetaRes * j + thetaMin), L.sin (thetaRes * j + thetaMin))) ha.le
    (s := ⟨a.toNat, fun i => if i < d.lut.len then d.lut.val i else (0, 0)⟩) ⟨rfl, fun j hj => by omega⟩ (by
      rintro i i0 i1 v ⟨v1, v2⟩
      refine ⟨_, if_pos (by omega), v1, fun j hj => ?_⟩
      unfold Vec.get
      rw [if_pos (by simp only; omega)]
      by_cases e : j = i
      · subst e
        simp
      · have := v2 j (by omega)
        unfold Vec.get at this
        rw [if_pos (by omega)] at this
        simp only
        rw [if_neg (by omega)]
        exact this)
  refine ⟨⟨Grid.fill t 0, fillVec ⟨a.toNat, fun i => if i < d.spectrum.len then d.spectrum.val i else 0⟩, l, a, b, thetaMin, rhoMin, thetaRes, rhoRes,
    d.ithetaWin, d.irhoWin⟩, ?_, ⟨t2.fill 0, fun i hi => fillVec_get _ (by simp only at hi ⊢; omega), ha, hb⟩, rfl, rfl, l2, l3⟩
  unfold Line.init
  rw [t1, bind_ok, hsz, hs, bind_ok, hl, bind_ok, l1, bind_ok]
  rfl

variable {d : Line K} {t : List ℤ → ℕ} {s : ℤ → ℕ}

omit [Field K] [LinearOrder K] [FloorRing K] in
theorem line_get_ok (h : LineOk d t s) {i r : ℤ} (hi : 0 ≤ i ∧ i < d.thetaNum) : d.getHoughSpectrum i = .ok (s i) ∧
    ((0 ≤ r ∧ r < d.rhoNum) → d.getHoughTransform i r = .ok (t [i, r])) := by
  have a1 : Cxx.assert (0 ≤ i ∧ i < d.thetaNum) = .ok () := if_pos hi
  refine ⟨?_, fun hr => ?_⟩
  · unfold Line.getHoughSpectrum
    rw [a1, bind_ok, h.spectrum i hi]
  · have a2 : Cxx.assert (0 ≤ r ∧ r < d.rhoNum) = .ok () := if_pos hr
    unfold Line.getHoughTransform
    rw [a1, bind_ok, a2, bind_ok, h.transform.read (cell2.2 ⟨hi, hr⟩)]

/-- The point falls in the bin of the cell. -/
def InBin (L : Libm K) (d : Line K) (i r : ℤ) (p : K × K) : Prop :=
  let theta := d.thetaRes * i + d.thetaMin
  let rho := p.1 * L.cos theta + p.2 * L.sin theta
  d.rhoMin + r * d.rhoRes ≤ rho ∧ rho < d.rhoMin + (r + 1) * d.rhoRes

open Classical in
/-- C62 for a detector and a set of points: `insert` adds to each counter the number of points in the bin. -/
def C62_statement (L : Libm K) (d : Line K) (points : List (K × K)) : Prop :=
  ∀ i r, (0 ≤ i ∧ i < d.thetaNum) → (0 ≤ r ∧ r < d.rhoNum) → ∃ old, d.getHoughTransform i r = .ok old ∧
    (d.insert points).getHoughTransform i r = .ok (wrap (old + points.countP fun p => decide (InBin L d i r p)))

/-- C62 holds exactly for the sets of points that vote for no cell. -/
theorem C62_insert_iff_partial (L : Libm K) (h : LineOk d t s) (ht : ∀ is, t is < 18446744073709551616) (points : List (K × K))
    (hp : points.length < 18446744073709551616) : C62_statement L d points ↔
      ∀ i r, (0 ≤ i ∧ i < d.thetaNum) → (0 ≤ r ∧ r < d.rhoNum) → ∀ p ∈ points, ¬ InBin L d i r p := by
  classical
  constructor
  · intro hst i r hi hr p hpm hin
    obtain ⟨old, o1, o2⟩ := hst i r hi hr
    have e : (d.insert points).getHoughTransform i r = d.getHoughTransform i r := rfl
    rw [e, o1] at o2
    have o2 := Except.ok.inj o2
    have hold : old < 18446744073709551616 := by
      rw [(line_get_ok h hi).2 hr] at o1
      rw [← Except.ok.inj o1]
      exact ht _
    have hc : 0 < points.countP fun p => decide (InBin L d i r p) := List.countP_pos_iff.2 ⟨p, hpm, by simpa using hin⟩
    have hc' : (points.countP fun p => decide (InBin L d i r p)) ≤ points.length := List.countP_le_length
    unfold wrap at o2
    generalize (points.countP fun p => decide (InBin L d i r p)) = n at *
    omega
  · intro hno i r hi hr
    refine ⟨_, (line_get_ok h hi).2 hr, ?_⟩
    rw [List.countP_eq_zero.2 (fun p hpm => by simpa using hno i r hi hr p hpm), Nat.add_zero, wrap_of_lt (ht _)]
    exact (line_get_ok h hi).2 hr

/-- C62 fails: on every initialised detector the point of each bin is not counted. -/
theorem C62_violated (maxSize : ℕ) {a b : ℤ} (h : LineSizes maxSize a b) {rhoRes : ℝ} (hr : 0 < rhoRes) (n : ℕ) (hn : n < b) :
    ∃ d, Line.new.initSizes Functions.Spec.real maxSize a b rhoRes = .ok d ∧ ¬ C62_statement Functions.Spec.real d [((n : ℝ) * rhoRes, 0)] := by
  obtain ⟨d, h1, h2, h3, h4, -⟩ := C62_init Functions.Spec.real maxSize Line.new h 0 0 (Functions.Spec.real.pi / a) rhoRes
  simp only [Prod.mk.injEq] at h3 h4
  refine ⟨d, h1, fun hst => ?_⟩
  have := (C62_insert_iff_partial Functions.Spec.real h2 (fun _ => by norm_num) _ (by norm_num)).1 hst 0 n (by have := h2.theta; omega) (by omega) _
    (List.mem_singleton_self _)
  apply this
  unfold InBin
  simp only [h4.1, h4.2.1, h4.2.2.1, h4.2.2.2, Functions.Spec.real, Int.cast_zero, mul_zero, add_zero, Real.cos_zero, mul_one, zero_mul, Int.cast_natCast,
    zero_add, le_refl, true_and]
  nlinarith

/-! ### No line is ever found -/

theorem isPeak_const {V : Type} {f : Finder V} {map : List ℤ → V} (hc : ∀ x y, f.comp (map x) (map y) = false) {items : Vec (List ℤ)} {c : List ℤ} {b : Bool}
    (h : isPeak f map items c = .ok b) : b = false := by
  unfold isPeak at h
  split at h
  · split at h
    · exact (Except.ok.inj h).symm
    · obtain ⟨t, -, h⟩ := bind_inv h
      rw [hc, if_neg Bool.false_ne_true] at h
      obtain ⟨n, -, h⟩ := bind_inv h
      rw [hc] at h
      exact (Except.ok.inj h).symm
  · exact (Except.ok.inj h).symm

theorem domainLoop_const {V : Type} {f : Finder V} {map : List ℤ → V} (hc : ∀ x y, f.comp (map x) (map y) = false) (e : Iter) (fuel : ℕ) (it : Iter)
    (s s' : State) (h0 : s.maxima.len = 0) (h : domainLoop f map e fuel it s = .ok s') : s'.maxima.len = 0 := by
  induction fuel generalizing it s with
  | zero => cases h
  | succ fuel ih =>
    unfold domainLoop at h
    by_cases hp : it.pos ≠ e.pos
    · rw [if_pos hp] at h
      obtain ⟨s1, h1, h⟩ := bind_inv h
      obtain ⟨nx, h2, h⟩ := bind_inv h
      obtain ⟨-, b, items, hb, hm⟩ := body_maxima h1
      rw [isPeak_const hc hb] at hm
      unfold body.pushPeak at hm
      rw [if_neg Bool.false_ne_true] at hm
      exact ih nx s1 (by rw [← Except.ok.inj hm]; exact h0) h
    · rw [if_neg hp] at h
      obtain rfl := Except.ok.inj h
      exact h0

/-- A map without a strictly better pair has no reported peak. -/
theorem detect_const {V : Type} {f : Finder V} {map : List ℤ → V} (hc : ∀ x y, f.comp (map x) (map y) = false) {out : List (List ℤ)}
    (h : detect f map = .ok out) : out = [] := by
  unfold detect at h
  obtain ⟨it, -, h2⟩ := bind_inv h
  obtain ⟨e, -, h3⟩ := bind_inv h2
  obtain ⟨_, -, h4⟩ := bind_inv h3
  obtain ⟨s, hs, h5⟩ := bind_inv h4
  obtain ⟨it1, -, h6⟩ := bind_inv h5
  obtain ⟨s1, h1, h7⟩ := bind_inv h6
  have hm : s.maxima = Vec.empty [] := by
    unfold initState at hs
    obtain ⟨_, -, hs⟩ := bind_inv hs
    obtain ⟨_, -, hs⟩ := bind_inv hs
    obtain ⟨_, -, hs⟩ := bind_inv hs
    obtain rfl := Except.ok.inj hs
    rfl
  have hz := domainLoop_const hc e _ it1 s s1 (by rw [hm]; rfl) h1
  unfold drain at h7
  rw [if_pos hz] at h7
  exact (Except.ok.inj h7).symm

/-- All the elements are zero, the values beyond the end included. -/
def AllZero (v : Vec ℕ) : Prop := ∀ i, v.val i = 0

theorem step_zero (L : Libm K) (maxSize : ℕ) (o : LineOp K) {d d' : Line K} (h : AllZero d.spectrum) (e : d.step L maxSize o = .ok d') :
    AllZero d'.spectrum := by
  cases o with
  | init a b c e' f g =>
    unfold Line.step Line.init at e
    obtain ⟨t, -, e⟩ := bind_inv e
    obtain ⟨s, hs, e⟩ := bind_inv e
    obtain ⟨l, -, e⟩ := bind_inv e
    obtain ⟨l', -, e⟩ := bind_inv e
    obtain rfl := Except.ok.inj e
    unfold Grid.resize at hs
    split at hs
    · cases hs
    · obtain rfl := Except.ok.inj hs
      intro i
      simp only [fillVec]
      split
      · rfl
      · split
        · exact h i
        · rfl
  | setZero =>
    obtain rfl := Except.ok.inj e
    intro i
    simp only [Line.setZero, fillVec]
    split
    · rfl
    · exact h i
  | setPeakWindow a b => obtain rfl := Except.ok.inj e; exact h
  | setPeakWindowScalar a b =>
    unfold Line.step Line.setPeakWindowScalar at e
    obtain ⟨t, -, e⟩ := bind_inv e
    obtain ⟨r, -, e⟩ := bind_inv e
    obtain rfl := Except.ok.inj e
    exact h
  | insert ps => obtain rfl := Except.ok.inj e; exact h

/-- C62: after every sequence of calls on a new detector, whatever points are inserted, no line and no normal is found. -/
theorem C62_no_lines (L : Libm K) (maxSize : ℕ) (os : List (LineOp K)) {d : Line K} (h : os.foldlM (Line.step L maxSize) Line.new = .ok d) :
    (∀ lines out, d.findLines lines = .ok out → out = lines) ∧ (∀ normals out, d.findNormalMax L normals = .ok out → out = normals) := by
  have hz : AllZero d.spectrum := by
    have key : ∀ (os : List (LineOp K)) (d0 d : Line K), AllZero d0.spectrum → os.foldlM (Line.step L maxSize) d0 = .ok d → AllZero d.spectrum := by
      intro os
      induction os with
      | nil => intro d0 d h e; obtain rfl := Except.ok.inj e; exact h
      | cons o os ih =>
        intro d0 d h e
        rw [List.foldlM_cons] at e
        obtain ⟨d1, e1, e⟩ := bind_inv e
        exact ih d1 d (step_zero L maxSize o h e1) e
    exact key os Line.new d (fun i => rfl) h
  have hs : ∀ out, d.findSpectrumMax = .ok out → out = [] := by
    intro out ho
    unfold Line.findSpectrumMax at ho
    obtain ⟨_, -, ho⟩ := bind_inv ho
    refine detect_const (fun x y => ?_) ho
    show greater (d.spectrum.val _) (d.spectrum.val _) = false
    rw [hz, hz]
    rfl
  constructor
  · intro lines out ho
    unfold Line.findLines at ho
    obtain ⟨hs', e, ho⟩ := bind_inv ho
    rw [hs _ e] at ho
    obtain ⟨rs, e, ho⟩ := bind_inv ho
    have : rs = [] := (Except.ok.inj e).symm
    rw [this] at ho
    rw [← Except.ok.inj ho]
    simp
  · intro lines out ho
    unfold Line.findNormalMax at ho
    obtain ⟨hs', e, ho⟩ := bind_inv ho
    rw [hs _ e] at ho
    rw [← Except.ok.inj ho]
    simp

/-! ### C83 -/

/-- The windows of the detector can be centred on each cell. -/
structure LineWindows (d : Line K) : Prop where
  theta : 0 ≤ d.ithetaWin ∧ d.thetaNum + d.ithetaWin ≤ 2147483647 ∧ 2 * d.ithetaWin + 1 ≤ 2147483647
  rho : 0 ≤ d.irhoWin ∧ d.rhoNum + d.irhoWin ≤ 2147483647 ∧ 2 * d.irhoWin + 1 ≤ 2147483647

theorem fits_one' {n w : ℤ} (hn : 0 < n) (hw : 0 ≤ w ∧ n + w ≤ 2147483647 ∧ 2 * w + 1 ≤ 2147483647) : Fits ([n].map fun n => ⟨0, n⟩) [w] := by
  refine ⟨?_, ?_, .cons ?_ .nil⟩
  · intro a ha
    simp only [List.map_cons, List.map_nil, List.mem_singleton] at ha
    subst ha
    unfold I32
    simp only
    omega
  · simp [card]; omega
  · unfold I32
    dsimp only
    omega

theorem forN_read {α : Type} {n : ℤ} (hn : 0 ≤ n) {f : ℤ → Outcome α} (h : ∀ i, 0 ≤ i ∧ i < n → ∃ x, f i = .ok x) :
    forN n (fun i _ => do
      let _ ← f i
      return ()) () = .ok () := by
  obtain ⟨u, e, -⟩ := forN_inv (f := fun i _ => do
    let _ ← f i
    return ()) (fun _ _ => True) hn (s := ()) trivial (fun r h0 h1 _ _ => by
      obtain ⟨x, hx⟩ := h r ⟨h0, h1⟩
      exact ⟨(), by rw [hx]; rfl, trivial⟩)
  exact e

theorem cells_one {n : ℤ} {o : List (List ℤ)} (h : ∀ c ∈ o, Cell [n] c ∧ c ≠ ([n].map fun _ => 0)) :
    ∃ rs : List ℤ, o = rs.map (fun r => [r]) ∧ ∀ r ∈ rs, 0 < r ∧ r < n := by
  induction o with
  | nil => exact ⟨[], rfl, by simp⟩
  | cons c o ih =>
    obtain ⟨rs, e, hr⟩ := ih fun c hc => h c (by simp [hc])
    obtain ⟨c1, c2⟩ := h c (by simp)
    match c, c1, c2 with
    | [r], .cons q .nil, c2 =>
      refine ⟨r :: rs, by rw [e]; rfl, fun x hx => ?_⟩
      rcases List.mem_cons.1 hx with rfl | hx
      · refine ⟨lt_of_le_of_ne q.1 fun e => c2 ?_, q.2⟩
        rw [← e]
        rfl
      · exact hr x hx

omit [Field K] [LinearOrder K] [FloorRing K] in
/-- The search over the angles: indices other than the first, in decreasing order of the spectrum. -/
theorem line_spectrum_ok (h : LineOk d t s) (hw : LineWindows d) : ∃ hs : List ℤ, d.findSpectrumMax = .ok (hs.map fun i => [i]) ∧ hs.Nodup ∧
    (∀ i ∈ hs, 0 < i ∧ i < d.thetaNum) ∧ hs.Pairwise (fun a b => s b ≤ s a) := by
  obtain ⟨o, o1, o2, o3, o4⟩ := detect_ok (size := [d.thetaNum]) (valueVec d.spectrum) (by simp) (fits_one' h.theta hw.theta)
  obtain ⟨hs, rfl, hr⟩ := cells_one o3
  refine ⟨hs, ?_, List.Nodup.of_map _ o2, hr, ?_⟩
  · unfold Line.findSpectrumMax
    rw [forN_read h.theta.le fun i hi => ⟨_, h.spectrum i hi⟩, bind_ok, o1]
  · rw [List.pairwise_map] at o4
    have hv : ∀ i, 0 < i ∧ i < d.thetaNum → valueVec d.spectrum [i] = s i := by
      intro i hi
      have := h.spectrum i ⟨hi.1.le, hi.2⟩
      unfold Vec.get at this
      split at this
      · exact Except.ok.inj this
      · cases this
    refine o4.imp_of_mem fun {a b} ha hb hab => ?_
    rwa [hv a (hr a ha), hv b (hr b hb)] at hab

theorem line_rho_ok (h : LineOk d t s) (hw : LineWindows d) {i : ℤ} (hi : 0 ≤ i ∧ i < d.thetaNum) : ∃ rs : List ℤ,
    d.findRho i = .ok (rs.map fun r => [i, r]) ∧ rs.Nodup ∧ (∀ r ∈ rs, 0 < r ∧ r < d.rhoNum) ∧ rs.Pairwise (fun a b => t [i, b] ≤ t [i, a]) := by
  obtain ⟨o, o1, o2, o3, o4⟩ := detect_ok (size := [d.rhoNum]) (fun is => valueOf d.transform (i :: is)) (by simp) (fits_one' h.rho hw.rho)
  obtain ⟨rs, rfl, hr⟩ := cells_one o3
  refine ⟨rs, ?_, List.Nodup.of_map _ o2, hr, ?_⟩
  · unfold Line.findRho
    rw [forN_read h.rho.le fun r hr => ⟨_, h.transform.read (cell2.2 ⟨hi, hr⟩)⟩, bind_ok, o1, bind_ok, List.map_map]
    rfl
  · rw [List.pairwise_map] at o4
    refine o4.imp_of_mem fun {a b} ha hb hab => ?_
    rwa [valueOf_ok h.transform (cell2.2 ⟨hi, (hr a ha).1.le, (hr a ha).2⟩), valueOf_ok h.transform (cell2.2 ⟨hi, (hr b hb).1.le, (hr b hb).2⟩)] at hab

/-- C83: for every content of the transform and of the spectrum `findLines` keeps the previous lines and appends, for distinct angles in decreasing
order of the spectrum, cells of these angles with distinct distances in decreasing order of the transform, the first angle and distance never
being reported. Missing: that they are the peaks, false by `C40_violated`. -/
theorem C83_findLines_partial (h : LineOk d t s) (hw : LineWindows d) (lines : List (List ℤ)) : ∃ (hs : List ℤ) (rho : ℤ → List ℤ),
    d.findLines lines = .ok (lines ++ (hs.map fun i => (rho i).map fun r => [i, r]).flatten) ∧ hs.Nodup ∧ (∀ i ∈ hs, 0 < i ∧ i < d.thetaNum) ∧
    hs.Pairwise (fun a b => ∃ x y, d.getHoughSpectrum a = .ok x ∧ d.getHoughSpectrum b = .ok y ∧ y ≤ x) ∧
    ∀ i ∈ hs, (rho i).Nodup ∧ (∀ r ∈ rho i, 0 < r ∧ r < d.rhoNum) ∧
      (rho i).Pairwise (fun a b => ∃ x y, d.getHoughTransform i a = .ok x ∧ d.getHoughTransform i b = .ok y ∧ y ≤ x) := by
  obtain ⟨hs, e, n, m, o⟩ := line_spectrum_ok h hw
  have hr : ∀ i ∈ hs, ∃ rs : List ℤ, d.findRho i = .ok (rs.map fun r => [i, r]) ∧ rs.Nodup ∧ (∀ r ∈ rs, 0 < r ∧ r < d.rhoNum) ∧
      rs.Pairwise (fun a b => t [i, b] ≤ t [i, a]) := fun i hi => line_rho_ok h hw ⟨(m i hi).1.le, (m i hi).2⟩
  choose! rho r1 r2 r3 r4 using hr
  refine ⟨hs, rho, ?_, n, m, o.imp_of_mem fun {a b} ha hb hab => ⟨_, _, (line_get_ok h (r := 0) ⟨(m a ha).1.le, (m a ha).2⟩).1,
    (line_get_ok h (r := 0) ⟨(m b hb).1.le, (m b hb).2⟩).1, hab⟩, fun i hi => ⟨r2 i hi, r3 i hi, (r4 i hi).imp_of_mem fun {a b} ha hb hab => ?_⟩⟩
  · unfold Line.findLines
    rw [e, bind_ok, mapM_ok (g := fun h => (rho (h.getD 0 0)).map fun r => [h.getD 0 0, r]), bind_ok, List.map_map]
    · rfl
    · intro x hx
      obtain ⟨i, hi, rfl⟩ := List.mem_map.1 hx
      exact r1 i hi
  · have hi' := m i hi
    exact ⟨_, _, (line_get_ok h ⟨hi'.1.le, hi'.2⟩).2 ⟨(r3 i hi a ha).1.le, (r3 i hi a ha).2⟩,
      (line_get_ok h ⟨hi'.1.le, hi'.2⟩).2 ⟨(r3 i hi b hb).1.le, (r3 i hi b hb).2⟩, hab⟩

/-- C83: the indices, angles and normals are appended in the same order, the normals being those of the angles. -/
theorem C83_normals (L : Libm K) (h : LineOk d t s) (hw : LineWindows d) (is : List ℤ) (as : List K) (ns : List (K × K)) : ∃ hs : List ℤ,
    d.findSpectrumIndexMax is = .ok (is ++ hs) ∧ d.findSpectrumAngleMax as = .ok (as ++ hs.map fun (i : ℤ) => d.thetaMin + d.thetaRes * i) ∧
    d.findNormalMax L ns = .ok (ns ++ (hs.map fun (i : ℤ) => d.thetaMin + d.thetaRes * i).map fun a => (L.cos a, L.sin a)) := by
  obtain ⟨hs, e, -⟩ := line_spectrum_ok h hw
  refine ⟨hs, ?_, ?_, ?_⟩
  · unfold Line.findSpectrumIndexMax
    rw [e, bind_ok, List.map_map]
    exact congrArg (fun x => Except.ok (is ++ x)) (List.map_id hs)
  · unfold Line.findSpectrumAngleMax
    rw [e, bind_ok, List.map_map]
    rfl
  · unfold Line.findNormalMax
    rw [e, bind_ok, List.map_map, List.map_map]
    rfl

/-- An ordinary case: a detector with 3 angles and 4 distances and its lines. -/
example : (Line.mk ⟨⟨12, fun i => [0, 1, 0, 0, 0, 2, 0, 5, 0, 0, 0, 0].getD i 0⟩, [⟨0, 3⟩, ⟨0, 4⟩]⟩ ⟨3, fun i => [0, 26, 4].getD i 0⟩ ⟨3, fun _ => ((0 : ℚ), 0)⟩ 3 4
    0 0 1 1 1 1).findLines [[7, 7]] = .ok [[7, 7], [1, 2]] := by decide +kernel

end Verif.Hough
