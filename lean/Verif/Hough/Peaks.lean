import Verif.Hough.LineProps

/-! Property theorem C83 (see properties.jsonl), which cells are found: with distinct counters the local maxima other than the first angle and distance. -/
namespace Verif.Hough
open Verif Functions Interval Interval.Spec PeakFinder PeakFinder.Spec Heap.Spec

variable {K : Type} [Field K] [LinearOrder K] [FloorRing K]

/-- `i` is an index below `n` whose value is larger than those at distance at most `w`. -/
def LocalMax (v : ℤ → ℕ) (n w i : ℤ) : Prop := (0 ≤ i ∧ i < n) ∧ ∀ j, 0 ≤ j → j < n → j ≠ i → |j - i| ≤ w → v j < v i

/-- The values of two indices below `n` differ. -/
def Distinct (v : ℤ → ℕ) (n : ℤ) : Prop := ∀ i j, 0 ≤ i → i < n → 0 ≤ j → j < n → i ≠ j → v i ≠ v j

theorem detect_exact {n w : ℤ} (hn : 0 < n) (hw : 1 ≤ w ∧ n + w ≤ 2147483647 ∧ 2 * w + 1 ≤ 2147483647) {v : ℤ → ℕ} {map : List ℤ → ℕ}
    (hm : ∀ i, 0 ≤ i → i < n → map [i] = v i) (hd : Distinct v n) {o : List (List ℤ)} (ho : detect (finder [n] [w]) map = .ok o) (c : List ℤ) :
    c ∈ o ↔ ∃ i, c = [i] ∧ i ≠ 0 ∧ LocalMax v n w i := by
  have e1 : (finder [n] [w]).domain = [⟨0, n⟩] := finder_domain [n] [w]
  have e2 : (finder [n] [w]).iwin = [w] := rfl
  have hf : Fits (finder [n] [w]).domain (finder [n] [w]).iwin := by
    rw [e1]
    exact fits_one' hn ⟨by omega, hw.2⟩
  obtain ⟨out, o1, o2⟩ := C40_oneDim_partial (finder [n] [w]) map 0 n w greater_strictWeak e1 e2 hf hw.1 (by
    rintro i j h1 h2 h3 h4 h5 ⟨h6, h7⟩
    have h6 : greater (map [i]) (map [j]) = false := h6
    have h7 : greater (map [j]) (map [i]) = false := h7
    rw [hm i h1 (by omega), hm j h3 (by omega)] at h6 h7
    simp only [greater, decide_eq_false_iff_not, not_lt] at h6 h7
    exact hd i j h1 (by omega) h3 (by omega) h5 (by omega))
  rw [ho] at o1
  obtain rfl := Except.ok.inj o1
  rw [o2, e1, e2]
  constructor
  · rintro ⟨⟨p1, -, p3⟩, p4⟩
    obtain ⟨i, rfl, p5, p6⟩ := mem_one.1 p1
    dsimp only at p5 p6
    refine ⟨i, rfl, fun h => p4 (by rw [h]), ⟨p5, by omega⟩, fun j h1 h2 h3 h4 => ?_⟩
    have h5 : greater (map [i]) (map [j]) = true := p3 [j] (mem_one.2 ⟨j, rfl, by dsimp only; omega, by dsimp only; omega⟩) (by simpa using h3)
      ⟨rfl, fun d hd => by
        have : d = 0 := by simpa using hd
        subst this
        simpa using h4⟩
    rw [hm i p5 (by omega), hm j h1 h2] at h5
    simpa [greater] using h5
  · rintro ⟨i, rfl, h0, ⟨h1, h2⟩, h3⟩
    refine ⟨⟨mem_one.2 ⟨i, rfl, by dsimp only; omega, by dsimp only; omega⟩, Or.inl rfl, fun e he hne hwin => ?_⟩, by simpa using h0⟩
    obtain ⟨j, rfl, p5, p6⟩ := mem_one.1 he
    dsimp only at p5 p6
    have := h3 j p5 (by omega) (by simpa using hne) (by simpa using hwin.2 0 (by simp))
    show greater (map [i]) (map [j]) = true
    rw [hm i h1 h2, hm j p5 (by omega)]
    simpa [greater] using this

variable {d : Line K} {t : List ℤ → ℕ} {s : ℤ → ℕ}

theorem spectrum_value (h : LineOk d t s) {i : ℤ} (h0 : 0 ≤ i) (h1 : i < d.thetaNum) : valueVec d.spectrum [i] = s i := by
  have := h.spectrum i ⟨h0, h1⟩
  unfold Vec.get at this
  split at this
  · exact Except.ok.inj this
  · cases this

theorem mem_singletons {hs : List ℤ} {i : ℤ} : [i] ∈ hs.map (fun i => [i]) ↔ i ∈ hs := by simp

/-- C83: `findLines` finds exactly the cells that are local maxima along rho for angles that are local maxima of the spectrum. -/
def C83_statement (K : Type) [Field K] [LinearOrder K] [FloorRing K] : Prop :=
  ∀ (d : Line K) t s, LineOk d t s → LineWindows d → ∃ out, d.findLines [] = .ok out ∧ ∀ c, c ∈ out ↔
    ∃ i r, c = [i, r] ∧ LocalMax s d.thetaNum d.ithetaWin i ∧ LocalMax (fun r => t [i, r]) d.rhoNum d.irhoWin r

/-- C83, part: with windows of half-size at least one, distinct counters of the spectrum and distinct counters of each angle, `findLines` appends exactly
the cells that are local maxima along rho for angles that are local maxima of the spectrum, except those of the first angle or distance, each once. Missing: the first
angle and distance and equal counters, where the property is false (`C83_violated`). -/
theorem C83_peaks_partial (h : LineOk d t s) (hw : LineWindows d) (h1 : 1 ≤ d.ithetaWin ∧ 1 ≤ d.irhoWin) (hs : Distinct s d.thetaNum)
    (ht : ∀ i, 0 ≤ i → i < d.thetaNum → Distinct (fun r => t [i, r]) d.rhoNum) (lines : List (List ℤ)) :
    ∃ new, d.findLines lines = .ok (lines ++ new) ∧ new.Nodup ∧ ∀ c, c ∈ new ↔
      ∃ i r, c = [i, r] ∧ (i ≠ 0 ∧ LocalMax s d.thetaNum d.ithetaWin i) ∧ r ≠ 0 ∧ LocalMax (fun r => t [i, r]) d.rhoNum d.irhoWin r := by
  obtain ⟨hs', e, n, m, -⟩ := line_spectrum_ok h hw
  have hx : ∀ i, i ∈ hs' ↔ i ≠ 0 ∧ LocalMax s d.thetaNum d.ithetaWin i := by
    intro i
    have e' := e
    unfold Line.findSpectrumMax at e'
    obtain ⟨_, -, e'⟩ := bind_inv e'
    have := detect_exact h.theta ⟨h1.1, hw.theta.2⟩ (fun i h0 h1 => spectrum_value h h0 h1) hs e' [i]
    rw [mem_singletons] at this
    rw [this]
    constructor
    · rintro ⟨j, e, h⟩
      obtain rfl : i = j := by simpa using e
      exact h
    · exact fun h => ⟨i, rfl, h⟩
  have hr : ∀ i ∈ hs', ∃ rs : List ℤ, d.findRho i = .ok (rs.map fun r => [i, r]) ∧ rs.Nodup ∧
      ∀ r, r ∈ rs ↔ r ≠ 0 ∧ LocalMax (fun r => t [i, r]) d.rhoNum d.irhoWin r := by
    intro i hi
    have hi' : 0 ≤ i ∧ i < d.thetaNum := ⟨(m i hi).1.le, (m i hi).2⟩
    obtain ⟨rs, r1, r2, -, -⟩ := line_rho_ok h hw hi'
    refine ⟨rs, r1, r2, fun r => ?_⟩
    unfold Line.findRho at r1
    obtain ⟨_, -, r1⟩ := bind_inv r1
    obtain ⟨o, o1, r1⟩ := bind_inv r1
    have := detect_exact (v := fun r => t [i, r]) h.rho ⟨h1.2, hw.rho.2⟩ (fun r h0 h1 => show valueOf d.transform [i, r] = t [i, r] from valueOf_ok h.transform (cell2.2 ⟨hi', h0, h1⟩)) (ht i hi'.1 hi'.2) o1 [r]
    have key := Except.ok.inj r1
    have hor : o = rs.map fun r => [r] := by
      have := congrArg (List.map List.tail) key
      simpa [List.map_map, Function.comp_def] using this
    rw [hor, mem_singletons] at this
    rw [this]
    constructor
    · rintro ⟨j, e, h⟩
      obtain rfl : r = j := by simpa using e
      exact h
    · exact fun h => ⟨r, rfl, h⟩
  choose! rho r1 r2 r3 using hr
  refine ⟨(hs'.map fun i => (rho i).map fun r => [i, r]).flatten, ?_, ?_, fun c => ?_⟩
  · unfold Line.findLines
    rw [e, bind_ok, mapM_ok (g := fun h => (rho (h.getD 0 0)).map fun r => [h.getD 0 0, r]), bind_ok, List.map_map]
    · rfl
    · intro x hx
      obtain ⟨i, hi, rfl⟩ := List.mem_map.1 hx
      exact r1 i hi
  · rw [List.nodup_flatten]
    refine ⟨fun l hl => ?_, ?_⟩
    · obtain ⟨i, hi, rfl⟩ := List.mem_map.1 hl
      exact (r2 i hi).map fun a b hab => by simpa using hab
    · rw [List.pairwise_map]
      refine n.imp fun {a b} hab => ?_
      rw [List.disjoint_left]
      intro x hx hy
      obtain ⟨r, -, rfl⟩ := List.mem_map.1 hx
      obtain ⟨r', -, e'⟩ := List.mem_map.1 hy
      simp only [List.cons.injEq] at e'
      exact hab e'.1.symm
  · rw [List.mem_flatten]
    constructor
    · rintro ⟨l, hl, hc⟩
      obtain ⟨i, hi, rfl⟩ := List.mem_map.1 hl
      obtain ⟨r, hr, rfl⟩ := List.mem_map.1 hc
      exact ⟨i, r, rfl, (hx i).1 hi, (r3 i hi r).1 hr⟩
    · rintro ⟨i, r, rfl, hi, hr⟩
      have hi := (hx i).2 hi
      exact ⟨_, List.mem_map_of_mem hi, List.mem_map_of_mem ((r3 i hi r).2 hr)⟩

/-- C83 fails: the only line of a detector is at the first distance and is not found. -/
theorem C83_violated : ¬ C83_statement ℝ := by
  intro hst
  have hs : LineSizes 100 2 2 := by unfold LineSizes; norm_num
  obtain ⟨d, -, h2, h3, -⟩ := C62_init Functions.Spec.real 100 Line.new hs 0 0 1 1
  obtain ⟨a1, a2⟩ : d.thetaNum = 2 ∧ d.rhoNum = 2 := by simpa using h3
  obtain ⟨T, -, t2⟩ := h2.transform.write (is := [1, 0]) (cell2.2 (by omega)) 1
  have hok : LineOk { d with transform := T, spectrum := ⟨2, fun i => if i = 1 then 1 else 0⟩, ithetaWin := 1, irhoWin := 1 }
      (fun js => if js = [1, 0] then 1 else 0) (fun i => if i = 1 then 1 else 0) := by
    refine ⟨t2, fun i hi => ?_, h2.theta, h2.rho⟩
    have hi : 0 ≤ i ∧ i < d.thetaNum := hi
    obtain rfl | rfl : i = 0 ∨ i = 1 := by omega
    · rfl
    · rfl
  have hw : LineWindows { d with transform := T, spectrum := ⟨2, fun i => if i = 1 then 1 else 0⟩, ithetaWin := 1, irhoWin := 1 } :=
    ⟨⟨by norm_num, by dsimp only; omega, by norm_num⟩, ⟨by norm_num, by dsimp only; omega, by norm_num⟩⟩
  obtain ⟨out, o1, o2⟩ := hst _ _ _ hok hw
  have hin : [1, 0] ∈ out := by
    rw [o2]
    refine ⟨1, 0, rfl, ⟨⟨by norm_num, by dsimp only; omega⟩, fun j _ _ h _ => ?_⟩, ⟨⟨le_rfl, by dsimp only; omega⟩, fun j _ _ h _ => ?_⟩⟩
    · simp [h]
    · simp [h]
  obtain ⟨hs, rho, e, -, -, -, m⟩ := C83_findLines_partial hok hw []
  rw [o1] at e
  obtain rfl := Except.ok.inj e
  rw [List.nil_append, List.mem_flatten] at hin
  obtain ⟨l, hl, hc⟩ := hin
  obtain ⟨i, hi, rfl⟩ := List.mem_map.1 hl
  obtain ⟨r, hr, e⟩ := List.mem_map.1 hc
  simp only [List.cons.injEq] at e
  have := ((m i hi).2.1 r hr).1
  omega

/-- An ordinary case of `C83_peaks_partial`: distinct counters, three angles and four distances, one line found and those of the first angle or distance not. -/
example : (Line.mk ⟨⟨12, fun i => [9, 8, 0, 1, 2, 1, 2, 5, 2, 3, 7, 3].getD i 0⟩, [⟨0, 3⟩, ⟨0, 4⟩]⟩ ⟨3, fun i => [3, 26, 4].getD i 0⟩ ⟨3, fun _ => ((0 : ℚ), 0)⟩ 3 4
    0 0 1 1 1 1).findLines [] = .ok [[1, 3]] := by decide +kernel

end Verif.Hough
