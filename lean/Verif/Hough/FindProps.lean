import Verif.Hough.PlaneProps
import Verif.PeakFinder.Props

/-! Property theorem C82 (see properties.jsonl): the planes found. -/
namespace Verif.Hough
open Verif Functions Interval Interval.Spec PeakFinder PeakFinder.Spec Heap.Spec

variable {K : Type} [Field K] [LinearOrder K] [FloorRing K]

/-- The windows of the detector can be centred on each cell. -/
structure WindowsOk (d : Plane K) : Prop where
  theta : 0 ≤ d.ithetaWin ∧ d.thetaNum + d.ithetaWin ≤ 2147483647 ∧ 2 * d.ithetaWin + 1 ≤ 2147483647
  phi : 0 ≤ d.iphiWin ∧ d.phiNum + d.iphiWin ≤ 2147483647 ∧ 2 * d.iphiWin + 1 ≤ 2147483647
  rho : 0 ≤ d.irhoWin ∧ d.rhoNum + d.irhoWin ≤ 2147483647 ∧ 2 * d.irhoWin + 1 ≤ 2147483647

theorem greater_strictWeak : StrictWeak greater :=
  ⟨fun a => by simp [greater], fun a b c => by simp only [greater, decide_eq_true_eq]; omega,
    fun a b c => by simp only [greater, decide_eq_false_iff_not]; omega⟩

theorem finder_domain (size win : List ℤ) : (finder size win).domain = size.map fun n => ⟨0, n⟩ := by
  unfold finder Finder.setPeakWindow Finder.setDomainSize initBounds
  simp only
  induction size with
  | nil => rfl
  | cons a l ih => rw [List.length_cons, List.replicate_succ, List.zipWith_cons_cons, ih, List.map_cons]

theorem detect_ok {size win : List ℤ} (map : List ℤ → ℕ) (hl : size.length ≤ 2) (hf : Fits (size.map fun n => ⟨0, n⟩) win) :
    ∃ out, detect (finder size win) map = .ok out ∧ out.Nodup ∧ (∀ c ∈ out, Cell size c ∧ c ≠ size.map fun _ => 0) ∧
      out.Pairwise (fun a b => map b ≤ map a) := by
  have hd := finder_domain size win
  have hf' : Fits (finder size win).domain (finder size win).iwin := by rw [hd]; exact hf
  obtain ⟨out, ho⟩ := C40_returns_partial (finder size win) map hf' (by
    intro k hk h'
    rw [hd, List.length_map] at h'
    omega)
  obtain ⟨n1, n2, n3⟩ := C40_cells_partial _ map hf'.proper hf'.card out ho
  have n4 := C41_order _ map (show StrictWeak greater from greater_strictWeak) out ho
  refine ⟨out, ho, n1, fun c hc => ⟨(mem_iff size c).1 (by rw [← hd]; exact (n2 c hc).1), fun e => n3 ?_⟩, n4.imp ?_⟩
  · rw [at_zero, hd, List.map_map]
    rw [e] at hc
    exact hc
  · intro a b h
    have : greater (map b) (map a) = false := h
    simpa [greater] using this

theorem mapM_ok {α β : Type} {f : α → Outcome β} {g : α → β} : ∀ {l : List α}, (∀ x ∈ l, f x = .ok (g x)) → l.mapM f = .ok (l.map g)
  | [], _ => rfl
  | x :: l, h => by
    rw [List.mapM_cons, h x (by simp), bind_ok, mapM_ok fun y hy => h y (by simp [hy]), bind_ok]
    rfl

theorem forM_ok {α : Type} {f : α → Outcome Unit} : ∀ {l : List α}, (∀ x ∈ l, f x = .ok ()) → l.forM f = .ok ()
  | [], _ => rfl
  | x :: l, h => by
    rw [List.forM_eq_forM, List.forM_cons, h x (by simp)]
    exact forM_ok fun y hy => h y (by simp [hy])

variable {d : Plane K} {t s : List ℤ → ℕ} {l : List ℤ → V3 K}

theorem sizes_I32 (h : PlaneOk d t s l) : Proper ([d.thetaNum, d.phiNum, d.rhoNum].map fun n => (⟨0, n⟩ : Axis)) ∧
    d.thetaNum * (d.phiNum * d.rhoNum) ≤ 2147483647 := by
  obtain ⟨⟨h1, h2, -⟩, h3, -⟩ := h.transform
  rw [h3] at h1 h2
  refine ⟨h1, ?_⟩
  simpa [card] using h2

theorem fits_spectrum (h : PlaneOk d t s l) (hw : WindowsOk d) : Fits ([d.thetaNum, d.phiNum].map fun n => ⟨0, n⟩) [d.ithetaWin, d.iphiWin] := by
  obtain ⟨⟨h1, h2, -⟩, h3, -⟩ := h.spectrum
  rw [h3] at h1 h2
  refine ⟨h1, h2, ?_⟩
  obtain ⟨a, b, -⟩ := hw
  have := h.theta
  have := h.phi
  refine .cons ?_ (.cons ?_ .nil) <;> unfold I32 <;> (try dsimp only) <;> omega

theorem fits_rho (h : PlaneOk d t s l) (hw : WindowsOk d) : Fits ([d.rhoNum].map fun n => ⟨0, n⟩) [d.irhoWin] := by
  obtain ⟨h1, -⟩ := sizes_I32 h
  have hr := h.rho
  obtain ⟨-, -, c⟩ := hw
  refine ⟨fun a ha => h1 a (by simp at ha ⊢; tauto), ?_, ?_⟩
  · simp [card]; omega
  · refine .cons ?_ .nil
    unfold I32
    dsimp only
    omega

theorem valueOf_ok {g : Grid.Grid ℕ} {dims : List ℤ} {c : List ℤ → ℕ} (h : GridOk g dims c) {is : List ℤ} (hm : Cell dims is) : valueOf g is = c is := by
  unfold valueOf
  rw [h.read hm]

/-- The search along rho: cells of the given normal, without the first, in decreasing order. -/
theorem findRho_ok (h : PlaneOk d t s l) (hw : WindowsOk d) {i j : ℤ} (hi : 0 ≤ i ∧ i < d.thetaNum) (hj : 0 ≤ j ∧ j < d.phiNum) :
    ∃ out, d.findRho i j = .ok out ∧ out.Nodup ∧ (∀ c ∈ out, ∃ r, c = [i, j, r] ∧ 0 < r ∧ r < d.rhoNum) ∧ out.Pairwise (fun a b => t b ≤ t a) := by
  obtain ⟨o, o1, o2, o3, o4⟩ := detect_ok (size := [d.rhoNum]) (fun is => valueOf d.transform (i :: j :: is)) (by simp) (fits_rho h hw)
  obtain ⟨u, e, -⟩ := forN_inv (f := fun irho _ => do
    let _ ← Grid.read d.transform [i, j, irho]
    return ()) (fun _ _ => True) h.rho.le (s := ()) trivial (fun r h0 h1 _ _ => ⟨(), by
      rw [h.transform.read (cell3.2 ⟨hi, hj, h0, h1⟩)]; rfl, trivial⟩)
  have key : ∀ c ∈ o, ∃ r, c = [r] ∧ 0 < r ∧ r < d.rhoNum := by
    intro c hc
    obtain ⟨c1, c2⟩ := o3 c hc
    match c, c1 with
    | [r], .cons q .nil =>
      refine ⟨r, rfl, lt_of_le_of_ne q.1 fun e => c2 ?_, q.2⟩
      rw [← e]
      rfl
  refine ⟨o.map fun is => i :: j :: is, ?_, o2.map fun a b e => by simpa using e, ?_, ?_⟩
  · unfold Plane.findRho
    rw [e, bind_ok, o1, bind_ok]
    rfl
  · intro c hc
    obtain ⟨c', hc', rfl⟩ := List.mem_map.1 hc
    obtain ⟨r, rfl, r1⟩ := key c' hc'
    exact ⟨r, rfl, r1⟩
  · rw [List.pairwise_map]
    refine o4.imp_of_mem ?_
    intro a b ha hb hab
    obtain ⟨r, rfl, r1⟩ := key a ha
    obtain ⟨r', rfl, r2⟩ := key b hb
    rwa [valueOf_ok h.transform (cell3.2 ⟨hi, hj, r1.1.le, r1.2⟩), valueOf_ok h.transform (cell3.2 ⟨hi, hj, r2.1.le, r2.2⟩)] at hab

/-- What is used of `std::sort`: for a strict weak order, a permutation with no element before a smaller one. -/
def SortSpec (srt : (List ℤ → List ℤ → Bool) → List (List ℤ) → List (List ℤ)) : Prop :=
  ∀ cmp, StrictWeak cmp → ∀ xs, (srt cmp xs).Perm xs ∧ (srt cmp xs).Pairwise fun a b => cmp b a = false

/-- C82: `findPlanes` finds the cells that are peaks along rho for normals that are peaks of the spectrum. -/
def C82_statement (K : Type) [Field K] [LinearOrder K] [FloorRing K] : Prop :=
  ∀ (d : Plane K) t s l, PlaneOk d t s l → WindowsOk d → ∀ srt, SortSpec srt → ∃ out, d.findPlanes srt [] = .ok out ∧ ∀ c, c ∈ out ↔
    ∃ i j r, c = [i, j, r] ∧ IsPeak greater (fun _ => True) s ([d.thetaNum, d.phiNum].map fun n => ⟨0, n⟩) [d.ithetaWin, d.iphiWin] [i, j] ∧
      IsPeak greater (fun _ => True) (fun is => t (i :: j :: is)) ([d.rhoNum].map fun n => ⟨0, n⟩) [d.irhoWin] [r]

/-- C82, part: on a detector with grids and windows of representable size, `findPlanes` returns, keeps the previous hypotheses, adds distinct cells of the grid and
sorts all by decreasing counter. No new cell has the first rho or the first normal. Missing: that the
new cells are the peaks, which is false, see `C82_violated`. -/
theorem C82_findPlanes_partial (h : PlaneOk d t s l) (hw : WindowsOk d) {srt : (List ℤ → List ℤ → Bool) → List (List ℤ) → List (List ℤ)} (hs : SortSpec srt)
    (hyp : List (List ℤ)) (hh : ∀ c ∈ hyp, Cell [d.thetaNum, d.phiNum, d.rhoNum] c) : ∃ out new, d.findPlanes srt hyp = .ok out ∧
      out.Perm (hyp ++ new) ∧ new.Nodup ∧
      (∀ c ∈ new, ∃ i j r, c = [i, j, r] ∧ (0 ≤ i ∧ i < d.thetaNum) ∧ (0 ≤ j ∧ j < d.phiNum) ∧ (0 < r ∧ r < d.rhoNum) ∧ ¬ (i = 0 ∧ j = 0)) ∧
      out.Pairwise (fun a b => ∃ x y, d.getHoughTransform (a.getD 0 0) (a.getD 1 0) (a.getD 2 0) = .ok x ∧
        d.getHoughTransform (b.getD 0 0) (b.getD 1 0) (b.getD 2 0) = .ok y ∧ y ≤ x) := by
  obtain ⟨o, o1, o2, o3, o4⟩ := detect_ok (valueOf d.spectrum) (by simp) (fits_spectrum h hw)
  have hcell : ∀ c ∈ o, ∃ i j, c = [i, j] ∧ (0 ≤ i ∧ i < d.thetaNum) ∧ (0 ≤ j ∧ j < d.phiNum) ∧ ¬ (i = 0 ∧ j = 0) := by
    intro c hc
    obtain ⟨c1, c2⟩ := o3 c hc
    obtain ⟨i, j, rfl⟩ := cell2_cases c1
    refine ⟨i, j, rfl, (cell2.1 c1).1, (cell2.1 c1).2, ?_⟩
    rintro ⟨rfl, rfl⟩
    exact c2 rfl
  have hg : ∀ c ∈ o, ∃ out, d.findRho (c.getD 0 0) (c.getD 1 0) = .ok out ∧ out.Nodup ∧ (∀ x ∈ out, ∃ r, x = c ++ [r] ∧ 0 < r ∧ r < d.rhoNum) := by
    intro c hc
    obtain ⟨i, j, rfl, hi, hj, -⟩ := hcell c hc
    obtain ⟨out, w1, w2, w3, -⟩ := findRho_ok h hw hi hj
    exact ⟨out, w1, w2, w3⟩
  choose! g g1 g2 g3 using hg
  have hnew : ∀ x ∈ (o.map g).flatten, ∃ i j r, x = [i, j, r] ∧ (0 ≤ i ∧ i < d.thetaNum) ∧ (0 ≤ j ∧ j < d.phiNum) ∧ (0 < r ∧ r < d.rhoNum) ∧ ¬ (i = 0 ∧ j = 0) := by
    intro x hx
    obtain ⟨lx, hlx, hx⟩ := List.mem_flatten.1 hx
    obtain ⟨c, hc, rfl⟩ := List.mem_map.1 hlx
    obtain ⟨r, rfl, r1⟩ := g3 c hc x hx
    obtain ⟨i, j, rfl, hi, hj, hn⟩ := hcell c hc
    exact ⟨i, j, r, rfl, hi, hj, r1, hn⟩
  have hall : ∀ x ∈ hyp ++ (o.map g).flatten, Cell [d.thetaNum, d.phiNum, d.rhoNum] x := by
    intro x hx
    rcases List.mem_append.1 hx with hx | hx
    · exact hh x hx
    · obtain ⟨i, j, r, rfl, hi, hj, hr, -⟩ := hnew x hx
      exact cell3.2 ⟨hi, hj, hr.1.le, hr.2⟩
  have hcheck : checkCells d.transform (hyp ++ (o.map g).flatten) = .ok () := by
    unfold checkCells
    split
    · rfl
    · refine forM_ok fun x hx => ?_
      rw [h.transform.read (hall x hx)]
      rfl
  have hsw : StrictWeak fun a b : List ℤ => greater (valueOf d.transform a) (valueOf d.transform b) :=
    ⟨fun a => greater_strictWeak.1 _, fun a b c => greater_strictWeak.2 _ _ _, fun a b c => greater_strictWeak.3 _ _ _⟩
  obtain ⟨p1, p2⟩ := hs _ hsw (hyp ++ (o.map g).flatten)
  refine ⟨_, (o.map g).flatten, ?_, p1, ?_, hnew, p2.imp_of_mem fun {a b} ha hb hab => ?_⟩
  · unfold Plane.findPlanes Plane.findSpectrumMax
    rw [o1, bind_ok, mapM_ok g1, bind_ok, hcheck, bind_ok]
    rfl
  · rw [List.nodup_flatten]
    refine ⟨?_, ?_⟩
    · intro lx hlx
      obtain ⟨c, hc, rfl⟩ := List.mem_map.1 hlx
      exact g2 c hc
    · rw [List.pairwise_map]
      refine List.Pairwise.imp_of_mem ?_ o2
      intro a b ha hb hab x hxa hxb
      obtain ⟨r, e1, -⟩ := g3 a ha x hxa
      obtain ⟨r', e2, -⟩ := g3 b hb x hxb
      exact hab (List.append_inj_left' (e1.symm.trans e2) rfl)
  · have ha := hall a (p1.subset ha)
    have hb := hall b (p1.subset hb)
    obtain ⟨i, j, r, rfl⟩ := cell3_cases ha
    obtain ⟨i', j', r', rfl⟩ := cell3_cases hb
    rw [valueOf_ok h.transform ha, valueOf_ok h.transform hb] at hab
    rw [cell3] at ha hb
    refine ⟨_, _, (get_ok h ha.1 ha.2.1).2.2 ha.2.2, (get_ok h hb.1 hb.2.1).2.2 hb.2.2, ?_⟩
    simpa [greater] using hab

/-- C82, parameters: `findPlanes(planeParams)` gives the plane of each hypothesis. -/
theorem C82_params (h : PlaneOk d t s l) (hw : WindowsOk d) {srt : (List ℤ → List ℤ → Bool) → List (List ℤ) → List (List ℤ)} (hs : SortSpec srt) :
    ∃ hyps, d.findPlanes srt [] = .ok hyps ∧ d.findPlaneParams srt = .ok (hyps.map fun c =>
      (l [c.getD 0 0, c.getD 1 0], -(d.rhoRes * (c.getD 2 0 : ℤ) + d.rhoMin))) := by
  obtain ⟨out, new, e, p, -, hn, -⟩ := C82_findPlanes_partial h hw hs [] (by simp)
  refine ⟨out, e, ?_⟩
  unfold Plane.findPlaneParams
  rw [e, bind_ok]
  refine mapM_ok fun c hc => ?_
  obtain ⟨i, j, r, rfl, hi, hj, hr, -⟩ := hn c (by simpa using p.subset hc)
  exact (param_ok h hi hj ⟨hr.1.le, hr.2⟩).1

/-- C82, parallel planes: the planes of one normal, distinct, sorted by decreasing counter, without that of the first rho. -/
theorem C82_parallel (h : PlaneOk d t s l) (hw : WindowsOk d) {i j : ℤ} (hi : 0 ≤ i ∧ i < d.thetaNum) (hj : 0 ≤ j ∧ j < d.phiNum) :
    ∃ rs : List ℤ, rs.Nodup ∧ (∀ r ∈ rs, 0 < r ∧ r < d.rhoNum) ∧ rs.Pairwise (fun a b => ∃ x y, d.getHoughTransform i j a = .ok x ∧
      d.getHoughTransform i j b = .ok y ∧ y ≤ x) ∧ d.findRho i j = .ok (rs.map fun r => [i, j, r]) ∧
      d.findParallelPlanes i j = .ok (rs.map fun r => (l [i, j], -(d.rhoRes * (r : ℤ) + d.rhoMin))) := by
  obtain ⟨out, e, n, c, o⟩ := findRho_ok h hw hi hj
  have hr : out = (out.map fun c => c.getD 2 0).map fun r => [i, j, r] := by
    rw [List.map_map]
    conv_lhs => rw [← List.map_id out]
    refine List.map_congr_left fun x hx => ?_
    obtain ⟨r, rfl, -⟩ := c x hx
    rfl
  set rs := out.map fun c => c.getD 2 0
  have hm : ∀ r ∈ rs, 0 < r ∧ r < d.rhoNum := by
    intro r hr'
    obtain ⟨x, hx, rfl⟩ := List.mem_map.1 hr'
    obtain ⟨r, rfl, q⟩ := c x hx
    exact q
  rw [hr] at e n o
  refine ⟨rs, List.Nodup.of_map _ n, hm, ?_, e, ?_⟩
  · rw [List.pairwise_map] at o
    exact o.imp_of_mem fun {a b} ha hb hab => ⟨_, _, (get_ok h hi hj).2.2 ⟨(hm a ha).1.le, (hm a ha).2⟩, (get_ok h hi hj).2.2 ⟨(hm b hb).1.le, (hm b hb).2⟩, hab⟩
  · unfold Plane.findParallelPlanes
    rw [e, bind_ok, mapM_ok (g := fun c => (l [c.getD 0 0, c.getD 1 0], -(d.rhoRes * (c.getD 2 0 : ℤ) + d.rhoMin))), List.map_map]
    · rfl
    · intro x hx
      obtain ⟨r, hr', rfl⟩ := List.mem_map.1 hx
      exact (param_ok h hi hj ⟨(hm r hr').1.le, (hm r hr').2⟩).1

/-- C82, normals: `findNormalMax` gives distinct cells' normals, never that of the first cell. -/
theorem C82_normals (h : PlaneOk d t s l) (hw : WindowsOk d) : ∃ hs : List (ℤ × ℤ), hs.Nodup ∧
    (∀ c ∈ hs, (0 ≤ c.1 ∧ c.1 < d.thetaNum) ∧ (0 ≤ c.2 ∧ c.2 < d.phiNum) ∧ c ≠ (0, 0)) ∧
    hs.Pairwise (fun a b => ∃ x y, d.getHoughSpectrum a.1 a.2 = .ok x ∧ d.getHoughSpectrum b.1 b.2 = .ok y ∧ y ≤ x) ∧
    d.findNormalMax = .ok (hs.map fun c => l [c.1, c.2]) := by
  obtain ⟨o, o1, o2, o3, o4⟩ := detect_ok (valueOf d.spectrum) (by simp) (fits_spectrum h hw)
  have hr : o = (o.map fun c => (c.getD 0 0, c.getD 1 0)).map fun q => [q.1, q.2] := by
    rw [List.map_map]
    conv_lhs => rw [← List.map_id o]
    refine List.map_congr_left fun x hx => ?_
    obtain ⟨i, j, rfl⟩ := cell2_cases (o3 x hx).1
    rfl
  set rs := o.map fun c => (c.getD 0 0, c.getD 1 0)
  rw [hr] at o2 o3 o4
  have hm : ∀ c ∈ rs, (0 ≤ c.1 ∧ c.1 < d.thetaNum) ∧ (0 ≤ c.2 ∧ c.2 < d.phiNum) ∧ c ≠ (0, 0) := by
    intro c hc
    obtain ⟨c1, c2⟩ := o3 _ (List.mem_map_of_mem hc)
    refine ⟨(cell2.1 c1).1, (cell2.1 c1).2, ?_⟩
    rintro rfl
    exact c2 rfl
  refine ⟨rs, List.Nodup.of_map _ o2, hm, ?_, ?_⟩
  · rw [List.pairwise_map] at o4
    refine o4.imp_of_mem fun {a b} ha hb hab => ⟨_, _, (get_ok h (r := 0) (hm a ha).1 (hm a ha).2.1).2.1, (get_ok h (r := 0) (hm b hb).1 (hm b hb).2.1).2.1, ?_⟩
    rwa [valueOf_ok h.spectrum (cell2.2 ⟨(hm a ha).1, (hm a ha).2.1⟩), valueOf_ok h.spectrum (cell2.2 ⟨(hm b hb).1, (hm b hb).2.1⟩)] at hab
  · unfold Plane.findNormalMax Plane.findSpectrumMax
    rw [o1, bind_ok, hr, mapM_ok (g := l), List.map_map]
    · rfl
    · intro x hx
      obtain ⟨q, hq, rfl⟩ := List.mem_map.1 hx
      exact h.lut.read (cell2.2 ⟨(hm q hq).1, (hm q hq).2.1⟩)

/-- C82 fails: the only peak of a detector is at the first distance and is not found. -/
theorem C82_violated : ¬ C82_statement ℝ := by
  intro hst
  have hs : SizesOk 100 2 8 2 := by unfold SizesOk; norm_num
  obtain ⟨d, h1, h2, h3, -⟩ := C60_init Functions.Spec.real 100 Plane.new hs 0 0 0 1 1 1
  obtain ⟨a1, a2, a3⟩ : d.thetaNum = 2 ∧ d.phiNum = 8 ∧ d.rhoNum = 2 := by simpa using h3
  obtain ⟨T, -, t2⟩ := h2.transform.write (is := [1, 0, 0]) (cell3.2 (by omega)) 1
  obtain ⟨S, -, s2⟩ := h2.spectrum.write (is := [1, 0]) (cell2.2 (by omega)) 1
  have hok : PlaneOk { d with transform := T, spectrum := S, ithetaWin := 1, iphiWin := 1, irhoWin := 1 } _ _ _ :=
    ⟨t2, s2, h2.lut, fun is => by show (if is = [1, 0, 0] then 1 else 0) < _; split <;> norm_num, h2.theta, h2.phi, h2.rho⟩
  have hw : WindowsOk { d with transform := T, spectrum := S, ithetaWin := 1, iphiWin := 1, irhoWin := 1 } :=
    ⟨⟨by norm_num, by dsimp only; omega, by norm_num⟩, ⟨by norm_num, by dsimp only; omega, by norm_num⟩, ⟨by norm_num, by dsimp only; omega, by norm_num⟩⟩
  have hsort : SortSpec fun cmp l => l.mergeSort fun a b => !cmp b a := by
    intro cmp hc xs
    refine ⟨List.mergeSort_perm _ _, ?_⟩
    have := List.pairwise_mergeSort (le := fun a b => !cmp b a) (fun a b c h1 h2 => by
      rw [Bool.not_eq_true'] at *
      exact hc.3 _ _ _ h2 h1) (fun a b => by
      rw [Bool.or_eq_true, Bool.not_eq_true', Bool.not_eq_true']
      cases e : cmp b a with
      | false => exact Or.inl rfl
      | true =>
        refine Or.inr (Bool.eq_false_iff.2 fun e' => ?_)
        have := hc.2 _ _ _ e e'
        rw [hc.1] at this
        exact Bool.false_ne_true this) xs
    exact this.imp fun h => by simpa using h
  obtain ⟨out, o1, o2⟩ := hst _ _ _ _ hok hw _ hsort
  have hin : [1, 0, 0] ∈ out := by
    rw [o2]
    refine ⟨1, 0, 0, rfl, ⟨(mem_iff _ _).2 (cell2.2 ?_), trivial, ?_⟩, ⟨(mem_iff _ _).2 ?_, trivial, ?_⟩⟩
    · dsimp only; omega
    · intro e _ hne _
      simp [greater, hne]
    · exact .cons ⟨le_rfl, by dsimp only; omega⟩ .nil
    · intro e _ hne _
      simp [greater, hne]
  obtain ⟨out', new, p1, p2, -, p4, -⟩ := C82_findPlanes_partial hok hw hsort [] (by simp)
  rw [o1] at p1
  obtain rfl := Except.ok.inj p1
  obtain ⟨i, j, r, e, -, -, hr, -⟩ := p4 _ (by simpa using p2.subset hin)
  simp only [List.cons.injEq] at e
  omega

theorem castCeil_ok [IsStrictOrderedRing K] {w res : K} (hr : 0 < res) (h0 : -2147483648 * res ≤ w) (h : w ≤ 2147483647 * res) :
    ∃ i : ℤ, castCeil (fdiv w res) = .ok i ∧ w ≤ i * res ∧ (i - 1) * res < w := by
  refine ⟨⌈w / res⌉, ?_, (div_le_iff₀ hr).1 (Int.le_ceil _), (lt_div_iff₀ hr).1 ?_⟩
  · unfold fdiv
    rw [if_neg hr.ne']
    show Cxx.int _ = _
    have h1 : ⌈w / res⌉ ≤ 2147483647 := Int.ceil_le.2 (by push_cast; rw [div_le_iff₀ hr]; exact h)
    have h2 : -2147483648 - 1 < ⌈w / res⌉ := Int.lt_ceil.2 (by push_cast; rw [lt_div_iff₀ hr]; linarith)
    unfold Cxx.int
    rw [if_pos (by omega)]
  · have := Int.ceil_lt_add_one (w / res)
    linarith

/-- C82, windows in the units of the parameters: the smallest numbers of cells that cover them. -/
theorem C82_window [IsStrictOrderedRing K] (d : Plane K) (thetaWin phiWin rhoWin : K) (hr : 0 < d.thetaRes ∧ 0 < d.phiRes ∧ 0 < d.rhoRes)
    (h0 : 0 ≤ thetaWin ∧ 0 ≤ phiWin ∧ 0 ≤ rhoWin)
    (h : thetaWin ≤ 2147483647 * d.thetaRes ∧ phiWin ≤ 2147483647 * d.phiRes ∧ rhoWin ≤ 2147483647 * d.rhoRes) :
    ∃ i j k : ℤ, d.setPeakWindowScalar thetaWin phiWin rhoWin = .ok (d.setPeakWindow i j k) ∧
      (thetaWin ≤ i * d.thetaRes ∧ (i - 1) * d.thetaRes < thetaWin) ∧ (phiWin ≤ j * d.phiRes ∧ (j - 1) * d.phiRes < phiWin) ∧
      (rhoWin ≤ k * d.rhoRes ∧ (k - 1) * d.rhoRes < rhoWin) := by
  obtain ⟨i, i1, i2⟩ := castCeil_ok hr.1 (by linarith [hr.1, h0.1]) h.1
  obtain ⟨j, j1, j2⟩ := castCeil_ok hr.2.1 (by linarith [hr.2.1, h0.2.1]) h.2.1
  obtain ⟨k, k1, k2⟩ := castCeil_ok hr.2.2 (by linarith [hr.2.2, h0.2.2]) h.2.2
  refine ⟨i, j, k, ?_, i2, j2, k2⟩
  unfold Plane.setPeakWindowScalar
  rw [i1, bind_ok, j1, bind_ok, k1, bind_ok]
  rfl

/-- An ordinary case: the spectrum and the transform of a detector with 2 × 2 normals and 4 distances; the best plane is the cell 2 of the normal (1, 0). -/
example : detect (finder [2, 2] [1, 1]) (fun c => if c = [1, 0] then 30 else if c = [0, 1] then 10 else 0) = .ok [[1, 0]] ∧
    detect (finder [4] [1]) (fun c => if c = [2] then 5 else 1) = .ok [[2]] := by decide +kernel

end Verif.Hough
