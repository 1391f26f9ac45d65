import Verif.PeakFinder.FilterProps

/-! Property theorems C167 (see properties.jsonl): mirror images and windows of the peaks of a row. -/
namespace Verif.PeakFinder
open Verif Verif.Interval Verif.Interval.Spec Verif.Heap Verif.Heap.Spec Spec
variable {V : Type}

/-- The cell at the same distance from the other end of the row of the `n` cells from `m` on. -/
def mirrorCell (m n : ℤ) (c : List ℤ) : List ℤ := [2 * m + n - 1 - c.getD 0 0]

/-- A search on a row with distinct values. -/
structure Row (f : Finder V) (map : List ℤ → V) (m n w : ℤ) : Prop where
  weak : StrictWeak f.comp
  domain : f.domain = [⟨m, n⟩]
  iwin : f.iwin = [w]
  fits : Fits f.domain f.iwin
  win : 1 ≤ w
  distinct : ∀ i j, m ≤ i → i < m + n → m ≤ j → j < m + n → i ≠ j → ¬ Equivalent f.comp (map [i]) (map [j])

/-- C167, full statement: the peaks of the mirrored row are the mirrored peaks, and those of a larger window are among those of a smaller one. -/
def C167_statement : Prop :=
  ∀ (V : Type) (f : Finder V) (map : List ℤ → V) (m n w : ℤ), Row f map m n w →
    (∃ out, detect f map = .ok out ∧ detect f (fun c => map (mirrorCell m n c)) = .ok (out.map (mirrorCell m n))) ∧
    ∀ w', 1 ≤ w' → w' ≤ w → ∃ out out', detect f map = .ok out ∧ detect (f.setPeakWindow [w']) map = .ok out' ∧ out.Sublist out'

theorem mem_row {m n : ℤ} {c : List ℤ} : Mem [⟨m, n⟩] c ↔ ∃ i, c = [i] ∧ m ≤ i ∧ i < m + n := by
  rw [mem_one]

theorem inWindow_row {w i j : ℤ} : InWindow [w] [i] [j] ↔ |j - i| ≤ w := by
  unfold InWindow
  simp

theorem isPeak_row {f : Finder V} {map : List ℤ → V} {m n w : ℤ} (i : ℤ) :
    IsPeak f.comp (passes f) map [⟨m, n⟩] [w] [i] ↔
      (m ≤ i ∧ i < m + n) ∧ passes f (map [i]) ∧ ∀ j, m ≤ j → j < m + n → j ≠ i → |j - i| ≤ w → f.comp (map [i]) (map [j]) = true := by
  unfold IsPeak
  refine and_congr ?_ (and_congr Iff.rfl ⟨fun h j h1 h2 hne hw => ?_, fun h e he hne hw => ?_⟩)
  · rw [mem_row]
    exact ⟨by rintro ⟨j, hj, h⟩; obtain rfl := List.singleton_inj.1 hj; exact h, fun h => ⟨i, rfl, h⟩⟩
  · exact h [j] (mem_row.2 ⟨j, rfl, h1, h2⟩) (fun e => hne (List.singleton_inj.1 e)) (inWindow_row.2 hw)
  · obtain ⟨j, rfl, h1, h2⟩ := mem_row.1 he
    exact h j h1 h2 (fun e => hne (by rw [e])) (inWindow_row.1 hw)

theorem isPeak_mirror {f : Finder V} {map : List ℤ → V} {m n w : ℤ} (i : ℤ) :
    IsPeak f.comp (passes f) (fun c => map (mirrorCell m n c)) [⟨m, n⟩] [w] (mirrorCell m n [i]) ↔ IsPeak f.comp (passes f) map [⟨m, n⟩] [w] [i] := by
  have e : ∀ j, mirrorCell m n [j] = [2 * m + n - 1 - j] := fun j => rfl
  have e2 : ∀ j, 2 * m + n - 1 - (2 * m + n - 1 - j) = j := fun j => by omega
  rw [e, isPeak_row, isPeak_row]
  simp only [e, e2]
  refine and_congr (by omega) (and_congr Iff.rfl ⟨fun h j h1 h2 hne hw => ?_, fun h j h1 h2 hne hw => ?_⟩)
  · have := h (2 * m + n - 1 - j) (by omega) (by omega) (by omega) (by rw [show 2 * m + n - 1 - j - (2 * m + n - 1 - i) = -(j - i) by omega, abs_neg]; exact hw)
    rwa [e2] at this
  · exact h _ (by omega) (by omega) (by omega) (by rw [show 2 * m + n - 1 - j - i = -(j - (2 * m + n - 1 - i)) by omega, abs_neg]; exact hw)

theorem Row.mirror {f : Finder V} {map : List ℤ → V} {m n w : ℤ} (h : Row f map m n w) : Row f (fun c => map (mirrorCell m n c)) m n w := by
  refine ⟨h.weak, h.domain, h.iwin, h.fits, h.win, fun i j h1 h2 h3 h4 hne => ?_⟩
  exact h.distinct (2 * m + n - 1 - i) (2 * m + n - 1 - j) (by omega) (by omega) (by omega) (by omega) (by omega)

/-- The peaks found on a row: no cell twice, in order, exactly the peaks apart from the first cell. -/
theorem Row.found {f : Finder V} {map : List ℤ → V} {m n w : ℤ} (h : Row f map m n w) :
    ∃ out, detect f map = .ok out ∧ out.Nodup ∧ out.Pairwise (fun a b => f.comp (map b) (map a) = false) ∧
      (∀ c ∈ out, ∃ i, c = [i] ∧ m ≤ i ∧ i < m + n) ∧ ∀ i, [i] ∈ out ↔ IsPeak f.comp (passes f) map [⟨m, n⟩] [w] [i] ∧ i ≠ m := by
  obtain ⟨out, h1, h2⟩ := C40_oneDim_partial f map m n w h.weak h.domain h.iwin h.fits h.win h.distinct
  have h3 := C40_cells_partial f map h.fits.proper h.fits.card out h1
  refine ⟨out, h1, h3.1, C41_order f map h.weak out h1, fun c hc => ?_, fun i => ?_⟩
  · have := (h3.2.1 c hc).1
    rw [h.domain] at this
    exact mem_row.1 this
  · rw [h2, h.domain, h.iwin]
    refine and_congr Iff.rfl ?_
    rw [Ne, Ne, List.singleton_inj]

/-- Sorted lists of the same cells of a row are equal. -/
theorem Row.unique {f : Finder V} {map : List ℤ → V} {m n w : ℤ} (h : Row f map m n w) {l l' : List (List ℤ)} (n1 : l.Nodup) (n2 : l'.Nodup)
    (s1 : l.Pairwise (fun a b => f.comp (map b) (map a) = false)) (s2 : l'.Pairwise (fun a b => f.comp (map b) (map a) = false))
    (c1 : ∀ c ∈ l, ∃ i, c = [i] ∧ m ≤ i ∧ i < m + n) (hm : ∀ c, c ∈ l ↔ c ∈ l') : l = l' := by
  refine List.Perm.eq_of_pairwise (fun a b ha hb hab hba => ?_) s1 s2 ((List.perm_ext_iff_of_nodup n1 n2).2 hm)
  obtain ⟨i, rfl, i1, i2⟩ := c1 a ha
  obtain ⟨j, rfl, j1, j2⟩ := c1 b ((hm b).2 hb)
  by_contra hne
  exact h.distinct i j i1 i2 j1 j2 (fun e => hne (by rw [e])) ⟨hba, hab⟩

/-- **C167** Apart from the ends of the row, a cell is found exactly when its mirror image is found in the mirrored row. -/
theorem C167_mirror_partial (f : Finder V) (map : List ℤ → V) (m n w : ℤ) (h : Row f map m n w) :
    ∃ out out', detect f map = .ok out ∧ detect f (fun c => map (mirrorCell m n c)) = .ok out' ∧
      ∀ i, i ≠ m → i ≠ m + n - 1 → ([i] ∈ out ↔ mirrorCell m n [i] ∈ out') := by
  obtain ⟨out, h1, -, -, -, h2⟩ := h.found
  obtain ⟨out', h1', -, -, -, h2'⟩ := h.mirror.found
  refine ⟨out, out', h1, h1', fun i hi hi' => ?_⟩
  rw [h2, show mirrorCell m n [i] = [2 * m + n - 1 - i] from rfl, h2', ← isPeak_mirror i, show mirrorCell m n [i] = [2 * m + n - 1 - i] from rfl]
  refine and_congr Iff.rfl ?_
  omega

/-- **C167** The mirrored search gives the mirrored peaks, in the same order, exactly when no end of the row is a peak (or the row is a single cell). -/
theorem C167_mirror_iff (f : Finder V) (map : List ℤ → V) (m n w : ℤ) (h : Row f map m n w) :
    (∃ out, detect f map = .ok out ∧ detect f (fun c => map (mirrorCell m n c)) = .ok (out.map (mirrorCell m n))) ↔
      n = 1 ∨ ¬ IsPeak f.comp (passes f) map f.domain f.iwin [m] ∧ ¬ IsPeak f.comp (passes f) map f.domain f.iwin [m + n - 1] := by
  obtain ⟨out, h1, n1, s1, c1, h2⟩ := h.found
  obtain ⟨out', h1', n1', s1', c1', h2'⟩ := h.mirror.found
  have hn : 0 < n := by have := h.fits.proper.pos; rw [h.domain] at this; simpa using this
  rw [h.domain, h.iwin]
  have hp' : ∀ i, IsPeak f.comp (passes f) (fun c => map (mirrorCell m n c)) [⟨m, n⟩] [w] [2 * m + n - 1 - i] ↔ IsPeak f.comp (passes f) map [⟨m, n⟩] [w] [i] := fun i => isPeak_mirror i
  constructor
  · rintro ⟨o, e1, e2⟩
    obtain rfl := Except.ok.inj (h1.symm.trans e1)
    obtain rfl := Except.ok.inj (h1'.symm.trans e2)
    by_cases hn1 : n = 1
    · exact Or.inl hn1
    · refine Or.inr ⟨fun hp => ?_, fun hp => ?_⟩
      · have : [m + n - 1] ∈ out.map (mirrorCell m n) := (h2' _).2 ⟨by have := (hp' m).2 hp; rwa [show 2 * m + n - 1 - m = m + n - 1 by omega] at this, by omega⟩
        obtain ⟨c, hc, e⟩ := List.mem_map.1 this
        obtain ⟨i, rfl, -, -⟩ := c1 c hc
        have e := List.singleton_inj.1 e
        simp only [List.getD_cons_zero] at e
        exact ((h2 i).1 hc).2 (by omega)
      · have hm : [m + n - 1] ∈ out := (h2 _).2 ⟨hp, by omega⟩
        have : [m] ∈ out.map (mirrorCell m n) := List.mem_map.2 ⟨_, hm, by simp only [mirrorCell, List.getD_cons_zero]; rw [show 2 * m + n - 1 - (m + n - 1) = m by omega]⟩
        exact ((h2' m).1 this).2 rfl
  · intro hc
    refine ⟨out, h1, ?_⟩
    rw [h1']
    refine congrArg _ (h.mirror.unique n1' ?_ s1' ?_ c1' ?_)
    · refine n1.map_on fun a ha b hb e => ?_
      obtain ⟨i, rfl, -, -⟩ := c1 a ha
      obtain ⟨j, rfl, -, -⟩ := c1 b hb
      have e := List.singleton_inj.1 e
      simp only [List.getD_cons_zero] at e
      rw [show i = j by omega]
    · rw [List.pairwise_map]
      refine s1.imp_of_mem fun ha hb hab => ?_
      obtain ⟨i, rfl, -, -⟩ := c1 _ ha
      obtain ⟨j, rfl, -, -⟩ := c1 _ hb
      simp only [mirrorCell, List.getD_cons_zero]
      rw [show 2 * m + n - 1 - (2 * m + n - 1 - i) = i by omega, show 2 * m + n - 1 - (2 * m + n - 1 - j) = j by omega]
      exact hab
    · intro c
      constructor
      · intro hc'
        obtain ⟨k, rfl, k1, k2⟩ := c1' c hc'
        obtain ⟨p1, p2⟩ := (h2' k).1 hc'
        have p3 := (hp' (2 * m + n - 1 - k)).1 (by rwa [show 2 * m + n - 1 - (2 * m + n - 1 - k) = k by omega])
        refine List.mem_map.2 ⟨[2 * m + n - 1 - k], (h2 _).2 ⟨p3, fun e => ?_⟩, by simp only [mirrorCell, List.getD_cons_zero]; rw [show 2 * m + n - 1 - (2 * m + n - 1 - k) = k by omega]⟩
        rcases hc with hc | hc
        · omega
        · rw [e] at p3; exact hc.1 p3
      · intro hc'
        obtain ⟨a, ha, rfl⟩ := List.mem_map.1 hc'
        obtain ⟨i, rfl, i1, i2⟩ := c1 a ha
        obtain ⟨p1, p2⟩ := (h2 i).1 ha
        refine (h2' _).2 ⟨isPeak_mirror i |>.2 p1, fun e => ?_⟩
        simp only [List.getD_cons_zero] at e
        rcases hc with hc | hc
        · omega
        · rw [show i = m + n - 1 by omega] at p1; exact hc.2 p1

/-- **C167** A larger window finds, in the same order, some of the peaks of a smaller one. -/
theorem C167_window (f : Finder V) (map : List ℤ → V) (m n w w' : ℤ) (h : Row f map m n w) (hw : 1 ≤ w') (hle : w' ≤ w) :
    ∃ out out', detect f map = .ok out ∧ detect (f.setPeakWindow [w']) map = .ok out' ∧ out.Sublist out' := by
  have h' : Row (f.setPeakWindow [w']) map m n w' := by
    refine ⟨h.weak, h.domain, rfl, ⟨h.fits.proper, h.fits.card, ?_⟩, hw, h.distinct⟩
    have := h.fits.win
    change List.Forall₂ _ f.domain [w']
    rw [h.domain, h.iwin] at this
    rw [h.domain]
    obtain ⟨⟨a1, a2, a3, a4⟩, -⟩ := List.forall₂_cons.1 this
    have hp := h.fits.proper ⟨m, n⟩ (by rw [h.domain]; exact List.mem_singleton_self _)
    unfold I32 at a2 a3 a4 hp
    dsimp only at a2 a3 a4 hp
    refine List.Forall₂.cons ⟨by omega, ?_, ?_, ?_⟩ List.Forall₂.nil <;> unfold I32 <;> (try dsimp only) <;> omega
  obtain ⟨out, h1, n1, s1, c1, h2⟩ := h.found
  obtain ⟨out', h1', n1', s1', c1', h2'⟩ := h'.found
  refine ⟨out, out', h1, h1', ?_⟩
  have hsub : ∀ c ∈ out, c ∈ out' := fun c hc => by
    obtain ⟨i, rfl, -, -⟩ := c1 c hc
    obtain ⟨p, q⟩ := (h2 i).1 hc
    refine (h2' i).2 ⟨?_, q⟩
    rw [isPeak_row] at p ⊢
    exact ⟨p.1, p.2.1, fun j j1 j2 hne hj => p.2.2 j j1 j2 hne (hj.trans hle)⟩
  have : out = out'.filter (· ∈ out) := by
    refine h.unique n1 (n1'.filter _) s1 (s1'.sublist List.filter_sublist) c1 fun c => ?_
    rw [List.mem_filter, decide_eq_true_eq]
    exact ⟨fun hc => ⟨hsub c hc, hc⟩, fun hc => hc.2⟩
  rw [this]
  exact List.filter_sublist

/-- The row 5 1 2 and its mirror image 2 1 5. -/
theorem C167_violated : ¬ C167_statement := by
  intro h
  have hr : Row (finder [3] [1]) (row [5, 1, 2]) 0 3 1 := by
    refine ⟨?_, rfl, rfl, fits_one (by omega) (by omega), le_refl _, ?_⟩
    · exact gtNat_strictWeak
    · intro i j i1 i2 j1 j2 hne
      have hi : i = 0 ∨ i = 1 ∨ i = 2 := by omega
      have hj : j = 0 ∨ j = 1 ∨ j = 2 := by omega
      unfold Equivalent
      rcases hi with rfl | rfl | rfl <;> rcases hj with rfl | rfl | rfl <;> first | exact absurd rfl hne | decide
  obtain ⟨⟨out, h1, h2⟩, -⟩ := h ℕ _ _ 0 3 1 hr
  have d1 : detect (finder [3] [1]) (row [5, 1, 2]) = .ok [[2]] := by decide +kernel
  have d2 : detect (finder [3] [1]) (fun c => row [5, 1, 2] (mirrorCell 0 3 c)) = .ok [[2]] := by decide +kernel
  obtain rfl := Except.ok.inj (h1.symm.trans d1)
  rw [d2] at h2
  exact absurd (Except.ok.inj h2) (by decide)

/-- The row 3 1 4 2 7 5 9 6 without its ends, its mirror image, and the larger window. -/
example : detect (finder [7] [1]) (row [1, 4, 2, 7, 5, 9, 6]) = .ok [[5], [3], [1]] ∧ detect (finder [7] [1]) (row [6, 9, 5, 7, 2, 4, 1]) = .ok [[1], [3], [5]] ∧
    detect (finder [7] [2]) (row [1, 4, 2, 7, 5, 9, 6]) = .ok [[5]] := by decide +kernel

end Verif.PeakFinder
