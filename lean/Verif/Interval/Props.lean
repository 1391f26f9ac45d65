import Mathlib.Tactic.NormNum
import Verif.Interval.Lemmas

/-! Properties C31 to C38. -/
namespace Verif.Interval
open Spec

/-! ### C31 -/

/-- C31 for an indexer given by its two functions: on each proper box with at most `INT_MAX` cells, `getPos` of an inside
cell is its column-major rank, a position in `[0, size)`, `getIndices` of a position is an inside cell, and they are
inverse. All the computations are defined. -/
def C31_statement (getPos : Interval → List ℤ → Outcome ℤ) (getIndices : Interval → ℤ → Outcome (List ℤ)) : Prop :=
  ∀ iv : Interval, Proper iv → card iv ≤ 2147483647 →
    (∀ is, Mem iv is → ∃ p, getPos iv is = .ok p ∧ p = rank iv is ∧ 0 ≤ p ∧ p < card iv ∧ getIndices iv p = .ok is) ∧
    (∀ p, 0 ≤ p → p < card iv → ∃ is, getIndices iv p = .ok is ∧ Mem iv is ∧ getPos iv is = .ok p)

/-- C31 holds for `StaticRasterIndexer`. -/
theorem C31_static : C31_statement staticGetPos (fun iv p => staticGetIndices p iv) := by
  intro iv h hc
  constructor
  · intro is hm
    have hb := rank_bounds h.pos hm
    refine ⟨rank iv is, staticGetPos_ok h hc hm, rfl, hb.1, hb.2, ?_⟩
    simp only
    rw [staticGetIndices_ok h hb.1 (by unfold I32; omega), cell_rank h.pos hm]
  · intro p h0 hp
    refine ⟨cell p iv, staticGetIndices_ok h h0 (by unfold I32; omega), cell_mem h.pos p, ?_⟩
    rw [staticGetPos_ok h hc (cell_mem h.pos p), rank_cell h.pos h0 hp]

example : staticGetPos [⟨-2, 3⟩, ⟨5, 4⟩] [0, 7] = .ok 8 ∧ staticGetIndices 8 [⟨-2, 3⟩, ⟨5, 4⟩] = .ok [0, 7] := by decide

/-- `RasterIndexer::getPos` adds the index before subtracting the minimum and overflows on a legitimate cell. -/
theorem C31_dynamic_violated : ¬ C31_statement rasterGetPos rasterGetIndices := by
  intro h
  have h1 := (h [⟨2147483000, 100⟩, ⟨0, 100⟩] (by
    intro a ha
    simp only [List.mem_cons, List.not_mem_nil, or_false] at ha
    rcases ha with rfl | rfl <;> (unfold I32; norm_num)) (by norm_num [card])).1 [2147483000, 50] (by
    refine List.Forall₂.cons (by norm_num) (List.Forall₂.cons (by norm_num) List.Forall₂.nil))
  obtain ⟨p, hp, _⟩ := h1
  have e : rasterGetPos [⟨2147483000, 100⟩, ⟨0, 100⟩] [2147483000, 50] = .error (.ub .overflow) := by decide +kernel
  rw [e] at hp
  exact absurd hp (by simp)

/-- C31 holds for `RasterIndexer` on each box where `min_[d]` plus the number of cells of the coordinates `d, ..., Dim-1`
does not exceed the range of `int`. Missing: the boxes that violate this (`C31_dynamic_violated`). -/
theorem C31_dynamic_partial (iv : Interval) (h : Proper iv) (hc : card iv ≤ 2147483647)
    (hs : ∀ a jv, a :: jv <:+ iv → a.min + card (a :: jv) - 1 ≤ 2147483647) :
    (∀ is, Mem iv is → ∃ p, rasterGetPos iv is = .ok p ∧ p = rank iv is ∧ 0 ≤ p ∧ p < card iv ∧ rasterGetIndices iv p = .ok is) ∧
    (∀ p, 0 ≤ p → p < card iv → ∃ is, rasterGetIndices iv p = .ok is ∧ Mem iv is ∧ rasterGetPos iv is = .ok p) := by
  constructor
  · intro is hm
    have hb := rank_bounds h.pos hm
    refine ⟨rank iv is, rasterGetPos_ok h hc hs hm, rfl, hb.1, hb.2, ?_⟩
    rw [rasterGetIndices_ok h hb.1 (by unfold I32; omega), cell_rank h.pos hm]
  · intro p h0 hp
    refine ⟨cell p iv, rasterGetIndices_ok h h0 (by unfold I32; omega), cell_mem h.pos p, ?_⟩
    rw [rasterGetPos_ok h hc hs (cell_mem h.pos p), rank_cell h.pos h0 hp]

example : rasterGetPos [⟨-2, 3⟩, ⟨5, 4⟩] [0, 7] = .ok 8 ∧ rasterGetIndices [⟨-2, 3⟩, ⟨5, 4⟩] 8 = .ok [0, 7] := by decide +kernel

/-! ### C32 -/

/-- C32: the two raster indexers agree on the cells and on the positions of a proper box. -/
def C32_statement : Prop :=
  ∀ iv : Interval, Proper iv → card iv ≤ 2147483647 →
    (∀ is, Mem iv is → staticGetPos iv is = rasterGetPos iv is) ∧
    (∀ p, 0 ≤ p → p < card iv → staticGetIndices p iv = rasterGetIndices iv p)

/-- On the witness of `C31_dynamic_violated` the static indexer returns 5000, the dynamic one overflows. -/
theorem C32_violated : ¬ C32_statement := by
  intro h
  have h1 := (h [⟨2147483000, 100⟩, ⟨0, 100⟩] (by
    intro a ha
    simp only [List.mem_cons, List.not_mem_nil, or_false] at ha
    rcases ha with rfl | rfl <;> (unfold I32; norm_num)) (by norm_num [card])).1 [2147483000, 50] (by
    refine List.Forall₂.cons (by norm_num) (List.Forall₂.cons (by norm_num) List.Forall₂.nil))
  exact absurd h1 (by decide +kernel)

/-- `getIndices` agrees on every position that fits an `int` (also beyond the end), `getPos` agrees where the dynamic one
does not overflow. Missing: `getPos` on the other boxes. -/
theorem C32_partial (iv : Interval) (h : Proper iv) :
    (∀ p, 0 ≤ p → I32 p → staticGetIndices p iv = rasterGetIndices iv p) ∧
    (card iv ≤ 2147483647 → (∀ a jv, a :: jv <:+ iv → a.min + card (a :: jv) - 1 ≤ 2147483647) →
      ∀ is, Mem iv is → staticGetPos iv is = rasterGetPos iv is) := by
  constructor
  · intro p h0 hp
    rw [staticGetIndices_ok h h0 hp, rasterGetIndices_ok h h0 hp]
  · intro hc hs is hm
    rw [staticGetPos_ok h hc hm, rasterGetPos_ok h hc hs hm]

example : staticGetIndices 1000 [⟨-2, 3⟩, ⟨5, 4⟩] = rasterGetIndices [⟨-2, 3⟩, ⟨5, 4⟩] 1000 := by decide +kernel

/-! ### C33 -/

/-- C33: the iteration visits exactly the inside cells, each once, in increasing raster position; it terminates, any fuel
larger than the number of cells being enough. -/
theorem C33_raster_iteration (iv : Interval) (h : Proper iv) (hc : card iv ≤ 2147483647) (fuel : ℕ) (hf : card iv < fuel) :
    ∃ L, visit rasterGetIndices iv fuel = .ok L ∧ L.Nodup ∧ (∀ is, is ∈ L ↔ Mem iv is) ∧
      L.Pairwise (fun x y => rank iv x < rank iv y) := by
  refine ⟨_, visit_ok h hc (fun p h0 hp => rasterGetIndices_ok h h0 hp) fuel hf, ?_, ?_, ?_⟩
  · refine List.Nodup.map_on ?_ List.nodup_range
    intro x hx y hy e
    rw [List.mem_range] at hx hy
    have h1 := rank_cell h.pos (p := x) (by omega) (by omega)
    have h2 := rank_cell h.pos (p := y) (by omega) (by omega)
    rw [e, h2] at h1
    omega
  · intro is
    rw [List.mem_map]
    constructor
    · rintro ⟨j, _, rfl⟩; exact cell_mem h.pos _
    · intro hm
      have hb := rank_bounds h.pos hm
      refine ⟨(rank iv is).toNat, by rw [List.mem_range]; omega, ?_⟩
      rw [Int.toNat_of_nonneg hb.1, cell_rank h.pos hm]
  · rw [List.pairwise_map]
    refine List.Pairwise.imp_of_mem ?_ List.pairwise_lt_range
    intro x y hx hy hxy
    rw [List.mem_range] at hx hy
    rw [rank_cell h.pos (by omega) (by omega), rank_cell h.pos (by omega) (by omega)]
    omega

example : visit rasterGetIndices [⟨-1, 2⟩, ⟨5, 3⟩] 7 = .ok [[-1, 5], [0, 5], [-1, 6], [0, 6], [-1, 7], [0, 7]] := by
  decide +kernel

/-! ### C34 -/

/-- C34: the iteration visits exactly the inside cells, each once. -/
theorem C34_boustrophedon_iteration (iv : Interval) (h : Proper iv) (hc : card iv ≤ 2147483647) (fuel : ℕ) (hf : card iv < fuel) :
    ∃ L, visit boustroGetIndices iv fuel = .ok L ∧ L.Nodup ∧ ∀ is, is ∈ L ↔ Mem iv is := by
  refine ⟨_, visit_ok h hc (fun p h0 hp => boustroGetIndices_ok h h0 hp) fuel hf, ?_, ?_⟩
  · refine List.Nodup.map_on ?_ List.nodup_range
    intro x hx y hy e
    rw [List.mem_range] at hx hy
    have e' := fold_inj (digits_isDigits h.pos _) (digits_isDigits h.pos _) e
    have h1 := value_digits h.pos (p := x) (by omega) (by omega)
    have h2 := value_digits h.pos (p := y) (by omega) (by omega)
    rw [e', h2] at h1
    omega
  · intro is
    rw [List.mem_map]
    constructor
    · rintro ⟨j, _, rfl⟩; exact fold_mem (digits_isDigits h.pos _)
    · intro hm
      obtain ⟨xs, hx, rfl⟩ := fold_surj hm
      have hb := value_bounds h.pos hx
      refine ⟨(value iv xs).toNat, by rw [List.mem_range]; omega, ?_⟩
      rw [Int.toNat_of_nonneg hb.1, digits_value h.pos hx]

example : visit boustroGetIndices [⟨-1, 2⟩, ⟨5, 3⟩] 7 = .ok [[-1, 5], [0, 5], [0, 6], [-1, 6], [-1, 7], [0, 7]] := by
  decide +kernel

/-! ### C35 -/

/-- C35: two consecutive cells differ by one in exactly one coordinate. -/
def C35_statement : Prop :=
  ∀ iv : Interval, Proper iv → card iv ≤ 2147483647 → ∀ p, 0 ≤ p → p + 1 < card iv →
    ∀ x y, boustroGetIndices iv p = .ok x → boustroGetIndices iv (p + 1) = .ok y → Adjacent x y

/-- On the box 2 x 3 x 2 the sixth cell is (1,2,0) and the seventh is (0,2,1). -/
theorem C35_violated : ¬ C35_statement := by
  intro h
  have h1 := h [⟨0, 2⟩, ⟨0, 3⟩, ⟨0, 2⟩] (by
    intro a ha
    simp only [List.mem_cons, List.not_mem_nil, or_false] at ha
    rcases ha with rfl | rfl | rfl <;> (unfold I32; norm_num)) (by norm_num [card]) 5 (by norm_num) (by norm_num [card])
    [1, 2, 0] [0, 2, 1] (by decide +kernel) (by decide +kernel)
  obtain ⟨_, d, hd, _, h2⟩ := h1
  have a0 := h2 0 (by decide)
  have a2 := h2 2 (by decide)
  by_cases e : d = 0
  · subst e; exact absurd (a2 (by decide)) (by decide)
  · exact absurd (a0 (fun e' => e e'.symm)) (by decide)

/-- C35 holds for at most two coordinates, and for more coordinates when the dimensions of index `1, ..., Dim-2` are even.
Missing: an odd dimension at an index from 1 to `Dim-2`. -/
theorem C35_partial (iv : Interval) (h : Proper iv) (hc : card iv ≤ 2147483647)
    (he : ∀ d, 1 ≤ d → ∀ h' : d + 1 < iv.length, iv[d].dim % 2 = 0) (p : ℤ) (h0 : 0 ≤ p) (hp : p + 1 < card iv) :
    ∃ x y, boustroGetIndices iv p = .ok x ∧ boustroGetIndices iv (p + 1) = .ok y ∧ Adjacent x y :=
  ⟨_, _, boustroGetIndices_ok h h0 (by unfold I32; omega), boustroGetIndices_ok h (by omega) (by unfold I32; omega),
    fold_adjacent h.pos (smooth_of_interior he) h0 hp⟩

example : boustroGetIndices [⟨0, 3⟩, ⟨0, 2⟩, ⟨0, 5⟩] 5 = .ok [0, 1, 0] ∧
    boustroGetIndices [⟨0, 3⟩, ⟨0, 2⟩, ⟨0, 5⟩] 6 = .ok [0, 1, 1] := by decide +kernel

/-! ### C36 -/

/-- C36, `inside`: for representable bounds it decides the membership of the cell, whatever the signs of the dimensions. -/
theorem C36_inside (iv : Interval) (h : Spec.Repr iv) (is : List ℤ) (hl : is.length = iv.length) :
    ∃ b, inside iv is = .ok b ∧ (b = true ↔ Mem iv is) := inside_ok h hl

example : inside [⟨-1, 2⟩, ⟨5, 3⟩] [0, 8] = .ok false ∧ inside [⟨-1, 2⟩, ⟨5, 3⟩] [0, 7] = .ok true := by decide

/-- C36, `empty`: true iff there is no cell. -/
theorem C36_empty (iv : Interval) : empty iv = true ↔ ¬ ∃ is, Mem iv is := by
  rw [exists_mem_iff, empty_iff]
  push Not
  rfl

example : empty [⟨3, 2⟩, ⟨0, -1⟩] = true ∧ empty [⟨3, 2⟩, ⟨0, 1⟩] = false := by decide

/-- C36, `initBounds`: the cells `min ≤ x < min + dimensions`. -/
theorem C36_initBounds (min dims : List ℤ) (hl : min.length = dims.length) (is : List ℤ) :
    Mem (initBounds min dims) is ↔
      is.length = min.length ∧ ∀ d < min.length, min.getD d 0 ≤ is.getD d 0 ∧ is.getD d 0 < min.getD d 0 + dims.getD d 0 := by
  unfold initBounds
  induction min generalizing dims is with
  | nil => simp [mem_nil]
  | cons m ms ih =>
    match dims, hl with
    | x :: xs, hl =>
      match is with
      | [] => simp [mem_cons]
      | i :: is =>
        rw [List.zipWith_cons_cons, mem_cons_cons, ih xs (by simpa using hl)]
        constructor
        · rintro ⟨h1, h2, h3⟩
          refine ⟨by simp [h2], ?_⟩
          rintro (_ | d) hd
          · simpa using h1
          · simpa using h3 d (by simpa using hd)
        · rintro ⟨h1, h2⟩
          refine ⟨by simpa using h2 0 (by simp), by simpa using h1, ?_⟩
          intro d hd
          simpa using h2 (d + 1) (by simpa using hd)

/-- C36, `initMinMax`: the cells `imin ≤ x ≤ imax`, both included; none when `imax < imin`. -/
theorem C36_initMinMax (min max : List ℤ) (h : List.Forall₂ (fun m x => I32 (x - m) ∧ I32 (x - m + 1)) min max) :
    ∃ iv, initMinMax min max = .ok iv ∧ ∀ is, Mem iv is ↔
      is.length = min.length ∧ ∀ d < min.length, min.getD d 0 ≤ is.getD d 0 ∧ is.getD d 0 ≤ max.getD d 0 := by
  refine ⟨_, initMinMax_ok h.length_eq h, ?_⟩
  have hl := h.length_eq
  clear h
  intro is
  induction min generalizing max is with
  | nil => simp [mem_nil]
  | cons m ms ih =>
    match max, hl with
    | x :: xs, hl =>
      match is with
      | [] => simp [mem_cons]
      | i :: is =>
        rw [List.zipWith_cons_cons, mem_cons_cons, ih xs (by simpa using hl)]
        constructor
        · rintro ⟨h1, h2, h3⟩
          refine ⟨by simp [h2], ?_⟩
          rintro (_ | d) hd
          · simp only [List.getD_cons_zero]; simp only at h1; omega
          · simpa using h3 d (by simpa using hd)
        · rintro ⟨h1, h2⟩
          refine ⟨?_, by simpa using h1, ?_⟩
          · have := h2 0 (by simp)
            simp only [List.getD_cons_zero] at this
            simp only; omega
          · intro d hd
            simpa using h2 (d + 1) (by simpa using hd)

example : initMinMax [-3, 4] [5, 4] = .ok [⟨-3, 9⟩, ⟨4, 1⟩] := by decide

/-- C36, `initCentered`: the cells with `|x - icenter| ≤ iwin` in each coordinate. -/
theorem C36_initCentered (center win : List ℤ)
    (h : List.Forall₂ (fun c w => I32 (c - w) ∧ I32 (2 * w) ∧ I32 (2 * w + 1)) center win) :
    ∃ iv, initCentered center win = .ok iv ∧ ∀ is, Mem iv is ↔
      is.length = center.length ∧ ∀ d < center.length, |is.getD d 0 - center.getD d 0| ≤ win.getD d 0 := by
  refine ⟨_, initCentered_ok h, ?_⟩
  have hl := h.length_eq
  clear h
  intro is
  induction center generalizing win is with
  | nil => simp [mem_nil]
  | cons m ms ih =>
    match win, hl with
    | x :: xs, hl =>
      match is with
      | [] => simp [mem_cons]
      | i :: is =>
        rw [List.zipWith_cons_cons, mem_cons_cons, ih xs (by simpa using hl)]
        constructor
        · rintro ⟨h1, h2, h3⟩
          refine ⟨by simp [h2], ?_⟩
          rintro (_ | d) hd
          · simp only [List.getD_cons_zero]; simp only at h1; rw [abs_le]; omega
          · simpa using h3 d (by simpa using hd)
        · rintro ⟨h1, h2⟩
          refine ⟨?_, by simpa using h1, ?_⟩
          · have := h2 0 (by simp)
            simp only [List.getD_cons_zero] at this
            rw [abs_le] at this
            simp only; omega
          · intro d hd
            simpa using h2 (d + 1) (by simpa using hd)

example : initCentered [-3, 4] [5, 0] = .ok [⟨-8, 11⟩, ⟨4, 1⟩] := by decide

/-- C36, `intersect`, full statement: for representable bounds the result contains exactly the common cells. -/
def C36_intersect_statement : Prop :=
  ∀ iv jv : Interval, iv.length = jv.length → Spec.Repr iv → Spec.Repr jv →
    ∃ r, intersect iv jv = .ok r ∧ ∀ is, Mem r is ↔ Mem iv is ∧ Mem jv is

/-- The intersection of two far intervals overflows when the (negative) dimension is computed. -/
theorem C36_intersect_violated : ¬ C36_intersect_statement := by
  intro h
  obtain ⟨r, hr, _⟩ := h [⟨-2147483648, 1⟩] [⟨2147483646, 1⟩] rfl
    (by intro a ha; simp only [List.mem_singleton] at ha; subst ha; unfold I32; norm_num)
    (by intro a ha; simp only [List.mem_singleton] at ha; subst ha; unfold I32; norm_num)
  have e : intersect [⟨-2147483648, 1⟩] [⟨2147483646, 1⟩] = .error (.ub .overflow) := by decide +kernel
  rw [e] at hr
  exact absurd hr (by simp)

/-- `intersect` is right when, in each coordinate, the gap between the two intervals fits an `int` (in particular when they
overlap), whatever the signs of the dimensions. Missing: larger gaps. -/
theorem C36_intersect_partial (iv jv : Interval) (hl : iv.length = jv.length) (h : Spec.Repr iv) (h' : Spec.Repr jv)
    (hd : List.Forall₂ (fun (a b : Axis) => -2147483648 ≤ Min.min (a.min + a.dim) (b.min + b.dim) - 1 - Max.max a.min b.min) iv jv) :
    ∃ r, intersect iv jv = .ok r ∧ ∀ is, Mem r is ↔ Mem iv is ∧ Mem jv is := by
  by_cases hi : ∀ a ∈ iv, 0 < a.dim
  · by_cases hj : ∀ a ∈ jv, 0 < a.dim
    · exact ⟨_, intersect_ok hi hj h h' hl hd, mem_inter hl⟩
    · refine ⟨jv, ?_, ?_⟩
      · have e : empty jv = true := by rw [empty_iff]; push Not at hj; exact hj
        unfold intersect
        rw [not_empty hi, e]; rfl
      · intro is
        have : ¬ Mem jv is := fun hm => hj (exists_mem_iff.1 ⟨is, hm⟩)
        simp [this]
  · refine ⟨iv, ?_, ?_⟩
    · have e : empty iv = true := by rw [empty_iff]; push Not at hi; exact hi
      unfold intersect
      rw [e]; rfl
    · intro is
      have : ¬ Mem iv is := fun hm => hi (exists_mem_iff.1 ⟨is, hm⟩)
      simp [this]

example : intersect [⟨-3, 9⟩, ⟨0, 4⟩] [⟨2, 10⟩, ⟨-5, 7⟩] = .ok [⟨2, 4⟩, ⟨0, 2⟩] ∧
    intersect [⟨-3, 2⟩] [⟨7, 5⟩] = .ok [⟨7, 0⟩] := by decide +kernel

/-! ### C37 -/

/-- C37: the cells of the translated window that are not in the window are exactly those of `stacked`, for a shift of
either sign not longer than the window; hence `stacked` and the window are disjoint. -/
theorem C37_stacked (iv : Interval) (hp : ∀ a ∈ iv, 0 < a.dim) (h : Spec.Repr iv) (d : ℕ) (hd : d < iv.length) (k : ℤ)
    (hk : -iv[d].dim ≤ k ∧ k ≤ iv[d].dim) (hm : I32 (iv[d].min + k)) :
    ∃ s t, stacked iv d k = .ok s ∧ translate iv d k = .ok t ∧
      (∀ x, Mem t x ↔ x.length = iv.length ∧ Mem iv (x.set d (x.getD d 0 - k))) ∧
      (∀ x, Mem s x ↔ Mem t x ∧ ¬ Mem iv x) ∧ ∀ x, ¬ (Mem s x ∧ Mem iv x) := by
  obtain ⟨s, t, hs, ht, hst⟩ := slide_ok hp h hd hk hm
  refine ⟨s, t, hs, ht, ?_, hst, fun x hx => ((hst x).1 hx.1).2 hx.2⟩
  clear hs hst s
  induction iv generalizing d t with
  | nil => simp at hd
  | cons a iv ih =>
    match d with
    | 0 =>
      simp only [List.getElem_cons_zero] at hm
      rw [translate, int_ok hm] at ht
      injection ht with ht
      subst ht
      rintro (_ | ⟨i, is⟩)
      · simp [mem_cons]
      · simp only [List.getD_cons_zero, List.set_cons_zero]
        rw [mem_cons_cons, mem_cons_cons]
        simp only
        constructor
        · rintro ⟨h1, h2⟩; exact ⟨by simp [mem_length h2], by omega, h2⟩
        · rintro ⟨_, h1, h2⟩; exact ⟨by omega, h2⟩
    | d + 1 =>
      rw [translate] at ht
      cases hr : translate iv d k with
      | error e => rw [hr] at ht; cases ht
      | ok r =>
        rw [hr] at ht
        injection ht with ht
        subst ht
        have := ih (fun c hc => hp c (by simp [hc])) (fun c hc => h c (by simp [hc])) d (by simpa using hd)
          (by simpa using hk) (by simpa using hm) r hr
        rintro (_ | ⟨i, is⟩)
        · simp [mem_cons]
        · simp only [List.getD_cons_succ, List.set_cons_succ]
          rw [mem_cons_cons, mem_cons_cons, this]
          simp only [List.length_cons, Nat.add_right_cancel_iff]
          tauto

/-- `stacked` with a coordinate out of range stops the program. -/
theorem C37_stacked_assert (iv : Interval) (d : ℕ) (hd : iv.length ≤ d) (k : ℤ) : stacked iv d k = .error .abort := by
  induction iv generalizing d with
  | nil => rfl
  | cons a iv ih =>
    match d, hd with
    | d + 1, hd => rw [stacked, ih d (by simpa using hd)]; rfl

example : stacked [⟨0, 5⟩, ⟨-3, 4⟩] 1 2 = .ok [⟨0, 5⟩, ⟨1, 2⟩] ∧ translate [⟨0, 5⟩, ⟨-3, 4⟩] 1 2 = .ok [⟨0, 5⟩, ⟨-1, 4⟩] ∧
    stacked [⟨0, 5⟩, ⟨-3, 4⟩] 0 (-2) = .ok [⟨-2, 2⟩, ⟨-3, 4⟩] := by decide

/-! ### C38 -/

/-- C38: for each interval with representable bounds, `empty()` implies that the size is 0 and that the begin iterators
equal the end iterators (iterators are compared by their position). -/
def C38_statement : Prop :=
  ∀ iv : Interval, Spec.Repr iv → empty iv = true → size iv = 0 ∧
    ∀ ix, ∃ b e, begin ix iv = .ok b ∧ «end» ix iv = .ok e ∧ b.pos = e.pos

/-- `initMinMax((0,0),(-3,-4))` gives the dimensions -2, -3: the interval is empty, but its size is 6. -/
theorem C38_violated : ¬ C38_statement := by
  intro h
  have h1 := (h [⟨0, -2⟩, ⟨0, -3⟩] (by
    intro a ha
    simp only [List.mem_cons, List.not_mem_nil, or_false] at ha
    rcases ha with rfl | rfl <;> (unfold I32; norm_num)) (by decide)).1
  exact absurd h1 (by decide +kernel)

example : initMinMax [0, 0] [-3, -4] = .ok [⟨0, -2⟩, ⟨0, -3⟩] := by decide

/-- C38 holds when no dimension is negative; then the loop visits nothing. Missing: negative dimensions. -/
theorem C38_partial (iv : Interval) (hn : ∀ a ∈ iv, 0 ≤ a.dim) (h : empty iv = true)
    (ix : Interval → ℤ → Outcome (List ℤ)) (fuel : ℕ) :
    size iv = 0 ∧ (∃ b e, begin ix iv = .ok b ∧ «end» ix iv = .ok e ∧ b.pos = e.pos) ∧ visit ix iv (fuel + 1) = .ok [] := by
  have hs : size iv = 0 := size_empty hn (empty_iff.1 h) 1
  have hb : begin ix iv = .ok ⟨0, iv.map Axis.min⟩ := by unfold begin Iter.mk'; rw [h]; rfl
  have he : «end» ix iv = .ok ⟨0, iv.map Axis.min⟩ := by unfold «end» Iter.mk'; rw [h, hs]; rfl
  refine ⟨hs, ⟨_, _, hb, he, rfl⟩, ?_⟩
  unfold visit
  rw [hb, he]
  simp only [bind, Except.bind]
  unfold visitLoop
  rw [if_neg (by simp)]

example : empty [⟨4, 3⟩, ⟨1, 0⟩] = true ∧ visit boustroGetIndices [⟨4, 3⟩, ⟨1, 0⟩] 1 = .ok [] := by decide +kernel

end Verif.Interval
