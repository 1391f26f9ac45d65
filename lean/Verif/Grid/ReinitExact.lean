import Verif.Grid.Props

/-! Property theorems C67, exact form (see properties.jsonl): what a second initialisation of a grid does to its values. -/
namespace Verif.Grid
open Verif Verif.Interval Verif.Interval.Spec
variable {α : Type}

/-- C67, exact behaviour: after a second initialisation every cell has the value of the old cell with the same position, whatever its indices, or the default if there is none. -/
theorem C67_moves (maxSize : ℕ) (z : α) (g : Grid α) (hv : Valid g) (min dims : List ℤ) (hp : Proper (Interval.initBounds min dims)) (hc : card (Interval.initBounds min dims) ≤ 2147483647)
    (hm : card (Interval.initBounds min dims) ≤ maxSize) :
    ∃ g', initBounds maxSize z g min dims = .ok g' ∧ g'.domain = Interval.initBounds min dims ∧ Valid g' ∧ ∀ is, Mem g'.domain is →
      (∀ js, Mem g.domain js → rank g.domain js = rank g'.domain is → read g' is = read g js) ∧ (card g.domain ≤ rank g'.domain is → read g' is = .ok z) ∧
      (rank g'.domain is < card g.domain → ∃ js, Mem g.domain js ∧ rank g.domain js = rank g'.domain is) := by
  have hs := size_ok hp hc
  let g' : Grid α := ⟨⟨size (Interval.initBounds min dims), fun i => if i < g.data.len then g.data.val i else z⟩, Interval.initBounds min dims⟩
  have hv' : Valid g' := ⟨hp, hc, hs⟩
  have hl := hv.2.2
  refine ⟨g', ?_, rfl, hv', fun is h2 => ⟨fun js h1 e => ?_, fun h => ?_, fun h => ?_⟩⟩
  · unfold initBounds resize
    simp only [bind, Except.bind]
    rw [if_neg (by omega)]
    rfl
  · rw [(read_ok hv h1).1, (read_ok hv' h2).1]
    have hb := rank_bounds hv.1.pos h1
    rw [← e]
    simp only [g']
    rw [if_pos (by omega)]
  · rw [(read_ok hv' h2).1]
    have hb := rank_bounds hv'.1.pos h2
    have : ¬ (rank g'.domain is).toNat < g.data.len := by omega
    show Except.ok (if (rank g'.domain is).toNat < g.data.len then g.data.val (rank g'.domain is).toNat else z) = _
    rw [if_neg this]
  · have hb := rank_bounds hv'.1.pos h2
    exact ⟨cell (rank g'.domain is) g.domain, cell_mem hv.1.pos _, rank_cell hv.1.pos hb.1 h⟩

theorem toNat_ne {a b : ℤ} (ha : 0 ≤ a) (hb : 0 ≤ b) (h : a ≠ b) : a.toNat ≠ b.toNat := by omega

/-- C67, exact condition on the two domains: it holds for all the contents if and only if the common cells have the same positions in both. -/
theorem C67_iff (maxSize : ℕ) (D : Interval) (hD : Proper D) (hDc : card D ≤ 2147483647) (min dims : List ℤ) (hp : Proper (Interval.initBounds min dims)) (hc : card (Interval.initBounds min dims) ≤ 2147483647)
    (hm : card (Interval.initBounds min dims) ≤ maxSize) :
    (∀ g g' : Grid ℕ, Valid g → g.domain = D → initBounds maxSize 0 g min dims = .ok g' →
      (∀ is, Mem g'.domain is → read g' is = .ok 0) ∨ (∀ is, Mem g.domain is → Mem g'.domain is → read g' is = read g is)) ↔
    ∀ is, Mem D is → Mem (Interval.initBounds min dims) is → rank D is = rank (Interval.initBounds min dims) is := by
  constructor
  · intro h is h1 h2
    by_contra hne
    have hs := size_ok hD hDc
    let g : Grid ℕ := ⟨⟨size D, fun j => if j = (rank D is).toNat then 1 else 2⟩, D⟩
    have hv : Valid g := ⟨hD, hDc, hs⟩
    obtain ⟨g', e, hd, hv', hg⟩ := C67_moves maxSize 0 g hv min dims hp hc hm
    have rd : ∀ js, Mem D js → read g js = .ok (if (rank D js).toNat = (rank D is).toNat then 1 else 2) := fun js hj => (read_ok hv hj).1
    have hb := rank_bounds hD.pos h1
    have hb' := rank_bounds hp.pos h2
    rcases h g g' hv rfl e with h0 | h0
    · -- the cell at position 0 does not have the default value
      have hc0 : 0 < card (Interval.initBounds min dims) := by omega
      have hD0 : 0 < card D := by omega
      have m' : Mem g'.domain (cell 0 (Interval.initBounds min dims)) := by rw [hd]; exact cell_mem hp.pos 0
      have r' : rank g'.domain (cell 0 (Interval.initBounds min dims)) = 0 := by rw [hd]; exact rank_cell hp.pos le_rfl hc0
      have m : Mem D (cell 0 D) := cell_mem hD.pos 0
      have r : rank D (cell 0 D) = 0 := rank_cell hD.pos le_rfl hD0
      have e1 := (hg _ m').1 _ m (r.trans r'.symm)
      rw [h0 _ m', rd _ m] at e1
      have := Except.ok.inj e1
      split at this <;> omega
    · have m' : Mem g'.domain is := by rw [hd]; exact h2
      have e0 := h0 is h1 m'
      rw [rd is h1, if_pos rfl] at e0
      obtain ⟨g1, g2, g3⟩ := hg is m'
      by_cases hlt : rank g'.domain is < card g.domain
      · obtain ⟨js, j1, j2⟩ := g3 hlt
        rw [g1 js j1 j2, rd js j1] at e0
        have hbj := rank_bounds hD.pos j1
        have hj : rank D js = rank (Interval.initBounds min dims) is := by rw [← hd]; exact j2
        rw [if_neg (toNat_ne hbj.1 hb.1 fun q => hne (q.symm.trans hj))] at e0
        exact absurd (Except.ok.inj e0) (by omega)
      · rw [g2 (by omega)] at e0
        exact absurd (Except.ok.inj e0) (by omega)
  · intro h g g' hv hg e
    obtain ⟨g1, e1, hd, -, hgs⟩ := C67_moves maxSize 0 g hv min dims hp hc hm
    rw [e] at e1
    obtain rfl := Except.ok.inj e1
    refine Or.inr fun is m m' => (hgs is m').1 is m ?_
    rw [hd, hg]
    rw [hg] at m
    rw [hd] at m'
    exact h is m m'

-- a grid of 2 by 2 cells becomes one of 3 by 2 cells: the value of the cell (0, 1) moves to (2, 0), the last two cells have the default
example : (do
    let g ← initBounds 1000 (0 : ℕ) (new 0 2) [0, 0] [2, 2]
    let g ← run g [.write [0, 0] 5, .write [1, 0] 6, .write [0, 1] 7, .write [1, 1] 8]
    let g ← initBounds 1000 (0 : ℕ) g [0, 0] [3, 2]
    let a ← read g [2, 0]
    let b ← read g [0, 1]
    let c ← read g [1, 1]
    return [a, b, c]) = .ok [7, 8, 0] := by decide +kernel

end Verif.Grid
