import Verif.Grid.ThrowModel
import Verif.Grid.Props

/-! Property C126: the grid after an initialisation that throws. -/
namespace Verif.Grid
open Verif Verif.Interval Verif.Interval.Spec
variable {α : Type}

/-- C126, full statement: whatever allocations succeed, after an initialisation of a usable grid every inside cell can be read. -/
def C126_statement : Prop :=
  ∀ (ok : ℕ → Bool) (g g' : Grid ℕ) (i : Init) (dom : Interval) (thrown : Bool), Valid g → i.domain = .ok dom → Proper dom → card dom ≤ 2147483647 →
    tryInit ok 0 g i = .ok (g', thrown) → ∀ is, Mem g'.domain is → ∃ v, read g' is = .ok v

/-- C126, exact behaviour: without an exception the grid is usable and the old elements keep their positions; with an exception the storage is the old one, a cell whose position is
in the old storage reads the old element of that position and every other inside cell is read out of bounds. -/
theorem C126_cells (ok : ℕ → Bool) (z : α) (g : Grid α) (i : Init) (dom : Interval) (hd : i.domain = .ok dom) (hp : Proper dom) (hc : card dom ≤ 2147483647) :
    ∃ g' thrown, tryInit ok z g i = .ok (g', thrown) ∧ g'.domain = dom ∧ (thrown = true ↔ (g.data.len : ℤ) < card dom ∧ ok (card dom).toNat = false) ∧
      (thrown = false → Valid g') ∧
      ∀ is, Mem dom is → read g' is = if rank dom is < g.data.len then .ok (g.data.val (rank dom is).toNat)
        else if thrown then .error (.ub .outOfBounds) else .ok z := by
  have hs := size_ok hp hc
  have hs' : size dom = (card dom).toNat := by omega
  by_cases h : size dom ≤ g.data.len ∨ ok (size dom) = true
  · refine ⟨⟨⟨size dom, fun i => if i < g.data.len then g.data.val i else z⟩, dom⟩, false, ?_, rfl, ?_, fun _ => ⟨hp, hc, hs⟩, ?_⟩
    · unfold tryInit tryResize
      rw [hd]
      simp only [bind, Except.bind, if_pos h]
      rfl
    · rw [← hs']
      constructor
      · intro e; cases e
      · rintro ⟨h1, h2⟩
        rcases h with h | h
        · omega
        · rw [h2] at h; cases h
    · intro is hm
      have hb := rank_bounds hp.pos hm
      rw [(read_ok (g := ⟨⟨size dom, fun i => if i < g.data.len then g.data.val i else z⟩, dom⟩) ⟨hp, hc, hs⟩ hm).1]
      simp only [Bool.false_eq_true, if_false]
      by_cases hr : rank dom is < g.data.len
      · rw [if_pos (by omega), if_pos hr]
      · rw [if_neg (by omega), if_neg hr]
  · refine ⟨⟨g.data, dom⟩, true, ?_, rfl, ?_, (fun e => by cases e), ?_⟩
    · unfold tryInit tryResize
      rw [hd]
      simp only [bind, Except.bind, if_neg h]
      rfl
    · rw [← hs']
      simp only [true_iff]
      refine ⟨?_, ?_⟩
      · by_contra hn
        exact h (Or.inl (by omega))
      · by_contra hn
        exact h (Or.inr (by simpa using hn))
    · intro is hm
      have hb := rank_bounds hp.pos hm
      unfold read
      simp only [staticGetPos_ok hp hc hm, bind, Except.bind]
      unfold Vec.get
      by_cases hr : rank dom is < g.data.len
      · rw [if_pos ⟨hb.1, hr⟩, if_pos hr]
      · rw [if_neg (by omega), if_neg hr]
        rfl

/-- C126 does not hold: a grid of one cell, to be enlarged to two cells, without memory; the second cell is inside and is read out of bounds. -/
theorem C126_violated : ¬ C126_statement := by
  intro h
  have hpr : ∀ d : ℤ, 0 < d → d ≤ 2 → Proper [⟨0, d⟩] := by
    intro d h1 h2 a ha
    simp only [List.mem_cons, List.not_mem_nil, or_false] at ha
    rcases ha with rfl
    unfold I32; simp only; omega
  obtain ⟨v, hv⟩ := h (fun _ => false) ⟨⟨1, fun _ => 5⟩, [⟨0, 1⟩]⟩ ⟨⟨1, fun _ => 5⟩, [⟨0, 2⟩]⟩ (.dims [2]) [⟨0, 2⟩] true
    ⟨hpr 1 (by omega) (by omega), by norm_num [card], by norm_num [card]⟩ rfl (hpr 2 (by omega) (by omega)) (by norm_num [card]) rfl [1]
    (List.Forall₂.cons ⟨by simp, by simp⟩ List.Forall₂.nil)
  rw [show read (⟨⟨1, fun _ => 5⟩, [⟨0, 2⟩]⟩ : Grid ℕ) [1] = .error (.ub .outOfBounds) by decide +kernel] at hv
  cases hv

/-- C126, part: the storage need not grow or its allocation succeeds. Missing: the failed allocation, where the cells beyond the old storage are not readable (`C126_cells`) until
another initialisation succeeds (this theorem, which asks nothing of the grid). -/
theorem C126_partial (ok : ℕ → Bool) (z : α) (g : Grid α) (i : Init) (dom : Interval) (hd : i.domain = .ok dom) (hp : Proper dom) (hc : card dom ≤ 2147483647)
    (h : card dom ≤ g.data.len ∨ ok (card dom).toNat = true) :
    ∃ g', tryInit ok z g i = .ok (g', false) ∧ g'.domain = dom ∧ Valid g' ∧ ∀ is, Mem dom is → ∃ v, read g' is = .ok v := by
  obtain ⟨g', thrown, h1, h2, h3, h4, h5⟩ := C126_cells ok z g i dom hd hp hc
  have ht : thrown = false := by
    by_contra hn
    have := h3.1 (by simpa using hn)
    rcases h with h | h
    · omega
    · rw [this.2] at h; cases h
  subst ht
  refine ⟨g', h1, h2, h4 rfl, fun is hm => ?_⟩
  rw [h5 is hm]
  split
  · exact ⟨_, rfl⟩
  · exact ⟨z, rfl⟩

/-- C126 and C39: when the memory suffices the four initialisations are those of the other properties. -/
theorem C126_agrees (maxSize : ℕ) (z : α) (g : Grid α) (i : Init) (g' : Grid α) :
    (match i with
      | .bounds lo n => initBounds maxSize z g lo n
      | .dims n => initDims maxSize z g n
      | .center c w => initCenter maxSize z g c w
      | .minMax lo hi => initMinMax maxSize z g lo hi) = .ok g' →
    tryInit (fun n => decide (n ≤ maxSize)) z g i = .ok (g', false) := by
  have key : ∀ dom : Interval, (do let d ← resize maxSize z g.data (size dom); return (⟨d, dom⟩ : Grid α)) = .ok g' →
      (match tryResize (fun n => decide (n ≤ maxSize)) z g.data (size dom) with
        | some d => (⟨d, dom⟩, false)
        | none => (⟨g.data, dom⟩, true)) = (g', false) := by
    intro dom h
    unfold resize at h
    split at h
    · cases h
    · rename_i hn
      unfold tryResize
      rw [if_pos (Or.inr (by simpa using Nat.le_of_not_lt hn))]
      cases h
      rfl
  intro h
  unfold tryInit
  cases i with
  | bounds lo n => simp only [Init.domain, bind, Except.bind, pure, Except.pure]; exact congrArg _ (key _ h)
  | dims n => simp only [Init.domain, bind, Except.bind, pure, Except.pure]; exact congrArg _ (key _ h)
  | center c w =>
    simp only [Init.domain]
    simp only [initCenter] at h
    cases hd : initCentered c w with
    | error e => rw [hd] at h; cases h
    | ok dom => rw [hd] at h; exact congrArg _ (key dom h)
  | minMax lo hi =>
    simp only [Init.domain]
    simp only [initMinMax] at h
    cases hd : Interval.initMinMax lo hi with
    | error e => rw [hd] at h; cases h
    | ok dom => rw [hd] at h; exact congrArg _ (key dom h)

-- a grid of 2 × 2 cells with the values 1, 2, 3, 4 to be enlarged to 3 × 3 cells without memory: the cell (0, 1) reads the fourth value, (1, 1) nothing, then it shrinks to 1 × 2
example : (do
    let (g, t) ← tryInit (fun _ => false) 0 (⟨⟨4, fun i => i + 1⟩, [⟨0, 2⟩, ⟨0, 2⟩]⟩ : Grid ℕ) (.bounds [0, 0] [3, 3])
    let a ← read g [0, 1]
    let (g', t') ← tryInit (fun _ => false) 0 g (.dims [1, 2])
    let b ← read g' [0, 1]
    return (t, a, (read g [1, 1]).toOption, t', b)) = .ok (true, 4, none, false, 2) := by decide +kernel

end Verif.Grid
