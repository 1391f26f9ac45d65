import Verif.MortonTree.Float
import Verif.MortonFloat.DistProps

/-! C14 and C15 (see properties.jsonl) for coordinates of type `float` that are multiples of a common resolution, negative powers of two included. -/
namespace Verif.MortonTree
open Verif NumericTraits Morton MortonFloat MortonFloat.Spec

/-- Vectors of floats that are integers below 2^24 in absolute value times the resolution 2^(p - 150) (and not the negative zero). -/
abbrev GridVec (p dim : ℕ) := {v : ℕ → BitVec 32 // ∀ d < dim, ∃ x : BitVec 32, Same .i32 p x (v d) ∧ |ITy.i32.val x| < 2 ^ 24}

/-- The Z-order code of the exact values. -/
def gcode {p dim : ℕ} (v : GridVec p dim) : ℕ := Morton.Spec.code 279 dim fun d => biased (v.1 d)

/-- `MortonTraits<float, Dim>::compare`, morton_tree.h:334; on these vectors it is defined (`cmpG_iff`), also with the shifts of the standard (`lax` false). -/
def cmpG (lax : Bool) {p dim : ℕ} (v w : GridVec p dim) : Bool :=
  match mortonCmpFloat lax .f32 dim v.1 w.1 with
  | .ok b => b
  | .error _ => false

/-- `MortonTraits<float, Dim>::distance`, morton_tree.h:163; on these vectors it is defined (`C71_aligned_partial`). -/
def distG (lax : Bool) {p dim : ℕ} (v w : GridVec p dim) : ℤ :=
  match mortonDistanceFloat lax .f32 v.1 w.1 dim with
  | .ok r => r
  | .error _ => 0

theorem grid_regular {p dim : ℕ} (hp : 47 ≤ p) (v : GridVec p dim) : ∀ d < dim, Regular (v.1 d) := fun d hd => by
  obtain ⟨x, hx, -⟩ := v.2 d hd
  exact same_regular hx hp

theorem grid_aligned {p dim : ℕ} (hp : 47 ≤ p) (v w : GridVec p dim) : ∀ d < dim, Aligned (v.1 d) (w.1 d) ∧ Aligned (w.1 d) (v.1 d) := fun d hd => by
  obtain ⟨x, hx, hx'⟩ := v.2 d hd
  obtain ⟨y, hy, hy'⟩ := w.2 d hd
  exact ⟨same_aligned hx hy hp hx', same_aligned hy hx hp hy'⟩

theorem grid_safe {lax : Bool} {p dim : ℕ} (hp : 47 ≤ p) (v w : GridVec p dim) : ∀ d < dim, lax = true ∨ Safe (v.1 d) (w.1 d) := fun d hd => by
  obtain ⟨x, hx, hx'⟩ := v.2 d hd
  obtain ⟨y, hy, hy'⟩ := w.2 d hd
  exact Or.inr (same_safe hx hy hp hx' hy')

theorem cmpG_iff {lax : Bool} {p dim : ℕ} (hp : 47 ≤ p) (h0 : 0 < dim) (v w : GridVec p dim) : cmpG lax v w = decide (gcode v < gcode w) := by
  unfold cmpG
  rw [C17_aligned_partial lax dim v.1 w.1 h0 (grid_regular hp v) (grid_regular hp w) (grid_safe hp v w) (grid_aligned hp v w)]
  rfl

theorem cmpG_strictWeak {lax : Bool} {p dim : ℕ} (hp : 47 ≤ p) (h0 : 0 < dim) : Spec.StrictWeak (cmpG lax (p := p) (dim := dim)) := by
  refine ⟨fun a => ?_, fun a b c h1 h2 => ?_, fun a b c h1 h2 => ?_⟩
  · rw [cmpG_iff hp h0]
    simp
  · rw [cmpG_iff hp h0, decide_eq_true_iff] at *
    omega
  · rw [cmpG_iff hp h0, decide_eq_false_iff_not] at *
    omega

/-- C14 for floats of a common resolution, also with the shifts of the standard. Missing: the other floats (`C14_float_violated`). -/
theorem C14_grid_partial (lax : Bool) (p dim : ℕ) (hp : 47 ≤ p) (h0 : 0 < dim) (srt : List (Item (GridVec p dim)) → List (Item (GridVec p dim))) (hs : IsSort (cmpG lax) srt)
    (h : List (Op (GridVec p dim))) (q : GridVec p dim) :
    let r := findItem srt (cmpG lax) (run srt (cmpG lax) h) q
    r.1.items.Perm (run srt (cmpG lax) h).items ∧ r.1.items.Pairwise (fun a b => gcode a.values ≤ gcode b.values) ∧ r.2 ≤ r.1.items.length ∧
      (∀ i x, i < r.2 → r.1.items[i]? = some x → gcode x.values < gcode q) ∧ (∀ i x, r.2 ≤ i → r.1.items[i]? = some x → gcode q ≤ gcode x.values) := by
  have keyF : ∀ v w : GridVec p dim, cmpG lax v w = false ↔ gcode w ≤ gcode v := fun v w => by
    rw [cmpG_iff hp h0, decide_eq_false_iff_not, Nat.not_lt]
  obtain ⟨r1, r2, r3, r4, r5⟩ := C14_findItem_generic (cmpG lax) (cmpG_strictWeak hp h0) srt hs h q
  refine ⟨r1, r2.imp (fun h => (keyF _ _).1 h), r3, fun i x hi hx => ?_, fun i x hi hx => (keyF _ _).1 (r5 i x hi hx)⟩
  have := r4 i x hi hx
  rwa [cmpG_iff hp h0, decide_eq_true_iff] at this

theorem distG_le {lax : Bool} {p dim : ℕ} (hp : 47 ≤ p) (v w : GridVec p dim) : -127 ≤ distG lax v w ∧
    ∀ L : ℤ, -127 ≤ L → (distG lax v w ≤ L ↔ ∀ d < dim, Morton.Spec.SameCell (L + 151).toNat (biased (v.1 d)) (biased (w.1 d))) := by
  obtain ⟨r, h1, h2, h3⟩ := C71_aligned_partial lax v.1 w.1 dim (grid_regular hp v) (grid_regular hp w) (grid_safe hp v w) (grid_aligned hp v w)
  have e : distG lax v w = r := by
    unfold distG
    rw [h1]
  rw [e]
  exact ⟨h2, h3⟩

theorem distG_between {lax : Bool} {p dim : ℕ} (hp : 47 ≤ p) {a b c : GridVec p dim} (hab : gcode a ≤ gcode b) (hbc : gcode b ≤ gcode c) : distG lax a b ≤ distG lax a c ∧ distG lax b c ≤ distG lax a c := by
  obtain ⟨h1, h2⟩ := distG_le hp a c
  have lt : ∀ v : GridVec p dim, ∀ d < dim, biased (v.1 d) < 2 ^ 279 := fun v d hd => biased_lt (regular_expo (grid_regular hp v d hd))
  have hac := (code_sameCell (lt a) (lt c) _).2 ((h2 _ h1).1 (le_refl _))
  set K := (distG lax a c + 151).toNat * dim with hK
  have i1 : gcode a / 2 ^ K ≤ gcode b / 2 ^ K := Nat.div_le_div_right hab
  have i2 : gcode b / 2 ^ K ≤ gcode c / 2 ^ K := Nat.div_le_div_right hbc
  have i3 : gcode a / 2 ^ K = gcode c / 2 ^ K := hac
  constructor
  · rw [(distG_le hp a b).2 _ h1]
    apply (code_sameCell (lt a) (lt b) _).1
    show gcode a / 2 ^ K = gcode b / 2 ^ K
    omega
  · rw [(distG_le hp b c).2 _ h1]
    apply (code_sameCell (lt b) (lt c) _).1
    show gcode b / 2 ^ K = gcode c / 2 ^ K
    omega

/-- C15 for floats of a common resolution: the level of a non-empty range is the least one, from -127 on, such that for every pair of items of the range the corresponding coordinates
are in the same cell of size 2^(L+1). Missing: the other floats (`C15_float_violated`). -/
theorem C15_grid_partial (lax : Bool) (p dim : ℕ) (hp : 47 ≤ p) (h0 : 0 < dim) (srt : List (Item (GridVec p dim)) → List (Item (GridVec p dim))) (hs : IsSort (cmpG lax) srt)
    (h : List (Op (GridVec p dim))) (first last : ℕ) (hfl : first < last) (hl : last ≤ (run srt (cmpG lax) h).items.length) :
    ∃ tr L, computeLevel srt (distG lax) (run srt (cmpG lax) h) first last = .ok (tr, L) ∧ tr.items.Perm (run srt (cmpG lax) h).items ∧
      IsLeast {K : ℤ | -127 ≤ K ∧ ∀ i j x y, first ≤ i → i < last → first ≤ j → j < last → tr.items[i]? = some x → tr.items[j]? = some y →
        ∀ d < dim, Morton.Spec.SameCell (K + 151).toNat (biased (x.values.1 d)) (biased (y.values.1 d))} L := by
  obtain ⟨e1, e2, -⟩ := ensureSorted_spec hs (run_inv hs h)
  have hlen := e1.length_eq
  have ha : first < (ensureSorted srt (run srt (cmpG lax) h)).items.length := by omega
  have hb : last - 1 < (ensureSorted srt (run srt (cmpG lax) h)).items.length := by omega
  generalize hT : ensureSorted srt (run srt (cmpG lax) h) = T at *
  refine ⟨T, distG lax T.items[first].values T.items[last - 1].values, ?_, e1, ?_⟩
  · unfold computeLevel deref
    rw [hT]
    simp only [if_pos (show last ≠ first by omega), if_neg (show ¬last = 0 by omega), List.getElem?_eq_getElem ha, List.getElem?_eq_getElem hb, bind, Except.bind]
    rfl
  · have hle : ∀ (i j : ℕ) (x y : Item (GridVec p dim)), i ≤ j → T.items[i]? = some x → T.items[j]? = some y → gcode x.values ≤ gcode y.values := by
      intro i j x y hij hx hy
      rcases Nat.lt_or_eq_of_le hij with hlt | rfl
      · have := sorted_get e2 hlt hx hy
        rwa [cmpG_iff hp h0, decide_eq_false_iff_not, Nat.not_lt] at this
      · rw [hx] at hy
        rw [← Option.some.inj hy]
    have gF := List.getElem?_eq_getElem ha
    have gL := List.getElem?_eq_getElem hb
    have hkey : ∀ i j x y, first ≤ i → i ≤ j → j < last → T.items[i]? = some x → T.items[j]? = some y →
        distG lax x.values y.values ≤ distG lax T.items[first].values T.items[last - 1].values := by
      intro i j x y hi hij hj hx hy
      have a1 := (distG_between (lax := lax) hp (hle first i _ _ hi gF hx) (hle i j _ _ hij hx hy)).2
      have a2 := (distG_between (lax := lax) hp (hle first j _ _ (by omega) gF hy) (hle j (last - 1) _ _ (by omega) hy gL)).1
      omega
    have hnn := (distG_le (lax := lax) hp T.items[first].values T.items[last - 1].values).1
    constructor
    · refine ⟨hnn, ?_⟩
      intro i j x y hi hi' hj hj' hx hy
      rcases Nat.le_total i j with hij | hij
      · exact ((distG_le hp x.values y.values).2 _ hnn).1 (hkey i j x y hi hij hj' hx hy)
      · intro d hd
        exact (((distG_le hp y.values x.values).2 _ hnn).1 (hkey j i y x hj hij hi' hy hx) d hd).symm
    · rintro K ⟨hK, hall⟩
      exact ((distG_le hp _ _).2 K hK).2 (hall first (last - 1) _ _ (le_refl _) hfl (by omega) (by omega) gF gL)

/-- A point of resolution 1. -/
def exG (x y : ℤ) (a b : BitVec 32) (h : Same .i32 150 (BitVec.ofInt 32 x) a ∧ Same .i32 150 (BitVec.ofInt 32 y) b) (hx : -9 < x ∧ x < 9) (hy : -9 < y ∧ y < 9) : GridVec 150 2 :=
  ⟨MortonFloat.v2 a b, fun d _ => by
    have key : ∀ z : ℤ, -9 < z ∧ z < 9 → |ITy.i32.val (BitVec.ofInt 32 z)| < 2 ^ 24 := fun z hz => by
      have e : ITy.i32.val (BitVec.ofInt 32 z) = z := by
        show (BitVec.ofInt 32 z).toInt = z
        rw [BitVec.toInt_ofInt, Int.bmod_def]
        norm_num
        split <;> omega
      rw [e, abs_lt]
      constructor <;> omega
    unfold MortonFloat.v2
    split
    · exact ⟨_, h.1, key x hx⟩
    · exact ⟨_, h.2, key y hy⟩⟩

-- the points (-4, 3), (-1, 2), (0, -8), with coordinates that `C14_float_partial` does not cover, in Morton order; (0, -8) is last because of the sign of the first coordinate
example :
    let a := exG (-4) 3 0xC0800000#32 0x40400000#32 (by unfold Same Spec.Finite; decide +kernel) (by decide) (by decide)
    let b := exG (-1) 2 0xBF800000#32 0x40000000#32 (by unfold Same Spec.Finite; decide +kernel) (by decide) (by decide)
    let c := exG 0 (-8) 0x00000000#32 0xC1000000#32 (by unfold Same Spec.Finite; decide +kernel) (by decide) (by decide)
    let srt := isort (cmpG false (p := 150) (dim := 2))
    let h := [Op.insert ⟨b, 0⟩ true, .insert ⟨a, 0⟩ true, .insert ⟨c, 0⟩ true]
    let r := findItem srt (cmpG false) (run srt (cmpG false) h) b
    r.2 = 1 ∧ r.1.items.map Item.id = [1, 0, 2] ∧ (computeLevel srt (distG false) r.1 0 2).toOption.map Prod.snd = some 1 := by
  decide +kernel

end Verif.MortonTree
