import Verif.MortonTree.Props
import Verif.MortonFloat.Props

/-! C14 and C15 for coordinates of type `float` (see properties.jsonl). The shifts of negative numbers are those of two's complement. -/
namespace Verif.MortonTree
open Verif Morton MortonFloat MortonFloat.Spec

/-- `MortonTraits<float, Dim>::compare`, morton_tree.h:334: on the vectors below the comparison is defined (C17). -/
def cmpF (dim : ℕ) (v w : ℕ → BitVec 32) : Bool :=
  match mortonCmpFloat true .f32 dim v w with
  | .ok b => b
  | .error _ => false

/-- `MortonTraits<float, Dim>::distance`, morton_tree.h:163: on the vectors below it is defined (C71). -/
def distF (dim : ℕ) (v w : ℕ → BitVec 32) : ℤ :=
  match mortonDistanceFloat true .f32 v w dim with
  | .ok r => r
  | .error _ => 0

/-- Vectors of tame floats. -/
abbrev TameVec (dim : ℕ) := {v : ℕ → BitVec 32 // ∀ d < dim, Tame (v d)}

/-- The Z-order code of the exact values. -/
def zcode {dim : ℕ} (v : TameVec dim) : ℕ := Morton.Spec.code 279 dim fun d => biased (v.1 d)

/-- The comparison on vectors of tame floats. -/
def cmpT (dim : ℕ) (v w : TameVec dim) : Bool := cmpF dim v.1 w.1

/-- The distance on vectors of tame floats. -/
def distT (dim : ℕ) (v w : TameVec dim) : ℤ := distF dim v.1 w.1

theorem cmpT_iff {dim : ℕ} (h0 : 0 < dim) (v w : TameVec dim) : cmpT dim v w = decide (zcode v < zcode w) := by
  unfold cmpT cmpF
  rw [C17_zorder_partial true dim v.1 w.1 h0 v.2 w.2 fun _ _ => Or.inl rfl]
  rfl

theorem cmpT_strictWeak {dim : ℕ} (h0 : 0 < dim) : Spec.StrictWeak (cmpT dim) := by
  refine ⟨fun a => ?_, fun a b c h1 h2 => ?_, fun a b c h1 h2 => ?_⟩
  · rw [cmpT_iff h0]
    simp
  · rw [cmpT_iff h0, decide_eq_true_iff] at *
    omega
  · rw [cmpT_iff h0, decide_eq_false_iff_not] at *
    omega

/-- C14 for vectors of tame floats, in terms of the codes of the exact values. Missing: the other floats (`C14_float_violated`) and the shifts of negative numbers of the standard. -/
theorem C14_float_partial (dim : ℕ) (h0 : 0 < dim) (srt : List (Item (TameVec dim)) → List (Item (TameVec dim))) (hs : IsSort (cmpT dim) srt)
    (h : List (Op (TameVec dim))) (q : TameVec dim) :
    let r := findItem srt (cmpT dim) (run srt (cmpT dim) h) q
    r.1.items.Perm (run srt (cmpT dim) h).items ∧ r.1.items.Pairwise (fun a b => zcode a.values ≤ zcode b.values) ∧ r.2 ≤ r.1.items.length ∧
      (∀ i x, i < r.2 → r.1.items[i]? = some x → zcode x.values < zcode q) ∧ (∀ i x, r.2 ≤ i → r.1.items[i]? = some x → zcode q ≤ zcode x.values) := by
  have keyF : ∀ v w : TameVec dim, cmpT dim v w = false ↔ zcode w ≤ zcode v := fun v w => by
    rw [cmpT_iff h0, decide_eq_false_iff_not, Nat.not_lt]
  obtain ⟨r1, r2, r3, r4, r5⟩ := C14_findItem_generic (cmpT dim) (cmpT_strictWeak h0) srt hs h q
  refine ⟨r1, r2.imp (fun h => (keyF _ _).1 h), r3, fun i x hi hx => ?_, fun i x hi hx => (keyF _ _).1 (r5 i x hi hx)⟩
  have := r4 i x hi hx
  rwa [cmpT_iff h0, decide_eq_true_iff] at this

/-- C14, full statement for coordinates of type `float`: whatever the sorting function does, after the search the items are the inserted ones in the order of the comparison. -/
def C14_statement : Prop := ∀ dim : ℕ, 0 < dim → ∃ srt : List (Item (ℕ → BitVec 32)) → List (Item (ℕ → BitVec 32)), ∀ (xs : List (ℕ → BitVec 32)) (q : ℕ → BitVec 32),
  (∀ x ∈ xs, ∀ d < dim, Finite (x d)) →
  let t := run srt (cmpF dim) (xs.map fun v => .insert ⟨v, 0⟩ true)
  let r := findItem srt (cmpF dim) t q
  r.1.items.Perm t.items ∧ Sorted (cmpF dim) r.1.items

/-- A cycle of three elements has no sorted permutation. -/
theorem no_sorted {V : Type} {cmp : V → V → Bool} {a b c : Item V} (h1 : cmp a.values b.values = true) (h2 : cmp b.values c.values = true) (h3 : cmp c.values a.values = true)
    (n1 : a ≠ b) (n2 : b ≠ c) (n3 : c ≠ a) (l : List (Item V)) (hp : l.Perm [a, b, c]) : ¬ Sorted cmp l := by
  intro hs
  cases l with
  | nil => exact absurd hp.length_eq (by simp)
  | cons x l =>
    unfold Sorted at hs
    rw [List.pairwise_cons] at hs
    have key : ∀ p, p ∈ [a, b, c] → p ≠ x → cmp p.values x.values = false := by
      intro p hm hne
      rcases List.mem_cons.1 (hp.mem_iff.2 hm) with e | hm
      · exact absurd e hne
      · exact hs.1 p hm
    have hx : x ∈ [a, b, c] := hp.mem_iff.1 (by simp)
    simp only [List.mem_cons, List.not_mem_nil, or_false] at hx
    rcases hx with rfl | rfl | rfl
    · exact absurd h3 (by rw [key c (by simp) n3]; simp)
    · exact absurd h1 (by rw [key a (by simp) n1]; simp)
    · exact absurd h2 (by rw [key b (by simp) n2]; simp)

/-- C14 does not hold for `float`: the points (-1024, 1024), (-2^-20, 1), (-1, 2) form a cycle of the comparison, so that no permutation of them is sorted. -/
theorem C14_float_violated : ¬ C14_statement := by
  intro h
  obtain ⟨srt, h⟩ := h 2 (by norm_num)
  have f : ∀ x y : BitVec 32, expo x ≤ 254 → expo y ≤ 254 → ∀ d < 2, Finite (MortonFloat.v2 x y d) := by
    intro x y hx hy d _; unfold MortonFloat.v2 MortonFloat.Spec.Finite; split <;> assumption
  obtain ⟨hp, hs⟩ := h [MortonFloat.v2 0xC4800000#32 0x44800000#32, MortonFloat.v2 0xB5800000#32 0x3F800000#32, MortonFloat.v2 0xBF800000#32 0x40000000#32] (fun _ => 0#32) (by
    intro x hx
    simp only [List.mem_cons, List.not_mem_nil, or_false] at hx
    rcases hx with rfl | rfl | rfl
    · exact f _ _ (by decide) (by decide)
    · exact f _ _ (by decide) (by decide)
    · exact f _ _ (by decide) (by decide))
  refine no_sorted (a := ⟨MortonFloat.v2 0xC4800000#32 0x44800000#32, 0⟩) (b := ⟨MortonFloat.v2 0xB5800000#32 0x3F800000#32, 1⟩) (c := ⟨MortonFloat.v2 0xBF800000#32 0x40000000#32, 2⟩)
    (by decide +kernel) (by decide +kernel) (by decide +kernel) (fun e => absurd (congrArg Item.id e) (by decide)) (fun e => absurd (congrArg Item.id e) (by decide))
    (fun e => absurd (congrArg Item.id e) (by decide)) _ hp hs

/-! ### C15 -/

theorem distT_le {dim : ℕ} (v w : TameVec dim) : -127 ≤ distT dim v w ∧
    ∀ L : ℤ, -127 ≤ L → (distT dim v w ≤ L ↔ ∀ d < dim, Morton.Spec.SameCell (L + 151).toNat (biased (v.1 d)) (biased (w.1 d))) := by
  obtain ⟨r, h1, h2, h3⟩ := C71_distance_partial true v.1 w.1 dim v.2 w.2 fun _ _ => Or.inl rfl
  have e : distT dim v w = r := by
    unfold distT distF
    rw [h1]
  rw [e]
  exact ⟨h2, h3⟩

theorem distT_between {dim : ℕ} {a b c : TameVec dim} (hab : zcode a ≤ zcode b) (hbc : zcode b ≤ zcode c) : distT dim a b ≤ distT dim a c ∧ distT dim b c ≤ distT dim a c := by
  obtain ⟨h1, h2⟩ := distT_le a c
  have lt : ∀ v : TameVec dim, ∀ d < dim, biased (v.1 d) < 2 ^ 279 := fun v d hd => biased_lt (tame_expo (v.2 d hd))
  have hac := (code_sameCell (lt a) (lt c) _).2 ((h2 _ h1).1 (le_refl _))
  set K := (distT dim a c + 151).toNat * dim with hK
  have i1 : zcode a / 2 ^ K ≤ zcode b / 2 ^ K := Nat.div_le_div_right hab
  have i2 : zcode b / 2 ^ K ≤ zcode c / 2 ^ K := Nat.div_le_div_right hbc
  have i3 : zcode a / 2 ^ K = zcode c / 2 ^ K := hac
  constructor
  · rw [(distT_le a b).2 _ h1]
    apply (code_sameCell (lt a) (lt b) _).1
    show zcode a / 2 ^ K = zcode b / 2 ^ K
    omega
  · rw [(distT_le b c).2 _ h1]
    apply (code_sameCell (lt b) (lt c) _).1
    show zcode b / 2 ^ K = zcode c / 2 ^ K
    omega

/-- C15 for vectors of tame floats: the level of a non-empty range is the least one, from -127 on, such that for every pair of items of the range the corresponding coordinates
are in the same cell of size 2^(L+1). Missing: the other floats (`C15_float_violated`). -/
theorem C15_float_partial (dim : ℕ) (h0 : 0 < dim) (srt : List (Item (TameVec dim)) → List (Item (TameVec dim))) (hs : IsSort (cmpT dim) srt)
    (h : List (Op (TameVec dim))) (first last : ℕ) (hfl : first < last) (hl : last ≤ (run srt (cmpT dim) h).items.length) :
    ∃ tr L, computeLevel srt (distT dim) (run srt (cmpT dim) h) first last = .ok (tr, L) ∧ tr.items.Perm (run srt (cmpT dim) h).items ∧
      IsLeast {K : ℤ | -127 ≤ K ∧ ∀ i j x y, first ≤ i → i < last → first ≤ j → j < last → tr.items[i]? = some x → tr.items[j]? = some y →
        ∀ d < dim, Morton.Spec.SameCell (K + 151).toNat (biased (x.values.1 d)) (biased (y.values.1 d))} L := by
  obtain ⟨e1, e2, -⟩ := ensureSorted_spec hs (run_inv hs h)
  have hlen := e1.length_eq
  have ha : first < (ensureSorted srt (run srt (cmpT dim) h)).items.length := by omega
  have hb : last - 1 < (ensureSorted srt (run srt (cmpT dim) h)).items.length := by omega
  generalize hT : ensureSorted srt (run srt (cmpT dim) h) = T at *
  refine ⟨T, distT dim T.items[first].values T.items[last - 1].values, ?_, e1, ?_⟩
  · unfold computeLevel deref
    rw [hT]
    simp only [if_pos (show last ≠ first by omega), if_neg (show ¬last = 0 by omega), List.getElem?_eq_getElem ha, List.getElem?_eq_getElem hb, bind, Except.bind]
    rfl
  · have hle : ∀ (i j : ℕ) (x y : Item (TameVec dim)), i ≤ j → T.items[i]? = some x → T.items[j]? = some y → zcode x.values ≤ zcode y.values := by
      intro i j x y hij hx hy
      rcases Nat.lt_or_eq_of_le hij with hlt | rfl
      · have := sorted_get e2 hlt hx hy
        rwa [cmpT_iff h0, decide_eq_false_iff_not, Nat.not_lt] at this
      · rw [hx] at hy
        rw [← Option.some.inj hy]
    have gF := List.getElem?_eq_getElem ha
    have gL := List.getElem?_eq_getElem hb
    have hkey : ∀ i j x y, first ≤ i → i ≤ j → j < last → T.items[i]? = some x → T.items[j]? = some y →
        distT dim x.values y.values ≤ distT dim T.items[first].values T.items[last - 1].values := by
      intro i j x y hi hij hj hx hy
      have a1 := (distT_between (hle first i _ _ hi gF hx) (hle i j _ _ hij hx hy)).2
      have a2 := (distT_between (hle first j _ _ (by omega) gF hy) (hle j (last - 1) _ _ (by omega) hy gL)).1
      omega
    have hnn := (distT_le T.items[first].values T.items[last - 1].values).1
    constructor
    · refine ⟨hnn, ?_⟩
      intro i j x y hi hi' hj hj' hx hy
      rcases Nat.le_total i j with hij | hij
      · exact ((distT_le x.values y.values).2 _ hnn).1 (hkey i j x y hi hij hj' hx hy)
      · intro d hd
        exact (((distT_le y.values x.values).2 _ hnn).1 (hkey j i y x hj hij hi' hy hx) d hd).symm
    · rintro K ⟨hK, hall⟩
      exact ((distT_le _ _).2 K hK).2 (hall first (last - 1) _ _ (le_refl _) hfl (by omega) (by omega) gF gL)

/-- C15, full statement for coordinates of type `float`: in a sorted range every pair is within the level. -/
def C15_statement : Prop := ∀ (dim : ℕ) (srt : List (Item (ℕ → BitVec 32)) → List (Item (ℕ → BitVec 32))) (items : List (Item (ℕ → BitVec 32))) (L : ℤ) (tr : Tree (ℕ → BitVec 32)),
  0 < dim → (∀ x ∈ items, ∀ d < dim, Finite (x.values d)) → Sorted (cmpF dim) items → computeLevel srt (distF dim) ⟨items, true⟩ 0 items.length = .ok (tr, L) →
  ∀ x ∈ items, ∀ y ∈ items, distF dim x.values y.values ≤ L

/-- C15 does not hold for `float`: in the sorted range 0, -0, 2 the level is 1, but the two zeros are at distance 128. -/
theorem C15_float_violated : ¬ C15_statement := by
  intro h
  have := h 1 id [⟨fun _ => 0#32, 0⟩, ⟨fun _ => 0x80000000#32, 1⟩, ⟨fun _ => 0x40000000#32, 2⟩] 1 _ (by norm_num) (by
      intro x hx d _
      simp only [List.mem_cons, List.not_mem_nil, or_false] at hx
      rcases hx with rfl | rfl | rfl 
      · exact (show expo 0#32 ≤ 254 by decide)
      · exact (show expo 0x80000000#32 ≤ 254 by decide)
      · exact (show expo 0x40000000#32 ≤ 254 by decide))
    (by
      unfold Sorted
      simp only [List.pairwise_cons, List.mem_cons, List.not_mem_nil, or_false, forall_eq_or_imp, forall_eq]
      refine ⟨⟨by decide +kernel, by decide +kernel⟩, by decide +kernel, by simp⟩)
    (show _ = Except.ok (⟨_, true⟩, 1) by
      have e : distF 1 (fun _ => 0#32) (fun _ => 0x40000000#32) = 1 := by decide +kernel
      rw [← e]
      rfl)
    ⟨fun _ => 0#32, 0⟩ (by simp) ⟨fun _ => 0x80000000#32, 1⟩ (by simp)
  exact absurd this (by decide +kernel)

/-- A vector of tame floats. -/
def exT (x y : BitVec 32) (hx : Tame x) (hy : Tame y) : TameVec 2 := ⟨MortonFloat.v2 x y, fun d _ => by unfold MortonFloat.v2; split <;> assumption⟩

-- the points (1, 3), (-3, 1.5) and (2.5, 2), in this order: (-3, 1.5) comes first, (2.5, 2) last
example :
    let h := [Op.insert ⟨exT 0x3F800000#32 0x40400000#32 (by decide) (by decide), 0⟩ true, .insert ⟨exT 0xC0400000#32 0x3FC00000#32 (by decide) (by decide), 0⟩ true,
      .insert ⟨exT 0x40200000#32 0x40000000#32 (by decide) (by decide), 0⟩ true]
    let r := findItem (isort (cmpT 2)) (cmpT 2) (run (isort (cmpT 2)) (cmpT 2) h) (exT 0x40000000#32 0x40000000#32 (by decide) (by decide))
    r.2 = 2 ∧ r.1.items.map Item.id = [1, 0, 2] ∧ (computeLevel (isort (cmpT 2)) (distT 2) r.1 1 3).toOption.map Prod.snd = some 1 := by
  decide +kernel

end Verif.MortonTree
