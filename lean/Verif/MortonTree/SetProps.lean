import Verif.MortonTree.Props
import Verif.MortonFloat.MonoProps

/-! Property theorem C144 (see properties.jsonl): a Morton tree depends only on the multiset of the inserted values; and C143 for trees: the items of a box
are between the positions of its corners. -/
namespace Verif.MortonTree
open Verif
variable {V : Type}

/-- A list whose first `p` items satisfy `f` and whose other items do not has `p` items with `f`. -/
theorem countP_split {α : Type} (f : α → Bool) (l : List α) (p : ℕ) (hp : p ≤ l.length) (h1 : ∀ i x, i < p → l[i]? = some x → f x = true)
    (h2 : ∀ i x, p ≤ i → l[i]? = some x → f x = false) : l.countP f = p := by
  rw [← List.take_append_drop p l, List.countP_append]
  have e1 : (l.take p).countP f = p := by
    rw [List.countP_eq_length.2, List.length_take, min_eq_left hp]
    intro x hx
    obtain ⟨i, hi⟩ := List.mem_iff_getElem?.1 hx
    rw [List.getElem?_take] at hi
    split_ifs at hi with h
    exact h1 i x h hi
  have e2 : (l.drop p).countP f = 0 := by
    rw [List.countP_eq_zero]
    intro x hx
    obtain ⟨i, hi⟩ := List.mem_iff_getElem?.1 hx
    rw [List.getElem?_drop] at hi
    simp [h2 (p + i) x (by omega) hi]
  omega

/-- C144, queries: the position found is the number of inserted values before the query, whatever the order and the calls of the insertions. -/
theorem C144_position (cmp : V → V → Bool) (hw : Spec.StrictWeak cmp) (srt : List (Item V) → List (Item V)) (hs : IsSort cmp srt) (h : List (Op V)) (q : V) :
    (findItem srt cmp (run srt cmp h) q).2 = (h.flatMap valuesOf).countP fun v => cmp v q := by
  obtain ⟨p1, p2, p3, p4, p5⟩ := C14_findItem_generic cmp hw srt hs h q
  have := countP_split (fun x : Item V => cmp x.values q) _ _ p3 p4 p5
  rw [← (C13_values cmp srt hs h).countP_eq, ← this, p1.countP_eq, List.countP_map]
  rfl

/-- C144: two histories that insert the same values, in any order and by any calls, with two sorting algorithms, have equivalent items at the same positions. -/
theorem C144_same (cmp : V → V → Bool) (hw : Spec.StrictWeak cmp) (srt1 srt2 : List (Item V) → List (Item V)) (hs1 : IsSort cmp srt1)
    (hs2 : IsSort cmp srt2) (h1 h2 : List (Op V)) (hv : (h1.flatMap valuesOf).Perm (h2.flatMap valuesOf)) (i : ℕ) (x y : Item V)
    (hx : (ensureSorted srt1 (run srt1 cmp h1)).items[i]? = some x) (hy : (ensureSorted srt2 (run srt2 cmp h2)).items[i]? = some y) :
    cmp x.values y.values = false ∧ cmp y.values x.values = false := by
  have one : ∀ (srt srt' : List (Item V) → List (Item V)), IsSort cmp srt → IsSort cmp srt' → ∀ h h' : List (Op V),
      (h.flatMap valuesOf).Perm (h'.flatMap valuesOf) → ∀ x y : Item V, (ensureSorted srt (run srt cmp h)).items[i]? = some x →
      (ensureSorted srt' (run srt' cmp h')).items[i]? = some y → cmp x.values y.values = false := by
    intro srt srt' hs hs' h h' hv x y hx hy
    by_contra hc
    rw [Bool.not_eq_false] at hc
    have e1 := C144_position cmp hw srt hs h y.values
    have e2 := C144_position cmp hw srt' hs' h' y.values
    rw [hv.countP_eq, ← e2] at e1
    obtain ⟨-, -, -, -, a5⟩ := C14_findItem_generic cmp hw srt hs h y.values
    obtain ⟨-, -, -, b4, -⟩ := C14_findItem_generic cmp hw srt' hs' h' y.values
    rcases Nat.lt_or_ge i (findItem srt' cmp (run srt' cmp h') y.values).2 with hi | hi
    · have := b4 i y hi hy
      rw [hw.irrefl] at this
      cases this
    · have := a5 i x (by omega) hx
      rw [hc] at this
      cases this
  exact ⟨one srt1 srt2 hs1 hs2 h1 h2 hv x y hx hy, one srt2 srt1 hs2 hs1 h2 h1 hv.symm y x hy hx⟩

open Verif.Morton Verif.NumericTraits

theorem mortonDistanceInt_congr (t : ITy) (n : ℕ) {a b c d : ℕ → BitVec t.w} (h1 : Morton.Spec.SameVec n a c) (h2 : Morton.Spec.SameVec n b d) :
    mortonDistanceInt t n a b = mortonDistanceInt t n c d := by
  unfold mortonDistanceInt
  induction n with
  | zero => rfl
  | succ n ih =>
    simp only [distLoop]
    rw [ih (fun k hk => h1 k (by omega)) (fun k hk => h2 k (by omega)), h1 n (by omega), h2 n (by omega)]

/-- C144 for integer coordinates: the same values at the same positions, the same position for every query and the same level for every range. -/
theorem C144_int (t : ITy) (dim : ℕ) (h0 : 0 < dim) (hd : dim ≤ 2 ^ t.w) (srt1 srt2 : List (Item (ℕ → BitVec t.w)) → List (Item (ℕ → BitVec t.w)))
    (hs1 : IsSort (mortonCmpInt t dim) srt1) (hs2 : IsSort (mortonCmpInt t dim) srt2) (h1 h2 : List (Op (ℕ → BitVec t.w)))
    (hv : (h1.flatMap valuesOf).Perm (h2.flatMap valuesOf)) :
    let t1 := run srt1 (mortonCmpInt t dim) h1
    let t2 := run srt2 (mortonCmpInt t dim) h2
    (ensureSorted srt1 t1).items.length = (ensureSorted srt2 t2).items.length ∧
    (∀ (i : ℕ) (x y : Item (ℕ → BitVec t.w)), (ensureSorted srt1 t1).items[i]? = some x → (ensureSorted srt2 t2).items[i]? = some y → Morton.Spec.SameVec dim x.values y.values) ∧
    (∀ q, (findItem srt1 (mortonCmpInt t dim) t1 q).2 = (findItem srt2 (mortonCmpInt t dim) t2 q).2) ∧
    (∀ first last, (computeLevel srt1 (mortonDistanceInt t dim) t1 first last).map Prod.snd =
      (computeLevel srt2 (mortonDistanceInt t dim) t2 first last).map Prod.snd) := by
  intro t1 t2
  have hw := mortonCmpInt_strictWeak t dim h0 hd
  have l1 : (ensureSorted srt1 t1).items.length = t1.items.length := (ensureSorted_spec hs1 (run_inv hs1 h1)).1.length_eq
  have l2 : (ensureSorted srt2 t2).items.length = t2.items.length := (ensureSorted_spec hs2 (run_inv hs2 h2)).1.length_eq
  have v1 : (t1.items.map Item.values).length = _ := (C13_values _ srt1 hs1 h1).length_eq
  have v2 : (t2.items.map Item.values).length = _ := (C13_values _ srt2 hs2 h2).length_eq
  have v3 := hv.length_eq
  rw [List.length_map] at v1 v2
  have hlen : (ensureSorted srt1 t1).items.length = (ensureSorted srt2 t2).items.length := by omega
  have hsame : ∀ (i : ℕ) (x y : Item (ℕ → BitVec t.w)), (ensureSorted srt1 t1).items[i]? = some x → (ensureSorted srt2 t2).items[i]? = some y → Morton.Spec.SameVec dim x.values y.values := by
    intro i x y hx hy
    obtain ⟨c1, c2⟩ := C144_same _ hw srt1 srt2 hs1 hs2 h1 h2 hv i x y hx hy
    by_contra hn
    rcases (C09_order_partial t dim h0 hd).2.2.2 _ _ hn with h | h
    · rw [h] at c1; cases c1
    · rw [h] at c2; cases c2
  refine ⟨hlen, hsame, fun q => ?_, fun first last => ?_⟩
  · rw [C144_position _ hw srt1 hs1, C144_position _ hw srt2 hs2, hv.countP_eq]
  · have hd : ∀ p, (∃ x y, deref (ensureSorted srt1 t1).items p = .ok x ∧ deref (ensureSorted srt2 t2).items p = .ok y ∧ Morton.Spec.SameVec dim x.values y.values) ∨
        (∃ e, deref (ensureSorted srt1 t1).items p = .error e ∧ deref (ensureSorted srt2 t2).items p = .error e) := by
      intro p
      unfold deref
      rcases Nat.lt_or_ge p (ensureSorted srt1 t1).items.length with hp | hp
      · have hp' := hp
        rw [hlen] at hp'
        left
        refine ⟨_, _, ?_, ?_, hsame p _ _ (List.getElem?_eq_getElem hp) (List.getElem?_eq_getElem hp')⟩
        · rw [List.getElem?_eq_getElem hp]
        · rw [List.getElem?_eq_getElem hp']
      · right
        refine ⟨.ub .outOfBounds, ?_, ?_⟩
        · rw [List.getElem?_eq_none hp]
        · rw [List.getElem?_eq_none (by omega)]
    have fin : ∀ l', (do
          let a ← deref (ensureSorted srt1 t1).items first
          let b ← deref (ensureSorted srt1 t1).items l'
          return (ensureSorted srt1 t1, mortonDistanceInt t dim a.values b.values)).map Prod.snd = (do
          let a ← deref (ensureSorted srt2 t2).items first
          let b ← deref (ensureSorted srt2 t2).items l'
          return (ensureSorted srt2 t2, mortonDistanceInt t dim a.values b.values)).map Prod.snd := by
      intro l'
      rcases hd first with ⟨x, y, hx, hy, hxy⟩ | ⟨e, hx, hy⟩ <;> rw [hx, hy]
      · rcases hd l' with ⟨x', y', hx', hy', hxy'⟩ | ⟨e, hx', hy'⟩ <;> rw [hx', hy']
        · show Except.ok _ = Except.ok _
          exact congrArg _ (mortonDistanceInt_congr t dim hxy hxy')
        · rfl
      · rfl
    unfold computeLevel
    by_cases hl : last ≠ first
    · by_cases hz : last = 0
      · simp only [if_pos hl, if_pos hz]; rfl
      · simp only [if_pos hl, if_neg hz]; exact fin (last - 1)
    · simp only [if_neg hl]; exact fin last

/-- C143 for trees: after any history, the items of a box are between the lower bound of the low corner (`findItem`) and the upper bound of the high corner. -/
theorem C143_tree (t : ITy) (dim : ℕ) (h0 : 0 < dim) (h1 : dim ≤ 2 ^ t.w) (srt : List (Item (ℕ → BitVec t.w)) → List (Item (ℕ → BitVec t.w)))
    (hs : IsSort (mortonCmpInt t dim) srt) (h : List (Op (ℕ → BitVec t.w))) (lo hi : ℕ → BitVec t.w) (i : ℕ) (x : Item (ℕ → BitVec t.w))
    (hx : (ensureSorted srt (run srt (mortonCmpInt t dim) h)).items[i]? = some x) (hb : InBox t dim lo hi x.values) :
    (findItem srt (mortonCmpInt t dim) (run srt (mortonCmpInt t dim) h) lo).2 ≤ i ∧
      i < upperBound (mortonCmpInt t dim) (ensureSorted srt (run srt (mortonCmpInt t dim) h)).items hi := by
  have hw := mortonCmpInt_strictWeak t dim h0 h1
  obtain ⟨-, e2, -⟩ := ensureSorted_spec hs (run_inv hs h)
  obtain ⟨b1, b2⟩ := C143_box t dim h0 lo hi x.values (fun d hd => (hb d hd).1) (fun d hd => (hb d hd).2)
  obtain ⟨-, a2, -⟩ := lowerBound_spec hw e2 lo
  obtain ⟨-, -, c3⟩ := upperBound_spec hw e2 hi
  constructor
  · by_contra hc
    have := a2 i x (by simp only [findItem] at hc; omega) hx
    rw [b1] at this; cases this
  · by_contra hc
    have := c3 i x (by omega) hx
    rw [b2] at this; cases this

/-- Another order and other calls for the points of `exHist`. -/
def exHist' : List (Op (ℕ → BitVec (ITy.i32).w)) :=
  [.insertConv [⟨v2 (-1) 3, 7⟩, ⟨v2 1 1, 8⟩] false, .findItem (v2 4 4), .insert ⟨v2 9 9, 0⟩ true, .insert ⟨v2 2 2, 0⟩ false]

example :
    let s := isort (mortonCmpInt .i32 2)
    let c := mortonCmpInt .i32 2
    ((ensureSorted s (run s c exHist)).items.map fun x => (x.values 0, x.values 1)) =
      ((ensureSorted s (run s c exHist')).items.map fun x => (x.values 0, x.values 1)) ∧
    (findItem s c (run s c exHist) (v2 2 0)).2 = 2 ∧ (findItem s c (run s c exHist') (v2 2 0)).2 = 2 ∧
    ((ensureSorted s (run s c exHist)).items.map Item.id) = [3, 1, 2, 0] ∧ ((ensureSorted s (run s c exHist')).items.map Item.id) = [7, 8, -1, 2] := by
  decide +kernel

end Verif.MortonTree
