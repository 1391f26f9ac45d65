import Verif.Cxx.Vec
import Verif.MortonTree.Props

/-!
Model of the constructors of `MortonTree::Item` and of `searchInBox` with a centre and a range (common/include/rofl/common/morton_tree.h), with the properties C99 and C100.
-/
namespace Verif.MortonTree
open Verif NumericTraits

/-! ### The constructors of the items -/

/-- An element of `values`; `none` is an indeterminate value, morton_tree.h:42. -/
abbrev Cells (S : Type) := Vec (Option S)

/-- `Item()`, morton_tree.h:45-48. -/
def itemDefault {S : Type} [OfNat S 0] (dim : Nat) : Cells S × Int := (⟨dim, fun _ => some 0⟩, -1)

/-- The loop of `std::copy(v.begin(), v.end(), values)` from position `p`, morton_tree.h:51. -/
def copyLoop {S : Type} : List S → Int → Cells S → Outcome (Cells S)
  | [], _, values => .ok values
  | x :: v, p, values => do
    let values ← values.set p (some x)
    copyLoop v (p + 1) values

/-- `Item(v, i)`, morton_tree.h:50-53: the elements of `values` are not initialised before the copy. -/
def itemOf {S : Type} (dim : Nat) (v : List S) (i : Int) : Outcome (Cells S × Int) := do
  let values ← copyLoop v 0 ⟨dim, fun _ => none⟩
  return (values, i)

/-! ### C99 -/

/-- C99, full statement: the item has the given coordinates and identifier. -/
def C99_statement : Prop := ∀ (dim : ℕ) (v : List ℤ) (i : ℤ), ∃ c, itemOf dim v i = .ok (c, i) ∧ c.len = dim ∧ ∀ d < dim, c.val d = v[d]? ∧ c.val d ≠ none

theorem copyLoop_ok {S : Type} : ∀ (v : List S) (p : ℕ) (c : Cells S), p + v.length ≤ c.len → ∃ c', copyLoop v p c = .ok c' ∧ c'.len = c.len ∧
    ∀ d, c'.val d = if p ≤ d ∧ d < p + v.length then v[d - p]? else c.val d
  | [], p, c, _ => ⟨c, rfl, rfl, fun d => by rw [if_neg]; simp⟩
  | x :: v, p, c, h => by
    rw [List.length_cons] at h
    have hs : c.set (p : ℤ) (some x) = .ok ⟨c.len, fun d => if d = p then some x else c.val d⟩ := by
      unfold Vec.set
      rw [if_pos (by omega)]
      rfl
    obtain ⟨c', e, h1, h2⟩ := copyLoop_ok v (p + 1) ⟨c.len, fun d => if d = p then some x else c.val d⟩ (by simp only; omega)
    refine ⟨c', ?_, h1, fun d => ?_⟩
    · unfold copyLoop
      rw [hs]
      exact e
    · rw [h2]
      by_cases hd : d = p
      · subst hd
        rw [if_neg (by omega), if_pos (by rw [List.length_cons]; omega)]
        simp
      · by_cases hr : p + 1 ≤ d ∧ d < p + 1 + v.length
        · rw [if_pos hr, if_pos (by rw [List.length_cons]; omega)]
          obtain ⟨k, rfl⟩ : ∃ k, d = p + 1 + k := ⟨d - (p + 1), by omega⟩
          rw [show p + 1 + k - (p + 1) = k by omega, show p + 1 + k - p = k + 1 by omega]
          simp
        · rw [if_neg hr, if_neg (by rw [List.length_cons]; omega)]
          simp [hd]

theorem copyLoop_over {S : Type} : ∀ (v : List S) (p : ℕ) (c : Cells S), p ≤ c.len → c.len < p + v.length → copyLoop v p c = .error (.ub .outOfBounds)
  | [], p, c, h, h' => by simp at h'; omega
  | x :: v, p, c, h, h' => by
    rw [List.length_cons] at h'
    unfold copyLoop
    by_cases hp : p < c.len
    · have hs : c.set (p : ℤ) (some x) = .ok ⟨c.len, fun d => if d = p then some x else c.val d⟩ := by
        unfold Vec.set
        rw [if_pos (by omega)]
        rfl
      rw [hs]
      exact copyLoop_over v (p + 1) _ (by simp only; omega) (by simp only; omega)
    · have hs : c.set (p : ℤ) (some x) = .error (.ub .outOfBounds) := by
        unfold Vec.set
        rw [if_neg (by omega)]
      rw [hs]
      rfl

/-- C99, part: the list has as many elements as the dimension. Missing: the other lists, see `C99_short_violated` and `C99_long_violated`. -/
theorem C99_item_partial {S : Type} (v : List S) (i : ℤ) : ∃ c, itemOf v.length v i = .ok (c, i) ∧ c.len = v.length ∧ ∀ d < v.length, c.val d = v[d]? ∧ c.val d ≠ none := by
  obtain ⟨c, e, h1, h2⟩ := copyLoop_ok v 0 ⟨v.length, fun _ => none⟩ (by simp)
  refine ⟨c, ?_, h1, fun d hd => ?_⟩
  · unfold itemOf
    have e : copyLoop v 0 ⟨v.length, fun _ => none⟩ = .ok c := e
    rw [e]
    rfl
  · rw [h2, if_pos (by simpa using hd)]
    simp [hd]

/-- C99 fails for each shorter list: the remaining coordinates are indeterminate. -/
theorem C99_short_violated {S : Type} (dim : ℕ) (v : List S) (i : ℤ) (h : v.length < dim) : ∃ c, itemOf dim v i = .ok (c, i) ∧
    ∀ d, v.length ≤ d → c.val d = none := by
  obtain ⟨c, e, -, h2⟩ := copyLoop_ok v 0 ⟨dim, fun _ => none⟩ (by simp only; omega)
  refine ⟨c, ?_, fun d hd => ?_⟩
  · unfold itemOf
    have e : copyLoop v 0 ⟨dim, fun _ => none⟩ = .ok c := e
    rw [e]
    rfl
  · rw [h2, if_neg (by omega)]

/-- C99 fails for each longer list: it is written after the end of the array. -/
theorem C99_long_violated {S : Type} (dim : ℕ) (v : List S) (i : ℤ) (h : dim < v.length) : itemOf dim v i = .error (.ub .outOfBounds) := by
  have e : copyLoop v 0 ⟨dim, fun _ => none⟩ = .error (.ub .outOfBounds) := copyLoop_over v 0 _ (by simp) (by simp only; omega)
  unfold itemOf
  rw [e]
  rfl

theorem C99_violated : ¬ C99_statement := by
  intro h
  obtain ⟨c, e, -⟩ := h 1 [1, 2] 0
  rw [C99_long_violated 1 [1, 2] 0 (by simp)] at e
  cases e

example : ((itemOf 3 [4, 5, 6] 7).toOption.map fun r => (r.1.val 0, r.1.val 1, r.1.val 2, r.2)) = some (some 4, some 5, some 6, 7) ∧
    ((itemOf 3 [4, 5] 7).toOption.map fun r => (r.1.val 0, r.1.val 1, r.1.val 2, r.2)) = some (some 4, some 5, none, 7) ∧
    ((itemDefault (S := ℤ) 3).1.val 2, (itemDefault (S := ℤ) 3).2) = (some 0, -1) := by decide +kernel

/-! ### The box with a centre and a range -/

/-- A value of type `t`, numeric_traits.h:36-291. -/
def InRange (t : ITy) (x : Int) : Prop :=
  if t.signed then -(2 ^ (t.w - 1) : Int) ≤ x ∧ x < 2 ^ (t.w - 1) else 0 ≤ x ∧ x < 2 ^ t.w

instance (t : ITy) (x : Int) : Decidable (InRange t x) := by unfold InRange; infer_instance

/-- The conversion of the result `x` of an addition or subtraction to `Scalar`, morton_tree.h:318-319: the types shorter than `int` are promoted and the result is converted back (modulo 2^w),
the signed types `int` and `long` overflow, the unsigned types wrap. -/
def arith (t : ITy) (x : Int) : Outcome (BitVec t.w) :=
  if t.signed = true ∧ 32 ≤ t.w ∧ ¬ InRange t x then .error (.ub .overflow) else .ok (BitVec.ofInt t.w x)

/-- The loop of `searchInBox(boxCenter, boxRange, items)`, morton_tree.h:317-320, over the dimensions in the list. -/
def boxLoop (t : ITy) (c : Nat → BitVec t.w) (r : BitVec t.w) : List Nat → (Nat → BitVec t.w) → (Nat → BitVec t.w) → Outcome ((Nat → BitVec t.w) × (Nat → BitVec t.w))
  | [], lo, hi => .ok (lo, hi)
  | d :: ds, lo, hi => do
    let a ← arith t (t.val (c d) - t.val r)
    let b ← arith t (t.val (c d) + t.val r)
    boxLoop t c r ds (fun k => if k = d then a else lo k) (fun k => if k = d then b else hi k)

/-- The corners of the box, morton_tree.h:316-320. -/
def boxAround (t : ITy) (dim : Nat) (c : Nat → BitVec t.w) (r : BitVec t.w) : Outcome ((Nat → BitVec t.w) × (Nat → BitVec t.w)) :=
  boxLoop t c r (List.range dim) (fun _ => 0#t.w) (fun _ => 0#t.w)

/-- `searchInBox(boxCenter, boxRange, items)`, morton_tree.h:315-322. -/
def searchAround (shlNeg : Outcome Int) (t : ITy) (dim : Nat) (srt : List (Item (Nat → BitVec t.w)) → List (Item (Nat → BitVec t.w))) (tr : Tree (Nat → BitVec t.w))
    (c : Nat → BitVec t.w) (r : BitVec t.w) : Outcome (Tree (Nat → BitVec t.w) × List Nat) := do
  let (lo, hi) ← boxAround t dim c r
  searchInBox srt (Morton.mortonCmpInt t dim) (splitInt shlNeg t dim) tr lo hi

/-! ### C100 -/

/-- The points at most at distance `r` from `c` in each coordinate. -/
def Around (t : ITy) (dim : ℕ) (c : ℕ → BitVec t.w) (r : BitVec t.w) (v : ℕ → BitVec t.w) : Prop := ∀ d < dim, |t.val (v d) - t.val (c d)| ≤ t.val r

/-- C100, full statement: the box contains the points within the range of the centre. -/
def C100_statement : Prop := ∀ (t : ITy) (dim : ℕ) (c : ℕ → BitVec t.w) (r : BitVec t.w), ∃ lo hi, boxAround t dim c r = .ok (lo, hi) ∧
  ∀ v, InBox t dim lo hi v ↔ Around t dim c r v

theorem val_ofInt {t : ITy} {x : ℤ} (h : InRange t x) : t.val (BitVec.ofInt t.w x) = x := by
  unfold InRange at h
  unfold ITy.val
  split at h
  · rename_i hs
    rw [if_pos hs, BitVec.toInt_ofInt]
    have : (2 : ℕ) ^ t.w = 2 * 2 ^ (t.w - 1) := by cases t <;> rfl
    have h1 : ((2 ^ (t.w - 1) : ℕ) : ℤ) = 2 ^ (t.w - 1) := by push_cast; rfl
    rw [this]
    apply Int.bmod_eq_of_le_mul_two <;> (push_cast; omega)
  · rename_i hs
    rw [if_neg hs, BitVec.toNat_ofInt, Int.emod_eq_of_lt h.1 (by push_cast; exact h.2), Int.toNat_of_nonneg h.1]

theorem boxLoop_ok (t : ITy) (c : ℕ → BitVec t.w) (r : BitVec t.w) : ∀ (ds : List ℕ) (lo hi : ℕ → BitVec t.w),
    (∀ d ∈ ds, InRange t (t.val (c d) - t.val r) ∧ InRange t (t.val (c d) + t.val r)) → ∃ lo' hi', boxLoop t c r ds lo hi = .ok (lo', hi') ∧
      (∀ d, d ∈ ds → t.val (lo' d) = t.val (c d) - t.val r ∧ t.val (hi' d) = t.val (c d) + t.val r) ∧ ∀ d, d ∉ ds → lo' d = lo d ∧ hi' d = hi d
  | [], lo, hi, _ => ⟨lo, hi, rfl, by simp, by simp⟩
  | d :: ds, lo, hi, h => by
    obtain ⟨h1, h2⟩ := h d (by simp)
    obtain ⟨lo', hi', e, p1, p2⟩ := boxLoop_ok t c r ds (fun k => if k = d then BitVec.ofInt t.w (t.val (c d) - t.val r) else lo k)
      (fun k => if k = d then BitVec.ofInt t.w (t.val (c d) + t.val r) else hi k) fun k hk => h k (by simp [hk])
    refine ⟨lo', hi', ?_, fun k hk => ?_, fun k hk => ?_⟩
    · unfold boxLoop arith
      rw [if_neg (by simp [h1]), if_neg (by simp [h2])]
      exact e
    · by_cases hd : k ∈ ds
      · exact p1 k hd
      · obtain rfl : k = d := by simpa [hd] using hk
        obtain ⟨q1, q2⟩ := p2 k hd
        rw [q1, q2]
        simp only [if_true]
        exact ⟨val_ofInt h1, val_ofInt h2⟩
    · have hd : k ∉ ds ∧ k ≠ d := by simp only [List.mem_cons, not_or] at hk; exact ⟨hk.2, hk.1⟩
      obtain ⟨q1, q2⟩ := p2 k hd.1
      rw [q1, q2]
      simp [hd.2]

/-- C100, part: the corners are representable. Missing: the other boxes, see `C100_overflow_violated` and `C100_wrap_violated`. -/
theorem C100_box_partial (t : ITy) (dim : ℕ) (c : ℕ → BitVec t.w) (r : BitVec t.w) (h : ∀ d < dim, InRange t (t.val (c d) - t.val r) ∧ InRange t (t.val (c d) + t.val r)) :
    ∃ lo hi, boxAround t dim c r = .ok (lo, hi) ∧ ∀ v, InBox t dim lo hi v ↔ Around t dim c r v := by
  obtain ⟨lo, hi, e, p, -⟩ := boxLoop_ok t c r (List.range dim) (fun _ => 0#t.w) (fun _ => 0#t.w) (by simpa using h)
  refine ⟨lo, hi, e, fun v => forall₂_congr fun d hd => ?_⟩
  obtain ⟨p1, p2⟩ := p d (by simpa using hd)
  rw [p1, p2, abs_le]
  omega

/-- A coordinate whose corner leaves the type `int` or `long` is undefined behaviour. -/
theorem C100_overflow_violated (t : ITy) (dim : ℕ) (c : ℕ → BitVec t.w) (r : BitVec t.w) (ht : t.signed = true ∧ 32 ≤ t.w)
    (h : ∃ d < dim, ¬ (InRange t (t.val (c d) - t.val r) ∧ InRange t (t.val (c d) + t.val r))) : boxAround t dim c r = .error (.ub .overflow) := by
  have key : ∀ (ds : List ℕ) (lo hi : ℕ → BitVec t.w), (∃ d ∈ ds, ¬ (InRange t (t.val (c d) - t.val r) ∧ InRange t (t.val (c d) + t.val r))) →
      boxLoop t c r ds lo hi = .error (.ub .overflow) := by
    intro ds
    induction ds with
    | nil => intro lo hi h; simp at h
    | cons d ds ih =>
      rintro lo hi ⟨k, hk, hn⟩
      unfold boxLoop arith
      by_cases h1 : InRange t (t.val (c d) - t.val r)
      · rw [if_neg (by simp [h1])]
        by_cases h2 : InRange t (t.val (c d) + t.val r)
        · rw [if_neg (by simp [h2])]
          refine ih _ _ ⟨k, ?_, hn⟩
          rcases List.mem_cons.1 hk with rfl | hk
          · exact absurd ⟨h1, h2⟩ hn
          · exact hk
        · rw [if_pos ⟨ht.1, ht.2, h2⟩]
          rfl
      · rw [if_pos ⟨ht.1, ht.2, h1⟩]
        rfl
  obtain ⟨d, hd, hn⟩ := h
  exact key _ _ _ ⟨d, by simpa using hd, hn⟩

/-- With unsigned coordinates the corners wrap: the box of range 2 around 1 does not contain 1. -/
theorem C100_wrap_violated : ∃ lo hi, boxAround .u32 1 (fun _ => 1#32) 2#32 = .ok (lo, hi) ∧ ¬ InBox .u32 1 lo hi (fun _ => 1#32) := by
  refine ⟨_, _, rfl, ?_⟩
  intro h
  have := (h 0 (by norm_num)).1
  revert this
  decide +kernel

theorem C100_violated : ¬ C100_statement := by
  intro h
  obtain ⟨lo, hi, e, -⟩ := h .i32 1 (fun _ => 0x7FFFFFFF#32) 1#32
  rw [C100_overflow_violated .i32 1 _ _ ⟨rfl, by decide⟩ ⟨0, by norm_num, by decide +kernel⟩] at e
  cases e

/-- C100, search: as with the corners (C16), no item is ever reported. -/
theorem C100_reports_nothing_violated (shlNeg : Outcome Int) (t : ITy) (dim : ℕ) (h0 : 0 < dim) (h1 : dim ≤ 2 ^ t.w)
    (srt : List (Item (ℕ → BitVec t.w)) → List (Item (ℕ → BitVec t.w))) (hs : IsSort (Morton.mortonCmpInt t dim) srt) (h : List (Op (ℕ → BitVec t.w)))
    (c : ℕ → BitVec t.w) (r : BitVec t.w) (tr : Tree (ℕ → BitVec t.w)) (out : List ℕ)
    (hr : searchAround shlNeg t dim srt (run srt (Morton.mortonCmpInt t dim) h) c r = .ok (tr, out)) : out = [] := by
  unfold searchAround at hr
  cases e : boxAround t dim c r with
  | error err => rw [e] at hr; cases hr
  | ok b =>
    rw [e] at hr
    exact (C16_reports_nothing shlNeg t dim h0 h1 srt hs h b.1 b.2 tr out hr).1

-- the box of range 2 around (5, -1) of `int`
example : ((boxAround .i32 2 (fun d => if d = 0 then 5#32 else -1#32) 2#32).toOption.map fun b => ((b.1 0).toInt, (b.1 1).toInt, (b.2 0).toInt, (b.2 1).toInt)) =
    some (3, -3, 7, 1) := by decide +kernel

end Verif.MortonTree
