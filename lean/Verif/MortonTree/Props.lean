import Verif.MortonTree.Lemmas

/-! Property theorems C13 to C16 (see properties.jsonl). -/
namespace Verif.MortonTree
open Verif
variable {V : Type}

/-! ### C13: insertion -/

/-- The history on the specification side. -/
def specStep (st : List (V × ℤ)) : Op V → List (V × ℤ)
  | .insert x r => Spec.insert st (pairs [x]) r
  | .insertRange xs r => Spec.insert st (pairs xs) r
  | .insertConv xs r => Spec.insert st (pairs xs) r
  | .findItem _ => st

/-- Expected content after a history. -/
def expected (h : List (Op V)) : List (V × ℤ) := h.foldl specStep []

/-- C13, full statement. -/
def C13_statement : Prop :=
  ∀ (V : Type) (cmp : V → V → Bool) (srt : List (Item V) → List (Item V)), IsSort cmp srt → ∀ h : List (Op V),
    (pairs (run srt cmp h).items).Perm (expected h)

/-- The insertions without `resetId` of single items and of ranges have only identifiers `-1`. -/
def KeepsOnlyMinusOne : Op V → Prop
  | .insert x r => r = false → x.id = -1
  | .insertRange xs r => r = false → ∀ x ∈ xs, x.id = -1
  | .insertConv _ _ => True
  | .findItem _ => True

theorem mapIdx_congr {α β : Type} (l : List α) (f g : ℕ → α → β) (h : ∀ k, ∀ x ∈ l, f k x = g k x) : l.mapIdx f = l.mapIdx g := by
  induction l generalizing f g with
  | nil => rfl
  | cons x xs ih =>
    rw [List.mapIdx_cons, List.mapIdx_cons, h 0 x (by simp), ih _ _ (fun k y hy => h (k + 1) y (by simp [hy]))]

theorem mapIdx_pairs (xs : List (Item V)) (f : ℕ → V × ℤ → V × ℤ) :
    (pairs xs).mapIdx f = xs.mapIdx fun k x => f k (x.values, x.id) := by
  unfold pairs
  induction xs generalizing f with
  | nil => rfl
  | cons x xs ih => rw [List.map_cons, List.mapIdx_cons, List.mapIdx_cons, ih]

theorem step_pairs {cmp : V → V → Bool} {srt : List (Item V) → List (Item V)} (hs : IsSort cmp srt) (t : Tree V)
    (o : Op V) (ho : KeepsOnlyMinusOne o) (st : List (V × ℤ)) (h : (pairs t.items).Perm st) :
    (pairs (step srt cmp t o).items).Perm (specStep st o) := by
  have hl : t.items.length = st.length := by rw [← h.length_eq]; simp [pairs]
  cases o with
  | insert x r =>
    simp only [step, insert, specStep, Spec.insert, pairs, List.map_append, List.map_cons, List.map_nil, List.mapIdx_cons, List.mapIdx_nil,
      Nat.add_zero]
    refine List.Perm.append h ?_
    cases r
    · have : x.id = -1 := ho rfl
      simp [this]
    · simp [hl]
  | insertRange xs r =>
    simp only [step, insertRange, specStep, Spec.insert]
    rw [insertLoop_items, mapIdx_pairs]
    refine List.Perm.append h (List.Perm.of_eq (mapIdx_congr _ _ _ fun k x hx => ?_))
    cases r
    · have : x.id = -1 := ho rfl x hx
      simp [this]
    · simp [hl]
  | insertConv xs r =>
    simp only [step, insertConv, specStep, Spec.insert]
    rw [insertConvLoop_items, mapIdx_pairs]
    refine List.Perm.append h (List.Perm.of_eq (mapIdx_congr _ _ _ fun k x hx => ?_))
    cases r
    · simp
    · simp [hl]
  | findItem q =>
    simp only [step, findItem, specStep]
    refine List.Perm.trans ?_ h
    unfold ensureSorted
    split
    · exact (hs _).1.map _
    · exact List.Perm.refl _

/-- C13 restricted to the histories in which `insert(item, false)` and `insert(beg, end, false)` only receive items with the
identifier `-1`. Missing: those overloads replace any other identifier by `-1`. -/
theorem C13_insert_partial (cmp : V → V → Bool) (srt : List (Item V) → List (Item V)) (hs : IsSort cmp srt) (h : List (Op V))
    (hk : ∀ o ∈ h, KeepsOnlyMinusOne o) : (pairs (run srt cmp h).items).Perm (expected h) := by
  unfold run expected
  have gen : ∀ (h : List (Op V)) (t : Tree V) (st : List (V × ℤ)), (∀ o ∈ h, KeepsOnlyMinusOne o) → (pairs t.items).Perm st →
      (pairs (h.foldl (step srt cmp) t).items).Perm (h.foldl specStep st) := by
    intro h
    induction h with
    | nil => intro t st _ hp; exact hp
    | cons o os ih =>
      intro t st hk hp
      exact ih _ _ (fun o ho => hk o (by simp [ho])) (step_pairs hs t o (hk o (by simp)) st hp)
  exact gen h new [] hk (List.Perm.refl _)

/-- Values inserted by a history. -/
def valuesOf : Op V → List V
  | .insert x _ => [x.values]
  | .insertRange xs _ => xs.map Item.values
  | .insertConv xs _ => xs.map Item.values
  | .findItem _ => []

theorem map_mapIdx' {α β γ : Type} (l : List α) (f : ℕ → α → β) (g : β → γ) :
    (l.mapIdx f).map g = l.mapIdx fun k x => g (f k x) := by
  induction l generalizing f with
  | nil => rfl
  | cons x xs ih => rw [List.mapIdx_cons, List.mapIdx_cons, List.map_cons, ih]

theorem mapIdx_const_index {α β : Type} (l : List α) (f : α → β) : l.mapIdx (fun _ x => f x) = l.map f := by
  induction l with
  | nil => rfl
  | cons x xs ih => rw [List.mapIdx_cons, List.map_cons, ← ih]

/-- C13, values: after every history (any identifiers) the tree holds exactly the inserted values. -/
theorem C13_values (cmp : V → V → Bool) (srt : List (Item V) → List (Item V)) (hs : IsSort cmp srt) (h : List (Op V)) :
    ((run srt cmp h).items.map Item.values).Perm (h.flatMap valuesOf) := by
  have fst_pairs : ∀ l : List (Item V), l.map Item.values = (pairs l).map Prod.fst := by
    intro l; unfold pairs; rw [List.map_map]; rfl
  have one : ∀ (t : Tree V) (o : Op V), ((step srt cmp t o).items.map Item.values).Perm (t.items.map Item.values ++ valuesOf o) := by
    intro t o
    cases o with
    | insert x r => simp [step, insert, valuesOf]
    | insertRange xs r =>
      simp only [step, insertRange, valuesOf]
      rw [fst_pairs, insertLoop_items, List.map_append, ← fst_pairs, map_mapIdx']
      refine List.Perm.of_eq (congrArg _ ?_)
      exact mapIdx_const_index xs Item.values
    | insertConv xs r =>
      simp only [step, insertConv, valuesOf]
      rw [fst_pairs, insertConvLoop_items, List.map_append, ← fst_pairs, map_mapIdx']
      refine List.Perm.of_eq (congrArg _ ?_)
      exact mapIdx_const_index xs Item.values
    | findItem q =>
      simp only [step, findItem, valuesOf, List.append_nil]
      unfold ensureSorted
      split
      · exact (hs _).1.map _
      · exact List.Perm.refl _
  have gen : ∀ (h : List (Op V)) (t : Tree V), ((h.foldl (step srt cmp) t).items.map Item.values).Perm
      (t.items.map Item.values ++ h.flatMap valuesOf) := by
    intro h
    induction h with
    | nil => intro t; simp
    | cons o os ih =>
      intro t
      refine (ih _).trans ?_
      rw [List.flatMap_cons, ← List.append_assoc]
      exact (one t o).append_right _
  simpa [run, new] using gen h new

/-- Insertion of one item into a sorted list. -/
def ins (cmp : V → V → Bool) (x : Item V) : List (Item V) → List (Item V)
  | [] => [x]
  | y :: ys => if cmp y.values x.values then y :: ins cmp x ys else x :: y :: ys

/-- Insertion sort, an implementation of the contract of `std::sort` (used in the examples). -/
def isort (cmp : V → V → Bool) : List (Item V) → List (Item V)
  | [] => []
  | x :: xs => ins cmp x (isort cmp xs)

theorem ins_perm (cmp : V → V → Bool) (x : Item V) (l : List (Item V)) : (ins cmp x l).Perm (x :: l) := by
  induction l with
  | nil => exact List.Perm.refl _
  | cons y ys ih =>
    unfold ins
    split
    · exact (ih.cons y).trans (List.Perm.swap _ _ _)
    · exact List.Perm.refl _

theorem ins_sorted {cmp : V → V → Bool} (hw : Spec.StrictWeak cmp) (x : Item V) (l : List (Item V)) (hl : Sorted cmp l) :
    Sorted cmp (ins cmp x l) := by
  induction l with
  | nil => simp [ins, Sorted]
  | cons y ys ih =>
    unfold Sorted at hl ih ⊢
    rw [List.pairwise_cons] at hl
    unfold ins
    split
    · rename_i hyx
      rw [List.pairwise_cons]
      refine ⟨fun z hz => ?_, ih hl.2⟩
      rcases List.mem_cons.1 ((ins_perm cmp x ys).mem_iff.1 hz) with rfl | hz
      · by_contra h
        have := hw.trans _ _ _ hyx (by simpa using h)
        rw [hw.irrefl] at this
        cases this
      · exact hl.1 z hz
    · rename_i hyx
      have hyx : cmp y.values x.values = false := by simpa using hyx
      rw [List.pairwise_cons, List.pairwise_cons]
      refine ⟨fun z hz => ?_, hl⟩
      rcases List.mem_cons.1 hz with rfl | hz
      · exact hyx
      · exact hw.negTrans _ _ _ (hl.1 z hz) hyx

theorem isort_isSort {cmp : V → V → Bool} (hw : Spec.StrictWeak cmp) : IsSort cmp (isort cmp) := by
  intro l
  induction l with
  | nil => exact ⟨List.Perm.refl _, List.Pairwise.nil⟩
  | cons x xs ih => exact ⟨(ins_perm cmp x _).trans (ih.1.cons x), ins_sorted hw x _ ih.2⟩

/-- The code violates C13: `insert(item, false)` discards the identifier. -/
theorem C13_violated : ¬ C13_statement := by
  intro h
  have hw : Spec.StrictWeak (fun a b : ℕ => decide (a < b)) :=
    ⟨fun a => by simp, fun a b c => by simp only [decide_eq_true_eq]; omega, fun a b c => by simp only [decide_eq_false_iff_not]; omega⟩
  have := h ℕ (fun a b => decide (a < b)) (isort fun a b => decide (a < b)) (isort_isSort hw) [.insert ⟨3, 42⟩ false]
  have := List.perm_singleton.1 this
  simp [run, step, insert, pairs, expected, specStep, Spec.insert, new] at this

example : pairs (run (isort fun a b : ℕ => decide (a < b)) (fun a b => decide (a < b))
    [.insert ⟨5, 0⟩ true, .insertConv [⟨9, 70⟩, ⟨1, 71⟩] false, .findItem 6, .insertRange [⟨4, 8⟩, ⟨2, 8⟩] true]).items =
      [(1, 71), (5, 0), (9, 70), (4, 3), (2, 4)] := by decide +kernel

/-! ### C14: findItem -/

/-- C14 for every scalar type whose comparison is a strict weak order. -/
theorem C14_findItem_generic (cmp : V → V → Bool) (hw : Spec.StrictWeak cmp) (srt : List (Item V) → List (Item V))
    (hs : IsSort cmp srt) (h : List (Op V)) (q : V) :
    let r := findItem srt cmp (run srt cmp h) q
    r.1.items.Perm (run srt cmp h).items ∧ Sorted cmp r.1.items ∧ r.2 ≤ r.1.items.length ∧
      (∀ i x, i < r.2 → r.1.items[i]? = some x → cmp x.values q = true) ∧
      (∀ i x, r.2 ≤ i → r.1.items[i]? = some x → cmp x.values q = false) := by
  intro r
  obtain ⟨h1, h2, -⟩ := ensureSorted_spec hs (run_inv hs h)
  obtain ⟨h3, h4, h5⟩ := lowerBound_spec hw h2 q
  exact ⟨h1, h2, h3, h4, h5⟩

open Verif.Morton Verif.NumericTraits

/-- C14 for integer coordinates, in terms of the Morton codes. Missing: floating point coordinates (see C17) and more than
`2 ^ w` coordinates of `w` bits (see C08). -/
theorem C14_findItem_partial (t : ITy) (dim : ℕ) (h0 : 0 < dim) (h1 : dim ≤ 2 ^ t.w)
    (srt : List (Item (ℕ → BitVec t.w)) → List (Item (ℕ → BitVec t.w))) (hs : IsSort (mortonCmpInt t dim) srt)
    (h : List (Op (ℕ → BitVec t.w))) (q : ℕ → BitVec t.w) :
    let r := findItem srt (mortonCmpInt t dim) (run srt (mortonCmpInt t dim) h) q
    r.1.items.Perm (run srt (mortonCmpInt t dim) h).items ∧
      r.1.items.Pairwise (fun a b => Morton.Spec.mcode t dim a.values ≤ Morton.Spec.mcode t dim b.values) ∧
      r.2 ≤ r.1.items.length ∧
      (∀ i x, i < r.2 → r.1.items[i]? = some x → Morton.Spec.mcode t dim x.values < Morton.Spec.mcode t dim q) ∧
      (∀ i x, r.2 ≤ i → r.1.items[i]? = some x → Morton.Spec.mcode t dim q ≤ Morton.Spec.mcode t dim x.values) := by
  have keyF : ∀ v1 v2, mortonCmpInt t dim v1 v2 = false ↔ Morton.Spec.mcode t dim v2 ≤ Morton.Spec.mcode t dim v1 := by
    intro v1 v2
    rw [Bool.eq_false_iff, ne_eq, mortonCmpInt_iff t dim v1 v2 h0 h1]
    omega
  obtain ⟨r1, r2, r3, r4, r5⟩ := C14_findItem_generic (mortonCmpInt t dim) (mortonCmpInt_strictWeak t dim h0 h1) srt hs h q
  refine ⟨r1, r2.imp (fun h => (keyF _ _).1 h), r3, fun i x hi hx => ?_, fun i x hi hx => (keyF _ _).1 (r5 i x hi hx)⟩
  exact (mortonCmpInt_iff t dim _ _ h0 h1).1 (r4 i x hi hx)

/-- Two-dimensional `int` vectors. -/
def v2 (x y : Int) : ℕ → BitVec (ITy.i32).w := fun d => if d = 0 then BitVec.ofInt 32 x else BitVec.ofInt 32 y

/-- An example history: four points in no particular order. -/
def exHist : List (Op (ℕ → BitVec (ITy.i32).w)) :=
  [.insert ⟨v2 9 9, 0⟩ true, .insert ⟨v2 1 1, 0⟩ true, .insertRange [⟨v2 2 2, 0⟩, ⟨v2 (-1) 3, 0⟩] true]

example :
    let r := findItem (isort (mortonCmpInt .i32 2)) (mortonCmpInt .i32 2)
      (run (isort (mortonCmpInt .i32 2)) (mortonCmpInt .i32 2) exHist) (v2 2 0)
    (r.1.items.map Item.id, r.2) = ([3, 1, 2, 0], 2) := by decide +kernel

/-! ### C15: computeLevel -/

/-- C15 for integer coordinates: after any history, the level computed for a non-empty range of positions is the least one
such that, for every pair of items of the range, corresponding coordinates are in the same dyadic cell of that level.
Missing: floating point coordinates, more than `2 ^ w` coordinates of `w` bits. -/
theorem C15_computeLevel_partial (t : ITy) (dim : ℕ) (h0 : 0 < dim) (h1 : dim ≤ 2 ^ t.w)
    (srt : List (Item (ℕ → BitVec t.w)) → List (Item (ℕ → BitVec t.w))) (hs : IsSort (mortonCmpInt t dim) srt)
    (h : List (Op (ℕ → BitVec t.w))) (first last : ℕ) (hfl : first < last) (hl : last ≤ (run srt (mortonCmpInt t dim) h).items.length) :
    ∃ tr L, computeLevel srt (mortonDistanceInt t dim) (run srt (mortonCmpInt t dim) h) first last = .ok (tr, L) ∧
      tr.items.Perm (run srt (mortonCmpInt t dim) h).items ∧
      IsLeast {K : ℤ | 0 ≤ K ∧ ∀ i j x y, first ≤ i → i < last → first ≤ j → j < last → tr.items[i]? = some x → tr.items[j]? = some y →
        ∀ d < dim, Morton.Spec.SameCell K.toNat (Morton.Spec.bias t (x.values d)) (Morton.Spec.bias t (y.values d))} L := by
  obtain ⟨e1, e2, -⟩ := ensureSorted_spec hs (run_inv hs h)
  have hlen := e1.length_eq
  have ha : first < (ensureSorted srt (run srt (mortonCmpInt t dim) h)).items.length := by omega
  have hb : last - 1 < (ensureSorted srt (run srt (mortonCmpInt t dim) h)).items.length := by omega
  generalize hT : ensureSorted srt (run srt (mortonCmpInt t dim) h) = T at *
  refine ⟨T, mortonDistanceInt t dim T.items[first].values T.items[last - 1].values, ?_, e1, ?_⟩
  · unfold computeLevel deref
    rw [hT]
    simp only [if_pos (show last ≠ first by omega), if_neg (show ¬last = 0 by omega), List.getElem?_eq_getElem ha, List.getElem?_eq_getElem hb, bind, Except.bind]
    rfl
  · have hle : ∀ (i j : ℕ) (x y : Item (ℕ → BitVec t.w)), i ≤ j → T.items[i]? = some x → T.items[j]? = some y → mortonCmpInt t dim y.values x.values = false := by
      intro i j x y hij hx hy
      rcases Nat.lt_or_eq_of_le hij with hlt | rfl
      · exact sorted_get e2 hlt hx hy
      · rw [hx] at hy
        rw [← Option.some.inj hy]
        exact (mortonCmpInt_strictWeak t dim h0 h1).irrefl _
    have gF := List.getElem?_eq_getElem ha
    have gL := List.getElem?_eq_getElem hb
    have hkey : ∀ i j x y, first ≤ i → i ≤ j → j < last → T.items[i]? = some x → T.items[j]? = some y →
        mortonDistanceInt t dim x.values y.values ≤ mortonDistanceInt t dim T.items[first].values T.items[last - 1].values := by
      intro i j x y hi hij hj hx hy
      have a1 := (C12_order t dim h0 h1 _ _ _ (hle first i _ _ hi gF hx) (hle i j _ _ hij hx hy)).2
      have a2 := (C12_order t dim h0 h1 _ _ _ (hle first j _ _ (by omega) gF hy) (hle j (last - 1) _ _ (by omega) hy gL)).1
      omega
    constructor
    · have hnn := ((C12_distance_cell t dim T.items[first].values T.items[last - 1].values).1).1
      refine ⟨hnn, ?_⟩
      intro i j x y hi hi' hj hj' hx hy
      rcases Nat.le_total i j with hij | hij
      · have := hkey i j x y hi hij hj' hx hy
        exact ((distLoop_le t x.values y.values dim _).1 this).2
      · have := hkey j i y x hj hij hi' hy hx
        intro d hd
        exact (((distLoop_le t y.values x.values dim _).1 this).2 d hd).symm
    · rintro K ⟨hK, hall⟩
      exact (distLoop_le t _ _ dim K).2 ⟨hK, hall first (last - 1) _ _ (le_refl _) hfl (by omega) (by omega) gF gL⟩

/-- C15, empty range at the end: the iterator is dereferenced all the same. -/
theorem C15_empty_end (srt : List (Item V) → List (Item V)) (dist : V → V → ℤ) (tr : Tree V) (p : ℕ)
    (hp : p = (ensureSorted srt tr).items.length) : computeLevel srt dist tr p p = .error (.ub .outOfBounds) := by
  unfold computeLevel deref
  simp only [List.getElem?_eq_none (le_of_eq hp.symm)]
  rw [if_neg (not_not.2 rfl)]
  rfl

/-- C15, a range that ends at the first position and begins elsewhere: the position before the first one is asked for. -/
theorem C15_empty_begin (srt : List (Item V) → List (Item V)) (dist : V → V → ℤ) (tr : Tree V) (p : ℕ) (hp : 0 < p) :
    computeLevel srt dist tr p 0 = .error (.ub .iterInvalid) := by
  unfold computeLevel
  rw [if_pos (by omega)]
  rfl

example : (computeLevel (isort (mortonCmpInt .i32 2)) (mortonDistanceInt .i32 2)
    (run (isort (mortonCmpInt .i32 2)) (mortonCmpInt .i32 2) exHist) 1 4).toOption.map Prod.snd = some 4 := by decide +kernel

/-! ### C16: searchInBox -/

/-- The point is inside the box. -/
def InBox (t : ITy) (dim : ℕ) (lo hi v : ℕ → BitVec t.w) : Prop := ∀ d < dim, t.val (lo d) ≤ t.val (v d) ∧ t.val (v d) ≤ t.val (hi d)

/-- C16 for one tree and one box. -/
def C16_at (shlNeg : Outcome Int) (t : ITy) (dim : ℕ) (srt : List (Item (ℕ → BitVec t.w)) → List (Item (ℕ → BitVec t.w)))
    (h : List (Op (ℕ → BitVec t.w))) (lo hi : ℕ → BitVec t.w) : Prop :=
  ∃ tr out, searchInBox srt (mortonCmpInt t dim) (splitInt shlNeg t dim) (run srt (mortonCmpInt t dim) h) lo hi = .ok (tr, out) ∧
    ∀ p, p ∈ out ↔ ∃ x, tr.items[p]? = some x ∧ InBox t dim lo hi x.values

/-- C16, full statement. -/
def C16_statement : Prop :=
  ∀ (t : ITy) (dim : ℕ) (srt : List (Item (ℕ → BitVec t.w)) → List (Item (ℕ → BitVec t.w))), 0 < dim → IsSort (mortonCmpInt t dim) srt →
    ∀ h lo hi, C16_at strict t dim srt h lo hi

/-- `searchInBox` never reports any item: whenever it ends without undefined behaviour (whatever the value of `1 << -1`), its
result is empty. -/
theorem C16_reports_nothing (shlNeg : Outcome Int) (t : ITy) (dim : ℕ) (h0 : 0 < dim) (h1 : dim ≤ 2 ^ t.w)
    (srt : List (Item (ℕ → BitVec t.w)) → List (Item (ℕ → BitVec t.w))) (hs : IsSort (mortonCmpInt t dim) srt)
    (h : List (Op (ℕ → BitVec t.w))) (lo hi : ℕ → BitVec t.w) (tr : Tree (ℕ → BitVec t.w)) (out : List ℕ)
    (hr : searchInBox srt (mortonCmpInt t dim) (splitInt shlNeg t dim) (run srt (mortonCmpInt t dim) h) lo hi = .ok (tr, out)) :
    out = [] ∧ tr.items.Perm (run srt (mortonCmpInt t dim) h).items := by
  obtain ⟨e1, e2, -⟩ := ensureSorted_spec hs (run_inv hs h)
  unfold searchInBox at hr
  simp only [bind, Except.bind] at hr
  split at hr
  · cases hr
  · split at hr
    · cases hr
    · split at hr
      · cases hr
      · rename_i o ho
        have := Except.ok.inj hr
        obtain ⟨rfl, rfl⟩ := Prod.mk.inj this
        exact ⟨searchLoop_nothing (mortonCmpInt_strictWeak t dim h0 h1) (splitInt_upp shlNeg t dim h0 h1) e2 _ _ _ _ ho, e1⟩

/-- C16 restricted to boxes without items (and runs without undefined behaviour). Missing: everything else, see
`C16_reports_nothing` and the violations. -/
theorem C16_partial (shlNeg : Outcome Int) (t : ITy) (dim : ℕ) (h0 : 0 < dim) (h1 : dim ≤ 2 ^ t.w)
    (srt : List (Item (ℕ → BitVec t.w)) → List (Item (ℕ → BitVec t.w))) (hs : IsSort (mortonCmpInt t dim) srt)
    (h : List (Op (ℕ → BitVec t.w))) (lo hi : ℕ → BitVec t.w)
    (hok : ∃ r, searchInBox srt (mortonCmpInt t dim) (splitInt shlNeg t dim) (run srt (mortonCmpInt t dim) h) lo hi = .ok r)
    (hbox : ∀ x ∈ (run srt (mortonCmpInt t dim) h).items, ¬ InBox t dim lo hi x.values) : C16_at shlNeg t dim srt h lo hi := by
  obtain ⟨⟨tr, out⟩, hr⟩ := hok
  obtain ⟨rfl, hp⟩ := C16_reports_nothing shlNeg t dim h0 h1 srt hs h lo hi tr out hr
  refine ⟨tr, [], hr, fun p => ?_⟩
  simp only [List.not_mem_nil, false_iff, not_exists, not_and]
  intro x hx
  exact hbox x (hp.mem_iff.1 (List.mem_of_getElem? hx))

/-- A box whose upper corner comes after all the items in Morton order is undefined behaviour: `end()` is dereferenced. -/
theorem C16_end_violated (shlNeg : Outcome Int) (t : ITy) (dim : ℕ) (h0 : 0 < dim) (h1 : dim ≤ 2 ^ t.w)
    (srt : List (Item (ℕ → BitVec t.w)) → List (Item (ℕ → BitVec t.w))) (hs : IsSort (mortonCmpInt t dim) srt)
    (h : List (Op (ℕ → BitVec t.w))) (lo hi : ℕ → BitVec t.w)
    (hall : ∀ x ∈ (run srt (mortonCmpInt t dim) h).items, Morton.Spec.mcode t dim x.values < Morton.Spec.mcode t dim hi) :
    searchInBox srt (mortonCmpInt t dim) (splitInt shlNeg t dim) (run srt (mortonCmpInt t dim) h) lo hi = .error (.ub .outOfBounds) := by
  obtain ⟨e1, e2, -⟩ := ensureSorted_spec hs (run_inv hs h)
  obtain ⟨l1, l2, l3⟩ := lowerBound_spec (mortonCmpInt_strictWeak t dim h0 h1) e2 hi
  generalize hT : ensureSorted srt (run srt (mortonCmpInt t dim) h) = T at *
  have hend : lowerBound (mortonCmpInt t dim) T.items hi = T.items.length := by
    by_contra hne
    have hlt : lowerBound (mortonCmpInt t dim) T.items hi < T.items.length := by omega
    have h3 := l3 _ _ (le_refl _) (List.getElem?_eq_getElem hlt)
    rw [Bool.eq_false_iff, ne_eq, mortonCmpInt_iff t dim _ _ h0 h1] at h3
    exact h3 (hall _ (e1.mem_iff.1 (List.getElem_mem hlt)))
  have hd : deref T.items (lowerBound (mortonCmpInt t dim) T.items hi) = .error (.ub .outOfBounds) := by
    unfold deref
    rw [hend, List.getElem?_eq_none (le_refl _)]
  unfold searchInBox
  simp only [hT]
  cases hf : deref T.items (upperBound (mortonCmpInt t dim) T.items lo) with
  | ok x => simp only [bind, Except.bind, hd]
  | error e =>
    simp only [bind, Except.bind]
    unfold deref at hf
    split at hf
    · cases hf
    · rw [← Except.error.inj hf]

/-- The code violates C16 (without undefined behaviour): the points (1, 1) and (2, 2) are in the box from (0, 0) to (2, 2),
the result is empty. -/
theorem C16_violated : ¬ C16_statement ∧
    ∃ tr, searchInBox (isort (mortonCmpInt .i32 2)) (mortonCmpInt .i32 2) (splitInt strict .i32 2)
      (run (isort (mortonCmpInt .i32 2)) (mortonCmpInt .i32 2) exHist) (v2 0 0) (v2 2 2) = .ok (tr, []) ∧
      ∃ x, tr.items[1]? = some x ∧ InBox .i32 2 (v2 0 0) (v2 2 2) x.values := by
  have e : (searchInBox (isort (mortonCmpInt .i32 2)) (mortonCmpInt .i32 2) (splitInt strict .i32 2)
      (run (isort (mortonCmpInt .i32 2)) (mortonCmpInt .i32 2) exHist) (v2 0 0) (v2 2 2)).toOption.map
        (fun r => (r.2, r.1.items[1]?.map fun x => (x.values 0, x.values 1))) = some ([], some (1#32, 1#32)) := by decide +kernel
  have hs := isort_isSort (mortonCmpInt_strictWeak .i32 2 (by decide) (by decide))
  cases hr : searchInBox (isort (mortonCmpInt .i32 2)) (mortonCmpInt .i32 2) (splitInt strict .i32 2)
      (run (isort (mortonCmpInt .i32 2)) (mortonCmpInt .i32 2) exHist) (v2 0 0) (v2 2 2) with
  | error err => rw [hr] at e; cases e
  | ok r =>
    obtain ⟨tr, out⟩ := r
    rw [hr] at e
    simp only [Except.toOption, Option.map_some, Option.some.injEq, Prod.mk.injEq] at e
    obtain ⟨rfl, e2⟩ := e
    cases hx : tr.items[1]? with
    | none => rw [hx] at e2; cases e2
    | some x =>
      rw [hx] at e2
      simp only [Option.map_some, Option.some.injEq, Prod.mk.injEq] at e2
      have hin : InBox .i32 2 (v2 0 0) (v2 2 2) x.values := by
        intro d hd
        have : d = 0 ∨ d = 1 := by omega
        rcases this with rfl | rfl
        · rw [e2.1]; decide
        · rw [e2.2]; decide
      refine ⟨fun hst => ?_, tr, rfl, x, hx, hin⟩
      obtain ⟨tr', out', h1, h2⟩ := hst .i32 2 (isort (mortonCmpInt .i32 2)) (by decide) hs exHist (v2 0 0) (v2 2 2)
      rw [hr] at h1
      obtain ⟨rfl, rfl⟩ := Prod.mk.inj (Except.ok.inj h1)
      have := (h2 1).2 ⟨x, hx, hin⟩
      simp at this

end Verif.MortonTree
