import Verif.MortonTree.Model
import Verif.MortonTree.Spec
import Verif.Morton.Props
import Mathlib.Data.List.Pairwise
import Mathlib.Tactic.SplitIfs

/-! Lemmas on the Morton tree. -/
namespace Verif.MortonTree
open Verif
variable {V : Type}

/-- The items are in non-decreasing order. -/
def Sorted (cmp : V → V → Bool) (l : List (Item V)) : Prop := l.Pairwise fun a b => cmp b.values a.values = false

/-- Contract of `std::sort` with the comparator `cmp` (a strict weak order): a sorted permutation. -/
def IsSort (cmp : V → V → Bool) (srt : List (Item V) → List (Item V)) : Prop := ∀ l, (srt l).Perm l ∧ Sorted cmp (srt l)

/-- Bisection finds the partition point. -/
theorem bisect_spec {α : Type} (l : List α) (cond : α → Bool)
    (hpart : ∀ (i j : ℕ) x y, i < j → l[i]? = some x → l[j]? = some y → cond y = true → cond x = true) (n : ℕ) (first len : ℕ) (hn : len ≤ n)
    (h1 : first + len ≤ l.length) (h2 : ∀ (i : ℕ) x, i < first → l[i]? = some x → cond x = true)
    (h3 : ∀ (i : ℕ) x, first + len ≤ i → l[i]? = some x → cond x = false) :
    bisect l cond first len ≤ l.length ∧ (∀ (i : ℕ) x, i < bisect l cond first len → l[i]? = some x → cond x = true) ∧
      (∀ (i : ℕ) x, bisect l cond first len ≤ i → l[i]? = some x → cond x = false) := by
  induction n generalizing first len with
  | zero =>
    have : len = 0 := by omega
    subst this
    unfold bisect
    rw [if_pos rfl]
    exact ⟨by omega, h2, h3⟩
  | succ n ih =>
    unfold bisect
    by_cases h0 : len = 0
    · rw [if_pos h0]; subst h0; exact ⟨by omega, h2, h3⟩
    · rw [if_neg h0]
      simp only [Nat.shiftRight_eq_div_pow, Nat.pow_one]
      have hm : first + len / 2 < l.length := by omega
      rw [List.getElem?_eq_getElem hm]
      simp only
      by_cases hc : cond l[first + len / 2] = true
      · rw [if_pos hc]
        apply ih
        · omega
        · omega
        · intro i x hi hx
          by_cases e : i = first + len / 2
          · subst e
            rw [List.getElem?_eq_getElem hm] at hx
            rw [← Option.some.inj hx]; exact hc
          · exact hpart i _ x _ (by omega) hx (List.getElem?_eq_getElem hm) hc
        · intro i x hi hx; exact h3 i x (by omega) hx
      · rw [if_neg hc]
        apply ih
        · omega
        · omega
        · exact h2
        · intro i x hi hx
          by_cases e : i = first + len / 2
          · subst e
            rw [List.getElem?_eq_getElem hm] at hx
            rw [← Option.some.inj hx]; simpa using hc
          · by_contra hx'
            exact hc (hpart _ i _ x (by omega) (List.getElem?_eq_getElem hm) hx (by simpa using hx'))

theorem sorted_get {cmp : V → V → Bool} {l : List (Item V)} (h : Sorted cmp l) {i j : ℕ} {x y : Item V} (hij : i < j)
    (hx : l[i]? = some x) (hy : l[j]? = some y) : cmp y.values x.values = false := by
  obtain ⟨hi, rfl⟩ := List.getElem?_eq_some_iff.1 hx
  obtain ⟨hj, rfl⟩ := List.getElem?_eq_some_iff.1 hy
  exact List.pairwise_iff_getElem.1 h i j hi hj hij

theorem lowerBound_spec {cmp : V → V → Bool} (hw : Spec.StrictWeak cmp) {l : List (Item V)} (h : Sorted cmp l) (q : V) :
    lowerBound cmp l q ≤ l.length ∧ (∀ i x, i < lowerBound cmp l q → l[i]? = some x → cmp x.values q = true) ∧
      (∀ i x, lowerBound cmp l q ≤ i → l[i]? = some x → cmp x.values q = false) := by
  refine bisect_spec l (fun x => cmp x.values q) ?_ l.length 0 l.length (le_refl _) (by omega) (fun i x hi => by omega) ?_
  · intro i j x y hij hx hy hc
    have := sorted_get h hij hx hy
    by_contra hx'
    have := hw.negTrans _ _ _ this (by simpa using hx')
    rw [this] at hc
    cases hc
  · intro i x hi hx
    rw [List.getElem?_eq_none (by omega)] at hx
    cases hx

theorem upperBound_spec {cmp : V → V → Bool} (hw : Spec.StrictWeak cmp) {l : List (Item V)} (h : Sorted cmp l) (q : V) :
    upperBound cmp l q ≤ l.length ∧ (∀ i x, i < upperBound cmp l q → l[i]? = some x → cmp q x.values = false) ∧
      (∀ i x, upperBound cmp l q ≤ i → l[i]? = some x → cmp q x.values = true) := by
  have := bisect_spec l (fun x => !cmp q x.values) ?_ l.length 0 l.length (le_refl _) (by omega) (fun i x hi => by omega) ?_
  · obtain ⟨h1, h2, h3⟩ := this
    exact ⟨h1, fun i x hi hx => by simpa using h2 i x hi hx, fun i x hi hx => by simpa using h3 i x hi hx⟩
  · intro i j x y hij hx hy hc
    have := sorted_get h hij hx hy
    have hc' : cmp q y.values = false := by simpa using hc
    simpa using hw.negTrans _ _ _ hc' this
  · intro i x hi hx
    rw [List.getElem?_eq_none (by omega)] at hx
    cases hx

/-! ### Histories -/

/-- Invariant: a tree marked as ordered is sorted. -/
def Inv (cmp : V → V → Bool) (t : Tree V) : Prop := t.ordered = true → Sorted cmp t.items

theorem ensureSorted_spec {cmp : V → V → Bool} {srt : List (Item V) → List (Item V)} (hs : IsSort cmp srt) {t : Tree V} (h : Inv cmp t) :
    (ensureSorted srt t).items.Perm t.items ∧ Sorted cmp (ensureSorted srt t).items ∧ (ensureSorted srt t).ordered = true := by
  unfold ensureSorted
  cases ho : t.ordered
  · simp only [Bool.not_false, if_true]
    exact ⟨(hs _).1, (hs _).2, rfl⟩
  · simp only [Bool.not_true, Bool.false_eq_true, if_false]
    exact ⟨List.Perm.refl _, h ho, ho⟩

theorem step_inv {cmp : V → V → Bool} {srt : List (Item V) → List (Item V)} (hs : IsSort cmp srt) {t : Tree V} (h : Inv cmp t) (o : Op V) :
    Inv cmp (step srt cmp t o) := by
  cases o with
  | insert x r => intro h'; cases h'
  | insertRange xs r => intro h'; cases h'
  | insertConv xs r => intro h'; cases h'
  | findItem q => intro _; exact (ensureSorted_spec hs h).2.1

theorem foldl_inv {cmp : V → V → Bool} {srt : List (Item V) → List (Item V)} (hs : IsSort cmp srt) (h : List (Op V)) (t : Tree V) (hi : Inv cmp t) :
    Inv cmp (h.foldl (step srt cmp) t) := by
  induction h generalizing t with
  | nil => exact hi
  | cons o os ih => exact ih _ (step_inv hs hi o)

theorem run_inv {cmp : V → V → Bool} {srt : List (Item V) → List (Item V)} (hs : IsSort cmp srt) (h : List (Op V)) :
    Inv cmp (run srt cmp h) := foldl_inv hs h new (fun _ => List.Pairwise.nil)

/-- The pairs stored. -/
def pairs (l : List (Item V)) : List (V × ℤ) := l.map fun x => (x.values, x.id)

theorem insertLoop_items (r : Bool) (xs : List (Item V)) (t : Tree V) (id : ℤ) :
    pairs (insertLoop t id r xs).items =
      pairs t.items ++ xs.mapIdx fun k x => (x.values, if r then ((t.items.length + k : ℕ) : ℤ) else -1) := by
  induction xs generalizing t id with
  | nil => simp [insertLoop]
  | cons x xs ih =>
    unfold insertLoop
    simp only
    rw [ih, List.mapIdx_cons]
    cases r
    · simp [insert, pairs]
    · simp only [insert, pairs, if_true, List.map_append, List.map_cons, List.map_nil, List.length_append, List.length_cons,
        List.length_nil, List.append_assoc, List.cons_append, List.nil_append, Nat.add_zero]
      congr 3
      funext k y
      congr 2
      omega

theorem insertConvLoop_items (r : Bool) (xs : List (Item V)) (l : List (Item V)) :
    pairs (insertConvLoop id r l xs) =
      pairs l ++ xs.mapIdx fun k x => (x.values, if r then ((l.length + k : ℕ) : ℤ) else x.id) := by
  induction xs generalizing l with
  | nil => simp [insertConvLoop]
  | cons x xs ih =>
    unfold insertConvLoop
    simp only [id]
    rw [ih, List.mapIdx_cons]
    cases r
    · simp [pairs]
    · simp only [pairs, if_true, List.map_append, List.map_cons, List.map_nil, List.length_append, List.length_cons,
        List.length_nil, List.append_assoc, List.cons_append, List.nil_append, Nat.add_zero]
      congr 3
      funext k y
      congr 2
      omega

/-! ### searchInBox -/

/-- The loop of `searchInBox` never reports anything when the upper corner computed by the split does not precede the second
argument: the upper bound of that corner is beyond the item at the end of the explored interval. -/
theorem searchLoop_nothing {cmp : V → V → Bool} (hw : Spec.StrictWeak cmp) {split : V → V → Outcome (Corners V)}
    (hsp : ∀ a b c, split a b = .ok c → cmp c.upp b = false) {items : List (Item V)} (h : Sorted cmp items) (n : ℕ)
    (queue : List (ℕ × ℕ)) (out r : List ℕ) (hr : searchLoop cmp split items n queue out = .ok r) : r = out := by
  induction n generalizing queue out with
  | zero => exact (Except.ok.inj hr).symm
  | succ n ih =>
    cases queue with
    | nil => exact (Except.ok.inj hr).symm
    | cons cur queue =>
      unfold searchLoop at hr
      cases hb : findTreeBucket cmp split items cur.1 cur.2 with
      | error e => rw [hb] at hr; cases hr
      | ok b =>
        obtain ⟨low, mid, upp⟩ := b
        rw [hb] at hr
        simp only [bind, Except.bind] at hr
        have hlt : cur.2 < upp := by
          unfold findTreeBucket deref at hb
          cases h1 : items[cur.1]? with
          | none => rw [h1] at hb; cases hb
          | some f =>
            cases h2 : items[cur.2]? with
            | none => rw [h1, h2] at hb; cases hb
            | some l =>
              rw [h1, h2] at hb
              simp only [bind, Except.bind] at hb
              cases hc : split f.values l.values with
              | error e => rw [hc] at hb; cases hb
              | ok c =>
                rw [hc] at hb
                simp only at hb
                have hu := upperBound_spec hw h c.upp
                have hle : cur.2 < upperBound cmp items c.upp := by
                  by_contra hnot
                  have := hu.2.2 cur.2 l (by omega) h2
                  rw [hsp _ _ _ hc] at this
                  cases this
                have : upp = upperBound cmp items c.upp := by
                  split at hb
                  · cases hb
                  · split at hb
                    · cases hb
                    · split at hb
                      · cases hb
                      · have := Except.ok.inj hb
                        simp only [Prod.mk.injEq] at this
                        exact this.2.2.symm
                omega
        rw [if_neg (by omega)] at hr
        exact ih _ _ hr

/-! ### Integer coordinates -/
open Verif.Morton Verif.NumericTraits

theorem mortonCmpInt_strictWeak (t : ITy) (dim : ℕ) (h0 : 0 < dim) (h1 : dim ≤ 2 ^ t.w) : Spec.StrictWeak (mortonCmpInt t dim) := by
  have key := fun v1 v2 => mortonCmpInt_iff t dim v1 v2 h0 h1
  have keyF : ∀ v1 v2, mortonCmpInt t dim v1 v2 = false ↔ Morton.Spec.mcode t dim v2 ≤ Morton.Spec.mcode t dim v1 := by
    intro v1 v2
    rw [Bool.eq_false_iff, ne_eq, key]
    omega
  refine ⟨fun a => (keyF a a).2 (le_refl _), fun a b c => ?_, fun a b c => ?_⟩
  · rw [key, key, key]; omega
  · rw [keyF, keyF, keyF]; omega

theorem interval_upp (shlNeg : Outcome Int) (t : ITy) (x y : BitVec t.w) (r : Pow2Interval t.w)
    (hr : intervalPow2Int shlNeg t x y = .ok r) : Morton.Spec.bias t y ≤ Morton.Spec.bias t r.upp := by
  by_cases hl : lev t x y < t.w
  · have h30 : lev t x y ≤ 30 := by
      by_contra hgt
      by_cases h31 : lev t x y = 31
      · unfold intervalPow2Int at hr
        simp only [level_eq, h31] at hr
        rw [if_pos (by rw [h31] at hl; exact_mod_cast hl)] at hr
        simp [shl1, Cxx.int, bind, Except.bind] at hr
      · unfold intervalPow2Int at hr
        simp only [level_eq] at hr
        rw [if_pos (by exact_mod_cast hl)] at hr
        have : shl1 (lev t x y : ℤ) = .error (.ub .shift) := by
          unfold shl1; rw [if_pos (by omega)]
        rw [this] at hr
        cases hr
    have hcond : x ≠ y ∨ ∃ m, shlNeg = .ok m := by
      by_cases hxy : x = y
      · right
        cases hs : shlNeg with
        | ok m => exact ⟨m, rfl⟩
        | error e =>
          exfalso
          have h0 := (lev_eq_zero t x y).2 hxy
          unfold intervalPow2Int at hr
          simp only [level_eq, h0] at hr
          rw [if_pos (by rw [h0] at hl; exact_mod_cast hl)] at hr
          simp [shl1, Cxx.int, bind, Except.bind, hs] at hr
      · exact Or.inl hxy
    obtain ⟨r', hr', g⟩ := interval_small shlNeg t x y h30 hl hcond
    obtain rfl := Except.ok.inj (hr.symm.trans hr')
    rw [g.upp]
    have hc : Morton.Spec.SameCell (lev t x y) (Morton.Spec.bias t x) (Morton.Spec.bias t y) := size_xor_le.1 (le_refl _)
    have := (cell_mem hc).2
    omega
  · have hl' : lev t x y = t.w := le_antisymm (lev_le t x y) (by omega)
    unfold intervalPow2Int at hr
    simp only [level_eq, hl'] at hr
    rw [if_neg (by omega)] at hr
    obtain rfl := Except.ok.inj hr
    obtain ⟨-, h2, -⟩ := const_bias t
    simp only
    rw [h2]
    have := bias_lt t y
    omega

theorem splitLoop_upp (shlNeg : Outcome Int) (t : ITy) (v1 v2 : ℕ → BitVec t.w) (n : ℕ) (s : Split t.w)
    (h : splitLoop shlNeg t v1 v2 n = .ok s) : ∀ d ≤ n, Morton.Spec.bias t (v2 d) ≤ Morton.Spec.bias t (s.upp d) := by
  induction n generalizing s with
  | zero =>
    intro d hd
    obtain rfl : d = 0 := by omega
    unfold splitLoop at h
    cases hi : intervalPow2Int shlNeg t (v1 0) (v2 0) with
    | error e => rw [hi] at h; cases h
    | ok r =>
      rw [hi] at h
      obtain rfl := Except.ok.inj h
      simpa [upd] using interval_upp shlNeg t _ _ r hi
  | succ n ih =>
    intro d hd
    unfold splitLoop at h
    cases hs : splitLoop shlNeg t v1 v2 n with
    | error e => rw [hs] at h; cases h
    | ok s' =>
      rw [hs] at h
      cases hi : intervalPow2Int shlNeg t (v1 (n + 1)) (v2 (n + 1)) with
      | error e => simp only [bind, Except.bind, hi] at h; cases h
      | ok r =>
        simp only [bind, Except.bind, hi] at h
        have hu : s.upp = upd s'.upp (n + 1) r.upp := by
          split at h <;> (obtain rfl := Except.ok.inj h; rfl)
        rw [hu]
        by_cases e : d = n + 1
        · subst e; simpa [upd] using interval_upp shlNeg t _ _ r hi
        · simpa [upd, e] using ih s' hs d (by omega)

theorem splitInt_upp (shlNeg : Outcome Int) (t : ITy) (dim : ℕ) (h0 : 0 < dim) (h1 : dim ≤ 2 ^ t.w) (v1 v2 : ℕ → BitVec t.w)
    (c : Corners (ℕ → BitVec t.w)) (h : splitInt shlNeg t dim v1 v2 = .ok c) : mortonCmpInt t dim c.upp v2 = false := by
  unfold splitInt mortonSplitInt at h
  cases hs : splitLoop shlNeg t v1 v2 (dim - 1) with
  | error e => rw [hs] at h; cases h
  | ok s =>
    rw [hs] at h
    obtain rfl := Except.ok.inj h
    rw [Bool.eq_false_iff, ne_eq, mortonCmpInt_iff t dim _ _ h0 h1, not_lt]
    apply code_mono h0 (fun d _ => bias_lt t _) (fun d _ => bias_lt t _)
    intro d hd
    exact splitLoop_upp shlNeg t v1 v2 _ s hs d (by omega)

end Verif.MortonTree
