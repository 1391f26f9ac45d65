import Verif.MortonTree.WidthModel
import Verif.MortonTree.Props
import Mathlib.Data.List.Basic
import Mathlib.Data.List.Range

/-! Property theorems C135 (see properties.jsonl): the identifiers are `int`. -/
namespace Verif.MortonTree
open Verif
variable {V : Type}

/-- The operation resets the identifiers. -/
def Resets : Op V → Prop
  | .insert _ r => r = true
  | .insertRange _ r => r = true
  | .insertConv _ r => r = true
  | .findItem _ => True

/-- C135, full statement. -/
def C135_statement : Prop :=
  ∀ (V : Type) (cmp : V → V → Bool) (srt : List (Item V) → List (Item V)), IsSort cmp srt → ∀ h : List (Op V), (∀ o ∈ h, Resets o) →
    ∃ t, runW srt cmp h = .ok t ∧ (t.items.map Item.id).Perm ((List.range (h.flatMap valuesOf).length).map Int.ofNat)

theorem bind_ok {β γ : Type} (x : β) (f : β → Outcome γ) : ((Except.ok x : Outcome β) >>= f) = f x := rfl

theorem ofSize_small {n : ℕ} (h : n < 2147483648) : Cxx.ofSize n = (n : ℤ) := by
  unfold Cxx.ofSize
  rw [Int.bmod_def]
  split_ifs <;> omega

theorem insertW_eq {t : Tree V} (h : t.items.length < 2147483648) (x : Item V) (r : Bool) : insertW t x r = insert t x r := by
  unfold insertW insert
  rw [ofSize_small h]

theorem insert_length (t : Tree V) (x : Item V) (r : Bool) : (insert t x r).items.length = t.items.length + 1 := by
  simp [insert]

theorem insertLoopW_eq (r : Bool) (xs : List (Item V)) (t : Tree V) (h : t.items.length + xs.length < 2147483648) :
    insertLoopW t t.items.length r xs = .ok (insertLoop t t.items.length r xs) := by
  induction xs generalizing t with
  | nil => rfl
  | cons x xs ih =>
    rw [List.length_cons] at h
    unfold insertLoopW insertLoop
    simp only
    rw [insertW_eq (t := t) (by omega), show Cxx.int ((t.items.length : ℤ) + 1) = .ok ((t.items.length : ℤ) + 1) from if_pos ⟨by omega, by omega⟩, bind_ok]
    have e := ih (insert t (if r = true then { x with id := (t.items.length : ℤ) } else x) r) (by rw [insert_length]; omega)
    rw [insert_length] at e
    push_cast at e
    exact e

theorem insertConvLoopW_eq (r : Bool) (xs : List (Item V)) (l : List (Item V)) (h : l.length + xs.length ≤ 2147483648) :
    insertConvLoopW id r l xs = insertConvLoop id r l xs := by
  induction xs generalizing l with
  | nil => rfl
  | cons x xs ih =>
    rw [List.length_cons] at h
    unfold insertConvLoopW insertConvLoop
    rw [ofSize_small (by omega)]
    exact ih _ (by rw [List.length_append, List.length_singleton]; omega)

theorem step_length {cmp : V → V → Bool} {srt : List (Item V) → List (Item V)} (hs : IsSort cmp srt) (t : Tree V) (o : Op V) :
    (step srt cmp t o).items.length = t.items.length + (valuesOf o).length := by
  cases o with
  | insert x r => simp [step, insert, valuesOf]
  | insertRange xs r =>
    have := congrArg List.length (insertLoop_items r xs t (t.items.length : ℤ))
    simpa [step, insertRange, valuesOf, pairs] using this
  | insertConv xs r =>
    have := congrArg List.length (insertConvLoop_items r xs t.items)
    simpa [step, insertConv, valuesOf, pairs] using this
  | findItem q =>
    simp only [step, findItem, valuesOf, List.length_nil, Nat.add_zero]
    unfold ensureSorted
    split
    · exact (hs _).1.length_eq
    · rfl

theorem stepW_eq {cmp : V → V → Bool} {srt : List (Item V) → List (Item V)} (t : Tree V) (o : Op V)
    (h : t.items.length + (valuesOf o).length < 2147483648) : stepW srt cmp t o = .ok (step srt cmp t o) := by
  cases o with
  | insert x r =>
    unfold stepW step
    simp only
    rw [insertW_eq (by simp [valuesOf] at h; omega)]
  | insertRange xs r =>
    unfold stepW step
    simp only
    unfold insertRangeW insertRange
    have h : t.items.length + xs.length < 2147483648 := by simpa [valuesOf] using h
    rw [ofSize_small (by omega), insertLoopW_eq r xs t h]
    rfl
  | insertConv xs r =>
    unfold stepW step
    simp only
    unfold insertConvW insertConv
    have h : t.items.length + xs.length < 2147483648 := by simpa [valuesOf] using h
    rw [insertConvLoopW_eq r xs t.items (by omega)]
  | findItem q => rfl

/-- Below 2^31 items every history returns, with the tree of C13. -/
theorem runW_eq {cmp : V → V → Bool} {srt : List (Item V) → List (Item V)} (hs : IsSort cmp srt) (h : List (Op V))
    (hn : (h.flatMap valuesOf).length < 2147483648) : runW srt cmp h = .ok (run srt cmp h) := by
  have gen : ∀ (h : List (Op V)) (t : Tree V), t.items.length + (h.flatMap valuesOf).length < 2147483648 →
      h.foldlM (stepW srt cmp) t = .ok (h.foldl (step srt cmp) t) := by
    intro h
    induction h with
    | nil => intro t _; rfl
    | cons o os ih =>
      intro t hl
      rw [List.flatMap_cons, List.length_append] at hl
      rw [List.foldlM_cons, stepW_eq t o (by omega), bind_ok, List.foldl_cons]
      exact ih _ (by rw [step_length hs]; omega)
  exact gen h new (by simpa [new] using hn)

theorem expected_ids (h : List (Op V)) (hr : ∀ o ∈ h, Resets o) :
    (expected h).map Prod.snd = (List.range (h.flatMap valuesOf).length).map Int.ofNat := by
  have ins : ∀ (n : ℕ) (st xs : List (V × ℤ)), st.map Prod.snd = (List.range n).map Int.ofNat →
      (Spec.insert st xs true).map Prod.snd = (List.range (n + xs.length)).map Int.ofNat := by
    intro n st xs hst
    have hl : st.length = n := by simpa using congrArg List.length hst
    unfold Spec.insert
    rw [List.map_append, hst, List.range_add, List.map_append, map_mapIdx']
    congr 1
    rw [hl]
    apply List.ext_getElem
    · simp
    · intro i h1 h2
      simp
  have gen : ∀ (h : List (Op V)) (n : ℕ) (st : List (V × ℤ)), (∀ o ∈ h, Resets o) → st.map Prod.snd = (List.range n).map Int.ofNat →
      (h.foldl specStep st).map Prod.snd = (List.range (n + (h.flatMap valuesOf).length)).map Int.ofNat := by
    intro h
    induction h with
    | nil => intro n st _ hst; simpa using hst
    | cons o os ih =>
      intro n st hr hst
      rw [List.flatMap_cons, List.length_append, ← Nat.add_assoc, List.foldl_cons]
      refine ih _ _ (fun o ho => hr o (by simp [ho])) ?_
      have ho := hr o (by simp)
      cases o with
      | insert x r => cases ho; simpa [specStep, valuesOf, pairs] using ins n st (pairs [x]) hst
      | insertRange xs r => cases ho; simpa [specStep, valuesOf, pairs] using ins n st (pairs xs) hst
      | insertConv xs r => cases ho; simpa [specStep, valuesOf, pairs] using ins n st (pairs xs) hst
      | findItem q => simpa [specStep, valuesOf] using hst
  have := gen h 0 [] hr rfl
  rwa [Nat.zero_add] at this

/-- **C135** restricted to histories that insert fewer than 2^31 items: the identifiers are 0, 1, ..., in some order. Missing: more items. -/
theorem C135_small_partial (cmp : V → V → Bool) (srt : List (Item V) → List (Item V)) (hs : IsSort cmp srt) (h : List (Op V))
    (hr : ∀ o ∈ h, Resets o) (hn : (h.flatMap valuesOf).length < 2147483648) :
    ∃ t, runW srt cmp h = .ok t ∧ (t.items.map Item.id).Perm ((List.range (h.flatMap valuesOf).length).map Int.ofNat) := by
  refine ⟨_, runW_eq hs h hn, ?_⟩
  have hk : ∀ o ∈ h, KeepsOnlyMinusOne o := by
    intro o ho
    have := hr o ho
    cases o with
    | insert x r => intro hf; rw [show r = true from this] at hf; cases hf
    | insertRange xs r => intro hf; rw [show r = true from this] at hf; cases hf
    | insertConv xs r => trivial
    | findItem q => trivial
  have hp := (C13_insert_partial cmp srt hs h hk).map Prod.snd
  rw [expected_ids h hr] at hp
  have e : (pairs (run srt cmp h).items).map Prod.snd = (run srt cmp h).items.map Item.id := by
    unfold pairs
    rw [List.map_map]
    rfl
  rwa [e] at hp

/-- **C135** fails for a range that makes the tree reach 2^31 items, with or without `resetId`: the counter `id` overflows. -/
theorem C135_range_violated (t : Tree V) (xs : List (Item V)) (r : Bool) (h1 : t.items.length < 2147483648)
    (h2 : 2147483648 ≤ t.items.length + xs.length) : insertRangeW t xs r = .error (.ub .overflow) := by
  have loop : ∀ (xs : List (Item V)) (t : Tree V) (k : ℕ), k < 2147483648 → 2147483648 ≤ k + xs.length →
      insertLoopW t (k : ℤ) r xs = .error (.ub .overflow) := by
    intro xs
    induction xs with
    | nil => intro t k h1 h2; rw [List.length_nil] at h2; omega
    | cons x xs ih =>
      intro t k h1 h2
      rw [List.length_cons] at h2
      unfold insertLoopW
      simp only
      by_cases hk : k + 1 < 2147483648
      · rw [show Cxx.int ((k : ℤ) + 1) = .ok ((k + 1 : ℕ) : ℤ) from by unfold Cxx.int; rw [if_pos ⟨by omega, by omega⟩]; push_cast; rfl, bind_ok]
        exact ih _ _ hk (by omega)
      · rw [show Cxx.int ((k : ℤ) + 1) = .error (.ub .overflow) from if_neg (by omega)]
        rfl
  unfold insertRangeW
  rw [ofSize_small h1, loop xs t _ h1 h2]
  rfl

/-- **C135** fails for single items: into a tree of 2^31 to 2^32 - 1 items (modulo 2^32) an item with a negative identifier is inserted. -/
theorem C135_negative_violated (t : Tree V) (x : Item V) (h : 2147483648 ≤ t.items.length % 4294967296) :
    (insertW t x true).items = t.items ++ [⟨x.values, ((t.items.length % 4294967296 : ℕ) : ℤ) - 4294967296⟩] := by
  have e : Cxx.ofSize t.items.length = ((t.items.length % 4294967296 : ℕ) : ℤ) - 4294967296 := by
    unfold Cxx.ofSize
    rw [Int.bmod_def]
    split_ifs <;> omega
  unfold insertW
  rw [e, if_pos rfl]

/-- **C135** fails for single items: two items inserted with a multiple of 2^32 items in between have the same identifier. -/
theorem C135_duplicate_violated (t t' : Tree V) (x x' : Item V) (h : t'.items.length % 4294967296 = t.items.length % 4294967296) :
    ((insertW t x true).items.getLast?).map Item.id = ((insertW t' x' true).items.getLast?).map Item.id := by
  have e : Cxx.ofSize t.items.length = Cxx.ofSize t'.items.length := by
    unfold Cxx.ofSize
    rw [Int.bmod_def, Int.bmod_def]
    split_ifs <;> omega
  unfold insertW
  rw [e]
  generalize Cxx.ofSize t'.items.length = n
  simp

/-- The code violates C135. -/
theorem C135_violated : ¬ C135_statement := by
  intro h
  have hw : Spec.StrictWeak (fun a b : ℕ => decide (a < b)) :=
    ⟨fun a => by simp, fun a b c => by simp only [decide_eq_true_eq]; omega, fun a b c => by simp only [decide_eq_false_iff_not]; omega⟩
  obtain ⟨t, ht, -⟩ := h ℕ (fun a b => decide (a < b)) (isort fun a b => decide (a < b)) (isort_isSort hw)
    [.insertRange (List.replicate 2147483648 ⟨0, 0⟩) true] (by intro o ho; rw [List.mem_singleton] at ho; subst ho; exact rfl)
  unfold runW at ht
  rw [List.foldlM_cons, show stepW (isort fun a b : ℕ => decide (a < b)) (fun a b => decide (a < b)) new
    (.insertRange (List.replicate 2147483648 ⟨0, 0⟩) true) = .error (.ub .overflow) from
      C135_range_violated new _ true (by simp [new]) (by rw [List.length_replicate]; exact Nat.le_add_left _ _)] at ht
  cases ht

-- three items, by range, converted and alone
example : (match runW (isort fun a b : ℕ => decide (a < b)) (fun a b => decide (a < b))
    [.insertRange [⟨5, 0⟩] true, .insertConv [⟨9, 70⟩] true, .findItem 6, .insert ⟨4, 8⟩ true] with
    | .ok t => some (pairs t.items)
    | .error _ => none) = some [(5, 0), (9, 1), (4, 2)] := by decide +kernel

end Verif.MortonTree
