import Verif.MortonTree.WidthProps

/-! Property theorem C135, exact form (see properties.jsonl): which histories of insertions have the identifiers 0, 1, ... -/
namespace Verif.MortonTree
open Verif
variable {V : Type}

/-- All the identifiers are in the range of `int`. -/
def Low (l : List (Item V)) : Prop := ∀ x ∈ l, x.id ≤ 2147483647

theorem ofSize_le (n : ℕ) : Cxx.ofSize n ≤ 2147483647 := by
  unfold Cxx.ofSize
  rw [Int.bmod_def]
  split_ifs <;> omega

theorem low_insertW {t : Tree V} (h : Low t.items) (x : Item V) : Low (insertW t x true).items := by
  intro y hy
  unfold insertW at hy
  rcases List.mem_append.1 hy with hy | hy
  · exact h y hy
  · have e : y.id = Cxx.ofSize t.items.length := by rw [List.mem_singleton.1 hy, if_pos rfl]
    rw [e]
    exact ofSize_le _

theorem low_loop (xs : List (Item V)) : ∀ (t : Tree V) (i : ℤ) (t' : Tree V), Low t.items → insertLoopW t i true xs = .ok t' → Low t'.items := by
  induction xs with
  | nil => intro t i t' h e; rw [← Except.ok.inj e]; exact h
  | cons x xs ih =>
    intro t i t' h e
    unfold insertLoopW at e
    simp only at e
    cases hi : Cxx.int (i + 1) with
    | error _ => rw [hi] at e; cases e
    | ok j =>
      rw [hi, bind_ok] at e
      exact ih _ j t' (low_insertW h _) e

theorem low_conv (xs : List (Item V)) : ∀ l : List (Item V), Low l → Low (insertConvLoopW id true l xs) := by
  induction xs with
  | nil => intro l h; exact h
  | cons x xs ih =>
    intro l h
    unfold insertConvLoopW
    refine ih _ fun y hy => ?_
    rcases List.mem_append.1 hy with hy | hy
    · exact h y hy
    · have e : y.id = Cxx.ofSize l.length := by rw [List.mem_singleton.1 hy, if_pos rfl]
      rw [e]
      exact ofSize_le _

theorem low_step {cmp : V → V → Bool} {srt : List (Item V) → List (Item V)} (hs : IsSort cmp srt) {t t' : Tree V} (h : Low t.items) {o : Op V} (hr : Resets o) (e : stepW srt cmp t o = .ok t') : Low t'.items := by
  cases o with
  | insert x r =>
    cases hr
    rw [← Except.ok.inj e]
    exact low_insertW h x
  | insertRange xs r =>
    cases hr
    change insertRangeW t xs true = _ at e
    unfold insertRangeW at e
    cases hl : insertLoopW t (Cxx.ofSize t.items.length) true xs with
    | error _ => rw [hl] at e; cases e
    | ok t1 =>
      rw [hl, bind_ok] at e
      rw [← Except.ok.inj e]
      exact low_loop xs t _ t1 h hl
  | insertConv xs r =>
    cases hr
    rw [← Except.ok.inj e]
    exact low_conv xs _ h
  | findItem q =>
    rw [← Except.ok.inj e]
    show Low (ensureSorted srt t).items
    unfold ensureSorted
    split
    · exact fun x hx => h x ((hs _).1.mem_iff.1 hx)
    · exact h

theorem low_run {cmp : V → V → Bool} {srt : List (Item V) → List (Item V)} (hs : IsSort cmp srt) (h : List (Op V)) : ∀ (t t' : Tree V), Low t.items → (∀ o ∈ h, Resets o) →
    h.foldlM (stepW srt cmp) t = .ok t' → Low t'.items := by
  induction h with
  | nil => intro t t' hl _ e; rw [← Except.ok.inj e]; exact hl
  | cons o os ih =>
    intro t t' hl hr e
    rw [List.foldlM_cons] at e
    cases ho : stepW srt cmp t o with
    | error _ => rw [ho] at e; cases e
    | ok t1 =>
      rw [ho, bind_ok] at e
      exact ih t1 t' (low_step hs hl (hr o (by simp)) ho) (fun o ho => hr o (by simp [ho])) e

/-- The ranges inserted leave the tree with fewer than 2^31 items. -/
def RangesFit (n : ℕ) (h : List (Op V)) : Prop :=
  ∀ h1 xs r h2, h = h1 ++ .insertRange xs r :: h2 → xs ≠ [] → n + (h1.flatMap valuesOf).length + xs.length < 2147483648

theorem runW_fit {cmp : V → V → Bool} {srt : List (Item V) → List (Item V)} (hs : IsSort cmp srt) (h : List (Op V)) : ∀ t : Tree V, t.items.length + (h.flatMap valuesOf).length ≤ 2147483648 →
    RangesFit t.items.length h → h.foldlM (stepW srt cmp) t = .ok (h.foldl (step srt cmp) t) := by
  induction h with
  | nil => intro t _ _; rfl
  | cons o os ih =>
    intro t hl hf
    rw [List.flatMap_cons, List.length_append] at hl
    have e : stepW srt cmp t o = .ok (step srt cmp t o) := by
      cases o with
      | insert x r =>
        show Except.ok (insertW t x r) = _
        rw [insertW_eq (by simp [valuesOf] at hl; omega)]
        rfl
      | insertRange xs r =>
        by_cases hx : xs = []
        · subst hx; rfl
        · have := hf [] xs r os rfl hx
          simp only [List.flatMap_nil, List.length_nil] at this
          exact stepW_eq t _ (by simpa [valuesOf] using this)
      | insertConv xs r =>
        show Except.ok (insertConvW id t xs r) = _
        unfold insertConvW
        rw [insertConvLoopW_eq r xs t.items (by simp [valuesOf] at hl; omega)]
        rfl
      | findItem q => rfl
    rw [List.foldlM_cons, e, bind_ok, List.foldl_cons]
    refine ih _ (by rw [step_length hs]; omega) fun h1 xs r h2 e1 hx => ?_
    have := hf (o :: h1) xs r h2 (by rw [e1]; rfl) hx
    rw [List.flatMap_cons, List.length_append] at this
    rw [step_length hs]
    omega

/-- **C135**, exact condition: the identifiers of a history are 0, 1, ... if and only if it inserts at most 2^31 items and no range makes the tree reach 2^31 items. -/
theorem C135_iff (cmp : V → V → Bool) (srt : List (Item V) → List (Item V)) (hs : IsSort cmp srt) (h : List (Op V)) (hr : ∀ o ∈ h, Resets o) :
    (∃ t, runW srt cmp h = .ok t ∧ (t.items.map Item.id).Perm ((List.range (h.flatMap valuesOf).length).map Int.ofNat)) ↔
    (h.flatMap valuesOf).length ≤ 2147483648 ∧ ∀ h1 xs r h2, h = h1 ++ .insertRange xs r :: h2 → xs ≠ [] → (h1.flatMap valuesOf).length + xs.length < 2147483648 := by
  constructor
  · rintro ⟨t, e, hp⟩
    have hlow : Low t.items := low_run hs h new t (by intro x hx; simp [new] at hx) hr e
    have hn : (h.flatMap valuesOf).length ≤ 2147483648 := by
      by_contra hlt
      have : Int.ofNat 2147483648 ∈ t.items.map Item.id := hp.mem_iff.2 (List.mem_map.2 ⟨2147483648, List.mem_range.2 (by omega), rfl⟩)
      obtain ⟨x, hx, hxe⟩ := List.mem_map.1 this
      have := hlow x hx
      rw [hxe] at this
      exact absurd this (by decide)
    refine ⟨hn, fun h1 xs r h2 e1 hx => ?_⟩
    by_contra hlt
    have hx0 : 0 < xs.length := List.length_pos_iff.2 hx
    have hle : (h1.flatMap valuesOf).length + xs.length ≤ 2147483648 := by
      rw [e1, List.flatMap_append, List.flatMap_cons, List.length_append, List.length_append] at hn
      have : (valuesOf (Op.insertRange xs r)).length = xs.length := by simp [valuesOf]
      omega
    have e2 := runW_eq hs h1 (by omega)
    have hlen : (run srt cmp h1).items.length = (h1.flatMap valuesOf).length := by
      have gen : ∀ (h : List (Op V)) (t : Tree V), (h.foldl (step srt cmp) t).items.length = t.items.length + (h.flatMap valuesOf).length := by
        intro h
        induction h with
        | nil => intro t; rfl
        | cons o os ih => intro t; rw [List.foldl_cons, ih, step_length hs, List.flatMap_cons, List.length_append]; omega
      have := gen h1 new
      have e0 : (new : Tree V).items.length = 0 := rfl
      rw [e0, Nat.zero_add] at this
      exact this
    have e3 : stepW srt cmp (run srt cmp h1) (.insertRange xs r) = .error (.ub .overflow) := C135_range_violated _ xs r (by omega) (by omega)
    unfold runW at e e2
    rw [e1, List.foldlM_append, e2, bind_ok, List.foldlM_cons, e3] at e
    cases e
  · rintro ⟨hn, hf⟩
    refine ⟨run srt cmp h, runW_fit hs h new (by simpa [new] using hn) (fun h1 xs r h2 e hx => by simpa [new] using hf h1 xs r h2 e hx), ?_⟩
    have hk : ∀ o ∈ h, KeepsOnlyMinusOne o := by
      intro o ho
      have := hr o ho
      cases o with
      | insert x r => intro hf; rw [show r = true from this] at hf; cases hf
      | insertRange xs r => intro hf; rw [show r = true from this] at hf; cases hf
      | insertConv xs r => trivial
      | findItem q => trivial
    have hp := (C13_insert_partial cmp srt hs h hk).map Prod.snd
    rw [expected_ids h hr] at hp
    have e : (pairs (run srt cmp h).items).map Prod.snd = (run srt cmp h).items.map Item.id := by
      unfold pairs
      rw [List.map_map]
      rfl
    rwa [e] at hp

-- the limit is sharp: 2^31 items inserted with a converter have the identifiers 0, 1, ..., as a range they have undefined behaviour
example (V : Type) (cmp : V → V → Bool) (srt : List (Item V) → List (Item V)) (hs : IsSort cmp srt) (x : Item V) :
    (∃ t, runW srt cmp [.insertConv (List.replicate 2147483648 x) true] = .ok t ∧ (t.items.map Item.id).Perm ((List.range 2147483648).map Int.ofNat)) ∧
    runW srt cmp [.insertRange (List.replicate 2147483648 x) true] = .error (.ub .overflow) := by
  have hl : (List.replicate 2147483648 x).length = 2147483648 := List.length_replicate
  generalize List.replicate 2147483648 x = l at hl
  constructor
  · have := (C135_iff cmp srt hs [.insertConv l true] (by intro o ho; rw [List.mem_singleton.1 ho]; exact rfl)).2
      ⟨by simp [valuesOf, hl], fun h1 xs r h2 e => by
        cases h1 with
        | nil => cases e
        | cons a h1 => simp at e⟩
    have e : ([Op.insertConv l true].flatMap valuesOf).length = 2147483648 := by simp [valuesOf, hl]
    rwa [e] at this
  · unfold runW
    rw [List.foldlM_cons]
    rw [show stepW srt cmp new (.insertRange l true) = .error (.ub .overflow) from C135_range_violated new l true (by simp [new]) (by rw [hl]; simp [new])]
    rfl

end Verif.MortonTree
