import Verif.Heap.Order

/-! Half of the order of the heap: the elements on the even levels precede their descendants. `popTop` preserves it also in
presence of equivalent elements, so that the top of the heap is right as long as nothing is pushed after a `popTop`. -/
namespace Verif.Heap
open Verif
variable {α β : Type} [LinearOrder β]

/-- The keys at the even levels are at most those of their children and grandchildren. -/
def MinOrd (n : ℕ) (k : ℕ → β) : Prop := ∀ u v, v < n → Below u v → par u = true → k u ≤ k v

/-- The same except for the descendants of `i`, which are at least the grandparent of `i`. -/
def MinPre (n : ℕ) (k : ℕ → β) (i : ℕ) : Prop :=
  (∀ u v, v < n → Below u v → par u = true → u ≠ i → k u ≤ k v) ∧ (2 < i → ∀ v, v < n → Below i v → k (grandparent i) ≤ k v)

theorem Ordered.minOrd {n : ℕ} {k : ℕ → β} (h : Ordered n true k) : MinOrd n k :=
  fun u v hv hb hu => (h u v hv hb).of_eq hu

theorem MinOrd.le_zero {n : ℕ} {k : ℕ → β} (h : MinOrd n k) (v : ℕ) (hv : v < n) : k 0 ≤ k v := by
  induction v using Nat.strong_induction_on with
  | _ v ih =>
    by_cases h0 : v = 0
    · rw [h0]
    by_cases hp : par v = true
    · have h2 : 2 < v := by
        by_contra hn
        have : v = 1 ∨ v = 2 := by omega
        rcases this with rfl | rfl
        · rw [par_one] at hp; cases hp
        · rw [par_two] at hp; cases hp
      have hl : grandparent v < v := by rw [grandparent_eq]; omega
      exact le_trans (ih _ hl (by omega)) (h _ v hv (Or.inr ⟨h2, rfl⟩) (by rw [par_grandparent h2, hp]))
    · have hl : parent v < v := by rw [parent_eq]; omega
      refine le_trans (ih _ hl (by omega)) (h _ v hv (Or.inl ⟨by omega, rfl⟩) ?_)
      have := par_parent (i := v) (by omega)
      rw [this] at hp
      simpa using hp

/-- Who is above a position, among the even levels. -/
theorem below_even {u v : ℕ} (h : Below u v) (hu : par u = true) :
    (par v = false ∧ 0 < v ∧ u = parent v) ∨ (par v = true ∧ 2 < v ∧ u = grandparent v) := by
  rcases h with ⟨h1, rfl⟩ | ⟨h1, rfl⟩
  · exact Or.inl ⟨by rw [par_parent h1, hu]; rfl, h1, rfl⟩
  · exact Or.inr ⟨by rw [← par_grandparent h1, hu], h1, rfl⟩

/-- The exchange with a grandchild `m` (and possibly of the grandchild with its parent). -/
theorem min_grand {n : ℕ} {k k' : ℕ → β} {i m : ℕ} (hs : par i = true) (hm : m < n) (h2 : 2 < m) (hg : grandparent m = i)
    (hpre : MinPre n k i) (hlt : k m < k i) (hbest : ∀ w, w < n → Below i w → k m ≤ k w)
    (ei : k' i = k m) (em : k m ≤ k' m) (ep : k m ≤ k' (parent m)) (eo : ∀ j, j ≠ i → j ≠ m → j ≠ parent m → k' j = k j) :
    MinPre n k' m := by
  have hpi : parent (parent m) = i := by rw [← grandparent_parent h2, hg]
  have hne : i < parent m ∧ parent m < m := by
    rw [← hpi]; constructor
    · have : 0 < parent m := by rw [parent_eq]; omega
      rw [parent_eq (parent m)]; omega
    · rw [parent_eq]; omega
  have hp0 : 0 < parent m := by omega
  have hpm : par m = true := by rw [← par_grandparent h2, hg, hs]
  have hpp : par (parent m) = false := by rw [par_parent hp0, hpi, hs]; rfl
  constructor
  · intro u v hv hb hu hum
    by_cases hui : u = i
    · subst hui
      rw [ei]
      by_cases hvm : v = m
      · rw [hvm]; exact em
      by_cases hvp : v = parent m
      · rw [hvp]; exact ep
      have := below_gt hb
      rw [eo v (by omega) hvm hvp]
      exact hbest v hv hb
    · have hup : u ≠ parent m := by rintro rfl; rw [hpp] at hu; cases hu
      rw [eo u hui hum hup]
      have hv1 : v ≠ m := by
        rintro rfl
        rcases below_even hb hu with ⟨h1, -⟩ | ⟨-, -, h1⟩
        · rw [hpm] at h1; cases h1
        · exact hui (h1.trans hg)
      have hv2 : v ≠ parent m := by
        rintro rfl
        rcases below_even hb hu with ⟨-, -, h1⟩ | ⟨h1, -⟩
        · exact hui (h1.trans hpi)
        · rw [hpp] at h1; cases h1
      by_cases hvi : v = i
      · subst hvi
        rw [ei]
        rcases below_even hb hu with ⟨h1, -⟩ | ⟨-, h3, h4⟩
        · rw [hs] at h1; cases h1
        · rw [h4]; exact hpre.2 h3 m hm (Or.inr ⟨h2, hg⟩)
      · rw [eo v hvi hv1 hv2]
        exact hpre.1 u v hv hb hu hui
  · intro _ v hv hb
    rw [hg, ei]
    have := below_gt hb
    rw [eo v (by omega) (by omega) (by omega)]
    exact hpre.1 m v hv hb hpm (by omega)

/-- The exchange with a child `c`. -/
theorem min_child {n : ℕ} {k k' : ℕ → β} {i c : ℕ} (hs : par i = true) (hc : c < n) (h0 : 0 < c) (hp : parent c = i)
    (hpre : MinPre n k i) (hlt : k c < k i) (hbest : ∀ w, w < n → Below i w → k c ≤ k w)
    (ei : k' i = k c) (ec : k' c = k i) (eo : ∀ j, j ≠ i → j ≠ c → k' j = k j) : MinOrd n k' := by
  have hpc : par c = false := by rw [par_parent h0, hp, hs]; rfl
  have hic : i < c := by rw [← hp, parent_eq]; omega
  intro u v hv hb hu
  by_cases hui : u = i
  · subst hui
    rw [ei]
    by_cases hvc : v = c
    · rw [hvc, ec]; exact hlt.le
    have := below_gt hb
    rw [eo v (by omega) hvc]
    exact hbest v hv hb
  · have huc : u ≠ c := by rintro rfl; rw [hpc] at hu; cases hu
    rw [eo u hui huc]
    have hvc : v ≠ c := by
      rintro rfl
      rcases below_even hb hu with ⟨-, -, h1⟩ | ⟨h1, -⟩
      · exact hui (h1.trans hp)
      · rw [hpc] at h1; cases h1
    by_cases hvi : v = i
    · subst hvi
      rw [ei]
      rcases below_even hb hu with ⟨h1, -⟩ | ⟨-, h3, h4⟩
      · rw [hs] at h1; cases h1
      · rw [h4]; exact hpre.2 h3 c hc (Or.inl ⟨h0, hp⟩)
    · rw [eo v hvi hvc]
      exact hpre.1 u v hv hb hu hui

/-- From an odd level, the exchange with a child `d`. -/
theorem min_odd {n : ℕ} {k k' : ℕ → β} {c d : ℕ} (hs : par c = false) (hcn : c < n) (hd : d < n) (h0 : 0 < d) (hp : parent d = c)
    (ho : MinOrd n k) (hlt : k d < k c) (ec : k' c = k d) (ed : k' d = k c) (eo : ∀ j, j ≠ c → j ≠ d → k' j = k j) :
    MinPre n k' d := by
  have hc0 : 0 < c := by
    rcases Nat.eq_zero_or_pos c with rfl | h
    · rw [par_zero] at hs; cases hs
    · exact h
  have hcd : c < d := by rw [← hp, parent_eq]; omega
  have hpd : par d = true := by rw [par_parent h0, hp, hs]; rfl
  have hd2 : 2 < d := by
    rw [parent_eq] at hp; omega
  have hgd : grandparent d = parent c := by rw [grandparent_parent hd2, hp]
  have hpp : par (parent c) = true := by
    have := par_parent hc0; rw [hs] at this; simpa using this.symm
  have hpl : parent c < c := by rw [parent_eq]; omega
  have h1 : k (parent c) ≤ k d := ho _ d hd (Or.inr ⟨hd2, hgd⟩) hpp
  constructor
  · intro u v hv hb hu hud
    have huc : u ≠ c := by rintro rfl; rw [hs] at hu; cases hu
    rw [eo u huc hud]
    by_cases hvc : v = c
    · subst hvc
      rw [ec]
      rcases below_even hb hu with ⟨-, -, h3⟩ | ⟨h3, -⟩
      · rw [h3]; exact h1
      · rw [hs] at h3; cases h3
    by_cases hvd : v = d
    · subst hvd
      rw [ed]
      exact le_trans (ho u v hv hb hu) hlt.le
    rw [eo v hvc hvd]
    exact ho u v hv hb hu
  · intro _ v hv hb
    have := below_gt hb
    rw [hgd, eo _ (by omega) (by omega), eo v (by omega) (by omega)]
    exact le_trans h1 (ho d v hv hb hpd)

theorem min_stop {n : ℕ} {k : ℕ → β} {i : ℕ} (h : MinPre n k i) (hk : ∀ w, w < n → Below i w → k i ≤ k w) : MinOrd n k := by
  intro u v hv hb hu
  by_cases hui : u = i
  · subst hui; exact hk v hv hb
  · exact h.1 u v hv hb hu hui

theorem heapDown_minOrd (key : α → β) (better : α → α → Bool) (hb : ∀ x y, better x y = true ↔ key x < key y)
    (fuel : ℕ) (v : Vec α) (i : ℕ) (hf : v.len < i + fuel) (h0 : 0 < fuel)
    (hpre : (par i = true ∧ MinPre v.len (fun j => key (v.val j)) i) ∨ (par i = false ∧ MinOrd v.len (fun j => key (v.val j)))) :
    ∃ v', heapDownLoop better true fuel v i = .ok v' ∧ v'.len = v.len ∧ MinOrd v'.len (fun j => key (v'.val j)) := by
  induction fuel generalizing v i with
  | zero => omega
  | succ fuel ih =>
    by_cases hi : i < v.len
    · obtain ⟨ic, ig, c, g, h⟩ := heapDown_step better true fuel v i hi
      obtain ⟨ic', c1, c2, c3, c4⟩ := childBest_ok better v i
      obtain ⟨ig', g1, g2, g3, g4⟩ := grandchildBest_ok better v i
      obtain rfl : ic' = ic := by rw [c] at c1; exact (Except.ok.inj c1).symm
      obtain rfl : ig' = ig := by rw [g] at g1; exact (Except.ok.inj g1).symm
      have hcb := childBest_best key better hb v i c
      have hgb := grandchildBest_best key better hb v i g
      have hpc : parent ic' = i := by rw [parent_eq]; omega
      have hgg : grandparent ig' = i := by rw [grandparent_eq]; omega
      rcases hpre with ⟨hs, hpre⟩ | ⟨hs, hpre⟩
      · rcases h with ⟨h1, h2, h3, h⟩ | ⟨hn, h⟩
        · rw [hb] at h2 h3
          have hic : ic' < v.len := by omega
          have hbest : ∀ w, w < v.len → Below i w → key (v.val ig') ≤ key (v.val w) := by
            rintro w hw (⟨w0, wp⟩ | ⟨w2, wg⟩)
            · exact le_trans h3.le (hcb w hw w0 wp)
            · exact hgb w hw w2 wg
          have hpl : parent ig' < v.len := by rw [parent_eq]; omega
          have hpne : parent ig' ≠ i ∧ parent ig' ≠ ig' ∧ i ≠ ig' := by rw [parent_eq]; omega
          have hbp : key (v.val ig') ≤ key (v.val (parent ig')) :=
            hbest _ hpl (Or.inl ⟨by rw [parent_eq]; omega, by rw [← grandparent_parent (by omega), hgg]⟩)
          obtain ⟨k1, k2, k3⟩ := key_sw key v i ig'
          have hpg : par ig' = true := by rw [← par_grandparent (by omega), hgg, hs]
          rcases h with ⟨hbt, e⟩ | ⟨hbt, e⟩
          · obtain ⟨l1, l2, l3⟩ := key_sw key (sw v i ig') (parent ig') ig'
            have hpre' := min_grand (k' := fun j => key ((sw (sw v i ig') (parent ig') ig').val j)) hs h1 (by omega) hgg hpre
              h2 hbest
              (by rw [l3 i (Ne.symm hpne.1) hpne.2.2, k1])
              (by rw [l2, k3 _ hpne.1 hpne.2.1]; exact hbp)
              (by rw [l1, k2]; exact h2.le)
              (fun j j1 j2 j3 => by rw [l3 j j3 j2, k3 j j1 j2])
            obtain ⟨v', r1, r2, r3⟩ := ih (sw (sw v i ig') (parent ig') ig') ig' (by show v.len < _; omega) (by omega)
              (Or.inl ⟨hpg, hpre'⟩)
            exact ⟨v', e.trans r1, r2, r3⟩
          · have hpre' := min_grand (k' := fun j => key ((sw v i ig').val j)) hs h1 (by omega) hgg hpre
              h2 hbest k1 (by rw [k2]; exact h2.le) (by rw [k3 _ hpne.1 hpne.2.1]; exact hbp) (fun j j1 j2 _ => k3 j j1 j2)
            obtain ⟨v', r1, r2, r3⟩ := ih (sw v i ig') ig' (by show v.len < _; omega) (by omega) (Or.inl ⟨hpg, hpre'⟩)
            exact ⟨v', e.trans r1, r2, r3⟩
        · rw [hb, hb] at hn
          rcases h with ⟨h1, h2, e⟩ | ⟨hn2, e⟩
          · rw [hb] at h2
            have hbest : ∀ w, w < v.len → Below i w → key (v.val ic') ≤ key (v.val w) := by
              rintro w hw (⟨w0, wp⟩ | ⟨w2, wg⟩)
              · exact hcb w hw w0 wp
              · have h5 := hgb w hw w2 wg
                have h6 : ig' < v.len := by rw [grandparent_eq] at wg; omega
                by_contra h7
                rw [not_le] at h7
                exact hn ⟨h6, lt_of_le_of_lt h5 (lt_trans h7 h2), lt_of_le_of_lt h5 h7⟩
            obtain ⟨k1, k2, k3⟩ := key_sw key v i ic'
            have hord := min_child (k' := fun j => key ((sw v i ic').val j)) hs h1 (by omega) hpc hpre h2 hbest k1 k2 k3
            rw [if_pos rfl] at e
            obtain ⟨v', r1, r2, r3⟩ := ih (sw v i ic') ic' (by show v.len < _; omega) (by omega)
              (Or.inr ⟨by rw [par_parent (by omega), hpc, hs]; rfl, hord⟩)
            exact ⟨v', e.trans r1, r2, r3⟩
          · rw [hb] at hn2
            refine ⟨v, e, rfl, min_stop hpre ?_⟩
            rintro w hw (⟨w0, wp⟩ | ⟨w2, wg⟩)
            · have hl : ic' < v.len := by rw [parent_eq] at wp; omega
              have : key (v.val i) ≤ key (v.val ic') := by
                by_contra h7; rw [not_le] at h7; exact hn2 ⟨hl, h7⟩
              exact le_trans this (hcb w hw w0 wp)
            · have hl : ig' < v.len := by rw [grandparent_eq] at wg; omega
              have hl2 : ic' < v.len := by rw [grandparent_eq] at wg; omega
              have h8 : key (v.val i) ≤ key (v.val ic') := by
                by_contra h7; rw [not_le] at h7; exact hn2 ⟨hl2, h7⟩
              have : key (v.val i) ≤ key (v.val ig') := by
                by_contra h7; rw [not_le] at h7; exact hn ⟨hl, h7, lt_of_lt_of_le h7 h8⟩
              exact le_trans this (hgb w hw w2 wg)
      · have hi0 : 0 < i := by
          rcases Nat.eq_zero_or_pos i with rfl | h
          · rw [par_zero] at hs; cases hs
          · exact h
        rcases h with ⟨h1, h2, h3, h⟩ | ⟨hn, h⟩
        · exfalso
          rw [hb] at h3
          have hpl : parent ig' < v.len := by rw [parent_eq]; omega
          have hp0 : 0 < parent ig' := by rw [parent_eq]; omega
          have hpi : parent (parent ig') = i := by rw [← grandparent_parent (by omega), hgg]
          have h5 := hcb _ hpl hp0 hpi
          have h6 := hpre (parent ig') ig' h1 (Or.inl ⟨by omega, rfl⟩) (by rw [par_parent hp0, hpi, hs]; rfl)
          exact absurd (lt_of_lt_of_le h3 (le_trans h5 h6)) (lt_irrefl _)
        · rcases h with ⟨h1, h2, e⟩ | ⟨hn2, e⟩
          · rw [hb] at h2
            obtain ⟨k1, k2, k3⟩ := key_sw key v i ic'
            have hpre' := min_odd (k' := fun j => key ((sw v i ic').val j)) hs hi h1 (by omega) hpc hpre h2 k1 k2 k3
            rw [if_pos rfl] at e
            obtain ⟨v', r1, r2, r3⟩ := ih (sw v i ic') ic' (by show v.len < _; omega) (by omega)
              (Or.inl ⟨by rw [par_parent (by omega), hpc, hs]; rfl, hpre'⟩)
            exact ⟨v', e.trans r1, r2, r3⟩
          · exact ⟨v, e, rfl, hpre⟩
    · refine ⟨v, ?_, rfl, ?_⟩
      · unfold heapDownLoop; rw [if_neg hi]; rfl
      · rcases hpre with ⟨-, hpre⟩ | ⟨-, hpre⟩
        · refine min_stop hpre ?_
          intro w hw hbe
          have := below_gt hbe
          omega
        · exact hpre

/-- `popTop` preserves the order of the even levels, also in presence of equivalent elements. -/
theorem popTop_minOrd (key : α → β) (cmp : α → α → Bool) (hc : ∀ x y, cmp x y = true ↔ key x < key y) (v : Vec α)
    (h : MinOrd v.len (fun j => key (v.val j))) (hl : v.len ≠ 0) :
    ∃ v', popTop cmp v = .ok v' ∧ v'.len = v.len - 1 ∧ MinOrd v'.len (fun j => key (v'.val j)) := by
  unfold popTop
  rw [if_neg hl, show (((v.len : ℕ) : ℕ) - 1 : ℕ) = v.len - 1 from rfl, swap_ok (by omega) (by omega)]
  simp only [bind_ok]
  unfold heapDownMin
  have hlen : (popBack (sw v 0 (v.len - 1))).len = v.len - 1 := rfl
  have hval : ∀ j, j ≠ 0 → j < v.len - 1 → (popBack (sw v 0 (v.len - 1))).val j = v.val j := by
    intro j h1 h2
    simp only [popBack, sw]
    rw [Equiv.swap_apply_of_ne_of_ne h1 (by omega)]
  have hpre : MinPre (popBack (sw v 0 (v.len - 1))).len (fun j => key ((popBack (sw v 0 (v.len - 1))).val j)) 0 := by
    refine ⟨?_, fun h => by omega⟩
    intro u w hw hb hp hu
    have hlt := below_gt hb
    rw [hlen] at hw
    have := h u w (by omega) hb hp
    beta_reduce at this ⊢
    rw [hval u hu (by omega), hval w (by omega) hw]
    exact this
  obtain ⟨v', r1, r2, r3⟩ := heapDown_minOrd key (fun a b => cmp a b) hc
    ((popBack (sw v 0 (v.len - 1))).len + 1) (popBack (sw v 0 (v.len - 1))) 0 (by omega) (by omega) (Or.inl ⟨par_zero, hpre⟩)
  exact ⟨v', r1, r2.trans hlen, r3⟩

end Verif.Heap
