import Verif.PeakFinder.Lemmas

/-! The two heaps of the peak finder. -/
namespace Verif.PeakFinder
open Verif Verif.Interval Verif.Interval.Spec Verif.PeakFinder.Spec Verif.Heap Verif.Heap.Spec
variable {V : Type}

theorem bind_inv {α β : Type} {x : Outcome α} {g : α → Outcome β} {b : β} (h : (x >>= g) = .ok b) : ∃ a, x = .ok a ∧ g a = .ok b := by
  cases x with
  | error e => cases h
  | ok a => exact ⟨a, rfl, h⟩

theorem card_content {α : Type} (v : Vec α) : Multiset.card (content v) = v.len := by simp [content]

theorem top_val {α : Type} (v : Vec α) (h : v.len ≠ 0) : top v = .ok (v.val 0) := by
  unfold top; rw [if_neg h]; exact Vec.get_nat v (i := 0) (by omega)

/-- With two elements or more, `nextTop` is not the element at the root. -/
theorem nextTop_other {α : Type} (cmp : α → α → Bool) (v : Vec α) (h : 2 ≤ v.len) :
    ∃ k, 0 < k ∧ k < v.len ∧ nextTop cmp v = .ok (v.val k) := by
  obtain ⟨im, i1, i2, i3, -⟩ := childBest_ok (fun a b => cmp a b) v 0
  obtain ⟨ig, j1, j2, j3, -⟩ := grandchildBest_ok (fun a b => cmp a b) v 0
  unfold nextTop
  rw [if_neg (by omega), if_neg (by omega)]
  by_cases h4 : v.len < 4
  · rw [if_pos h4, childMin, i1]
    exact ⟨im, by omega, i3 (by omega), Vec.get_nat v (i3 (by omega))⟩
  · rw [if_neg h4, grandchildMin, j1]
    exact ⟨ig, by omega, j3 (by omega), Vec.get_nat v (j3 (by omega))⟩

theorem pushList_ok (cmp : List ℤ → List ℤ → Bool) (L : List (List ℤ)) (v : Vec (List ℤ)) :
    ∃ v', L.foldlM (push cmp) v = .ok v' ∧ content v' = (L : Multiset (List ℤ)) + content v := by
  induction L generalizing v with
  | nil => exact ⟨v, rfl, by simp⟩
  | cons x L ih =>
    obtain ⟨v1, h1, -, h3⟩ := push_content cmp v x
    obtain ⟨v', e1, e2⟩ := ih v1
    refine ⟨v', (foldlM_cons (push cmp) v v1 x L h1).trans e1, ?_⟩
    rw [e2, h3, Multiset.add_cons, ← Multiset.cons_coe, Multiset.cons_add]

theorem pushList_ordered {β : Type} [LinearOrder β] (key : List ℤ → β) (cmp : List ℤ → List ℤ → Bool)
    (hc : ∀ x y, cmp x y = true ↔ key x < key y) (L : List (List ℤ)) (v v' : Vec (List ℤ))
    (ho : Ordered v.len true (fun j => key (v.val j))) (h : L.foldlM (push cmp) v = .ok v') :
    Ordered v'.len true (fun j => key (v'.val j)) := by
  induction L generalizing v with
  | nil => obtain rfl := Except.ok.inj h; exact ho
  | cons x L ih =>
    obtain ⟨v1, h1, h2⟩ := push_ordered key cmp hc v x ho
    exact ih v1 h2 ((foldlM_cons (push cmp) v v1 x L h1).symm.trans h)

/-- The eviction terminates, removes only cells outside of the window and leaves an empty heap or one whose top is inside. -/
theorem evict_ok (cmp : List ℤ → List ℤ → Bool) {W : Interval} (hW : Spec.Repr W) (fuel : ℕ) (v : Vec (List ℤ)) (hf : v.len < fuel)
    (hl : ∀ x ∈ content v, x.length = W.length) :
    ∃ v' P, evict cmp W fuel v = .ok v' ∧ content v = P + content v' ∧ (∀ x ∈ P, ¬ Mem W x) ∧
      (v'.len = 0 ∨ ∃ t, top v' = .ok t ∧ Mem W t) ∧
      ∀ {β : Type} [LinearOrder β] (key : List ℤ → β), (∀ x y, cmp x y = true ↔ key x < key y) →
        NoTies cmp (content v) → Ordered v.len true (fun j => key (v.val j)) → Ordered v'.len true (fun j => key (v'.val j)) := by
  induction fuel generalizing v with
  | zero => omega
  | succ fuel ih =>
    unfold evict
    by_cases h0 : v.len = 0
    · rw [if_pos h0]
      exact ⟨v, 0, rfl, by simp, by simp, Or.inl h0, fun _ _ _ h => h⟩
    · rw [if_neg h0]
      obtain ⟨t, v1, e1, e2, e3, e4⟩ := popTop_content cmp v h0
      obtain ⟨b, b1, b2⟩ := inside_ok hW (is := t) (hl t (by rw [e4]; simp))
      rw [e1]
      simp only [bind_ok]
      rw [b1]
      simp only [bind_ok]
      by_cases hb : b = true
      · rw [if_pos hb]
        exact ⟨v, 0, rfl, by simp, by simp, Or.inr ⟨t, e1, b2.1 hb⟩, fun _ _ _ h => h⟩
      · rw [if_neg hb, e2]
        simp only [bind_ok]
        obtain ⟨v', P, r1, r2, r3, r4, r5⟩ := ih v1 (by omega) (fun x hx => hl x (by rw [e4]; exact Multiset.mem_cons_of_mem hx))
        refine ⟨v', t ::ₘ P, r1, by rw [e4, r2, Multiset.cons_add], ?_, r4, ?_⟩
        · intro x hx
          rcases Multiset.mem_cons.1 hx with rfl | hx
          · exact fun hm => hb (b2.2 hm)
          · exact r3 x hx
        · intro β _ key hc ht ho
          obtain ⟨v1', g1, g2⟩ := popTop_ordered key cmp hc v ho h0 (noTies_key hc ht)
          obtain rfl := Except.ok.inj (g1.symm.trans e2)
          exact r5 key hc (NoTies.mono ht (by rw [e4]; exact Multiset.le_cons_self _ _)) g2

/-- The output of the peaks: all of them. -/
theorem drain_ok (cmp : List ℤ → List ℤ → Bool) (fuel : ℕ) (v : Vec (List ℤ)) (hf : v.len < fuel) :
    ∃ out, drain cmp fuel v = .ok out ∧ (out : Multiset (List ℤ)) = content v := by
  induction fuel generalizing v with
  | zero => omega
  | succ fuel ih =>
    unfold drain
    by_cases h0 : v.len = 0
    · rw [if_pos h0]
      exact ⟨[], rfl, by simp [content, h0]⟩
    · rw [if_neg h0]
      obtain ⟨t, v1, e1, e2, e3, e4⟩ := popTop_content cmp v h0
      obtain ⟨out, o1, o2⟩ := ih v1 (by omega)
      rw [e1, e2]
      simp only [bind_ok]
      rw [o1]
      exact ⟨t :: out, rfl, by rw [e4, ← o2]; rfl⟩

/-- ... from the first to the last, also in presence of equivalent elements. -/
theorem drain_sorted {β : Type} [LinearOrder β] (key : List ℤ → β) (cmp : List ℤ → List ℤ → Bool)
    (hc : ∀ x y, cmp x y = true ↔ key x < key y) (fuel : ℕ) (v : Vec (List ℤ)) (ho : MinOrd v.len (fun j => key (v.val j)))
    {out : List (List ℤ)} (h : drain cmp fuel v = .ok out) : out.Pairwise (fun a b => cmp b a = false) := by
  induction fuel generalizing v out with
  | zero => cases h
  | succ fuel ih =>
    unfold drain at h
    by_cases h0 : v.len = 0
    · rw [if_pos h0] at h
      obtain rfl := Except.ok.inj h
      exact List.Pairwise.nil
    · rw [if_neg h0] at h
      obtain ⟨t, ht, h⟩ := bind_inv h
      obtain ⟨v1, h1, h⟩ := bind_inv h
      obtain ⟨r, hr, h⟩ := bind_inv h
      obtain rfl := Except.ok.inj h
      obtain ⟨v1', e1, e2, e3⟩ := popTop_minOrd key cmp hc v ho h0
      obtain rfl := Except.ok.inj (e1.symm.trans h1)
      refine List.Pairwise.cons ?_ (ih v1' e3 hr)
      intro x hx
      have hfu : v1'.len < fuel := by
        by_contra hn
        obtain ⟨fuel', rfl⟩ | rfl : (∃ m, fuel = m + 1) ∨ fuel = 0 := by
          rcases fuel with _ | m
          · exact Or.inr rfl
          · exact Or.inl ⟨m, rfl⟩
        · exact absurd hr (drain_short cmp _ v1' (by omega) r)
        · cases hr
      obtain ⟨r', hr', hm⟩ := drain_ok cmp fuel v1' hfu
      obtain rfl := Except.ok.inj (hr'.symm.trans hr)
      obtain ⟨t', v2, f1, f2, f3, f4⟩ := popTop_content cmp v h0
      obtain rfl := Except.ok.inj (f2.symm.trans h1)
      have hx' : x ∈ content v := by
        rw [f4, ← hm]
        exact Multiset.mem_cons_of_mem (by simpa using hx)
      obtain ⟨j, hj, rfl⟩ := mem_content.1 hx'
      obtain rfl := Except.ok.inj (ht.symm.trans (top_val v h0))
      have := ho.le_zero j hj
      rw [Bool.eq_false_iff, ne_eq, hc, not_lt]
      exact this
where
  drain_short (cmp : List ℤ → List ℤ → Bool) (fuel : ℕ) (v : Vec (List ℤ)) (hf : fuel ≤ v.len) (out : List (List ℤ)) :
      drain cmp fuel v ≠ .ok out := by
    induction fuel generalizing v out with
    | zero => intro h; cases h
    | succ fuel ih =>
      intro h
      unfold drain at h
      rw [if_neg (by omega)] at h
      obtain ⟨t, ht, h⟩ := bind_inv h
      obtain ⟨v1, h1, h⟩ := bind_inv h
      obtain ⟨r, hr, h⟩ := bind_inv h
      obtain ⟨_, v1', -, e2, e3, -⟩ := popTop_content cmp v (by omega)
      obtain rfl := Except.ok.inj (e2.symm.trans h1)
      exact ih v1' (by omega) r hr

/-- What an iteration does to the heap of the peaks. -/
theorem body_maxima {f : Finder V} {map : List ℤ → V} {s s' : State} {c : List ℤ} (h : body f map s c = .ok s') :
    s'.prev = c ∧ ∃ b items, isPeak f map items c = .ok b ∧ body.pushPeak f map c b s.maxima = .ok s'.maxima := by
  unfold body at h
  obtain ⟨⟨d, k⟩, -, h⟩ := bind_inv h
  simp only at h
  obtain ⟨_, -, h⟩ := bind_inv h
  obtain ⟨_, -, h⟩ := bind_inv h
  obtain ⟨_, -, h⟩ := bind_inv h
  obtain ⟨_, -, h⟩ := bind_inv h
  obtain ⟨items, -, h⟩ := bind_inv h
  obtain ⟨b, hb, h⟩ := bind_inv h
  obtain ⟨mx, hm, h⟩ := bind_inv h
  obtain rfl := Except.ok.inj h
  exact ⟨rfl, b, items, hb, hm⟩

theorem isPeak_ok (f : Finder V) (map : List ℤ → V) (items : Vec (List ℤ)) (c : List ℤ) :
    ∃ b, isPeak f map items c = .ok b ∧ (b = true → f.enableFilterMinValue = false ∨ f.comp (map c) f.valueMin = true) := by
  unfold isPeak
  by_cases h : (!f.enableFilterMinValue || f.comp (map c) f.valueMin) = true
  · rw [if_pos h]
    have hp : f.enableFilterMinValue = false ∨ f.comp (map c) f.valueMin = true := by simpa using h
    by_cases h0 : items.len = 0
    · rw [if_pos h0]; exact ⟨_, rfl, fun _ => hp⟩
    · rw [if_neg h0, top_val items h0]
      simp only [bind_ok]
      by_cases h1 : f.comp (map (items.val 0)) (map c) = true
      · rw [if_pos h1]; exact ⟨_, rfl, fun _ => hp⟩
      · rw [if_neg h1]
        obtain ⟨-, -, -, -, n, -, -, -, -, -, hn, -⟩ := (C19_peek (f.cmp map) items).2 h0
        rw [hn]
        exact ⟨_, rfl, fun _ => hp⟩
  · rw [if_neg h]
    exact ⟨false, rfl, fun h => by cases h⟩

theorem pushPeak_ok (f : Finder V) (map : List ℤ → V) (c : List ℤ) (b : Bool) (v : Vec (List ℤ)) :
    ∃ v', body.pushPeak f map c b v = .ok v' ∧ content v' = (if b then {c} else 0) + content v := by
  unfold body.pushPeak
  cases b with
  | false => exact ⟨v, rfl, by simp⟩
  | true =>
    obtain ⟨v', h1, -, h3⟩ := push_content (f.cmp map) v c
    exact ⟨v', h1, by rw [h3]; simp⟩

theorem pushPeak_ordered {β : Type} [LinearOrder β] {f : Finder V} {map : List ℤ → V} (key : List ℤ → β)
    (hc : ∀ x y, f.cmp map x y = true ↔ key x < key y) {c : List ℤ} {b : Bool} {v v' : Vec (List ℤ)}
    (ho : Ordered v.len true (fun j => key (v.val j))) (h : body.pushPeak f map c b v = .ok v') :
    Ordered v'.len true (fun j => key (v'.val j)) := by
  unfold body.pushPeak at h
  cases b with
  | false => obtain rfl := Except.ok.inj h; exact ho
  | true =>
    obtain ⟨v1, h1, h2⟩ := push_ordered key (f.cmp map) hc v c ho
    obtain rfl := Except.ok.inj (h1.symm.trans h)
    exact h2

theorem domainLoop_ordered {β : Type} [LinearOrder β] {f : Finder V} {map : List ℤ → V} (key : List ℤ → β)
    (hc : ∀ x y, f.cmp map x y = true ↔ key x < key y) (e : Iter) (fuel : ℕ) (it : Iter) (s s' : State)
    (ho : Ordered s.maxima.len true (fun j => key (s.maxima.val j))) (h : domainLoop f map e fuel it s = .ok s') :
    Ordered s'.maxima.len true (fun j => key (s'.maxima.val j)) := by
  induction fuel generalizing it s with
  | zero => cases h
  | succ fuel ih =>
    unfold domainLoop at h
    by_cases hp : it.pos ≠ e.pos
    · rw [if_pos hp] at h
      obtain ⟨s1, h1, h⟩ := bind_inv h
      obtain ⟨nx, h2, h⟩ := bind_inv h
      obtain ⟨-, b, items, -, hm⟩ := body_maxima h1
      exact ih nx s1 (pushPeak_ordered key hc ho hm) h
    · rw [if_neg hp] at h
      obtain rfl := Except.ok.inj h
      exact ho

theorem strictWeak_cmp {f : Finder V} (h : StrictWeak f.comp) (map : List ℤ → V) : StrictWeak (f.cmp map) :=
  ⟨fun _ => h.irrefl _, fun _ _ _ => h.trans _ _ _, fun _ _ _ => h.negTrans _ _ _⟩

end Verif.PeakFinder
