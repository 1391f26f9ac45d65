import Verif.PeakFinder.Props
import Verif.Heap.RelProps

/-! Property theorems C141 (see properties.jsonl): the peak finder uses the values of the cells of the domain only, and only their order. -/
namespace Verif.PeakFinder
open Verif Verif.Interval Verif.Interval.Spec Verif.Heap Verif.PeakFinder.Spec
variable {V U : Type}

/-- The relation between the elements of the two heaps: the same cell of the domain. -/
def Same (dom : Interval) (x y : List ℤ) : Prop := x = y ∧ Mem dom x

theorem int_inv {z r : ℤ} (h : Cxx.int z = .ok r) : r = z ∧ I32 z := by
  by_cases hz : I32 z
  · rw [int_ok hz] at h; exact ⟨(Except.ok.inj h).symm, hz⟩
  · rw [int_bad hz] at h; cases h

/-- A successful intersection with the domain has only cells of the domain. -/
theorem intersect_inv {s dom r : Interval} (hl : s.length = dom.length) (h0 : ∀ a ∈ s, 0 ≤ a.dim) (hd : Proper dom) (h : intersect s dom = .ok r) :
    (∀ a ∈ r, 0 ≤ a.dim) ∧ ((∀ a ∈ r, 0 < a.dim) → Proper r ∧ card r ≤ card dom ∧ ∀ x, Mem r x → Mem dom x) := by
  unfold intersect at h
  by_cases he : empty s = true
  · rw [if_pos he] at h
    obtain rfl := Except.ok.inj h
    refine ⟨h0, fun hp => ?_⟩
    obtain ⟨a, ha, hb⟩ := empty_iff.1 he
    have := hp a ha
    omega
  rw [if_neg he, not_empty hd.pos] at h
  simp only [Bool.false_eq_true, if_false] at h
  have hs : ∀ a ∈ s, 0 < a.dim := by
    intro a ha
    by_contra hn
    exact he (empty_iff.2 ⟨a, ha, by omega⟩)
  clear he h0
  obtain ⟨⟨mins, maxs⟩, h1, h'⟩ := bind_inv h
  obtain ⟨q, h2, h3⟩ := bind_inv h'
  obtain rfl := Except.ok.inj h3
  clear h h' h3
  induction s generalizing dom mins maxs q with
  | nil =>
    match dom, hl with
    | [], _ =>
      obtain ⟨rfl, rfl⟩ := Prod.mk.inj (Except.ok.inj h1)
      obtain rfl := Except.ok.inj h2
      simp [Proper]
  | cons a s ih =>
    match dom, hl with
    | b :: dom, hl =>
      unfold intersectLoop at h1
      obtain ⟨x, e1, h1⟩ := bind_inv h1
      obtain ⟨y, e2, h1⟩ := bind_inv h1
      obtain ⟨m, e3, h1⟩ := bind_inv h1
      obtain ⟨⟨mins', maxs'⟩, e4, h1⟩ := bind_inv h1
      obtain ⟨rfl, rfl⟩ := Prod.mk.inj (Except.ok.inj h1)
      unfold initMinMax at h2
      obtain ⟨t, e5, h2⟩ := bind_inv h2
      obtain ⟨d, e6, h2⟩ := bind_inv h2
      obtain ⟨q', e7, h2⟩ := bind_inv h2
      obtain rfl := Except.ok.inj h2
      obtain ⟨rfl, i1⟩ := int_inv e1
      obtain ⟨rfl, i2⟩ := int_inv e2
      obtain ⟨rfl, i3⟩ := int_inv e3
      obtain ⟨rfl, i4⟩ := int_inv e5
      obtain ⟨rfl, i5⟩ := int_inv e6
      obtain ⟨h1, h2⟩ := ih (dom := dom) (by simpa using hl) hd.tail (fun c hc => hs c (by simp [hc])) mins' maxs' e4 q' e7
      obtain ⟨p1, p2, p3, p4⟩ := hd b (by simp)
      have ha := hs a (by simp)
      generalize hA : (if Min.min (a.min + a.dim) (b.min + b.dim) - 1 - Max.max a.min b.min + 1 < 0 then
        (⟨Max.max a.min b.min, 0⟩ : Axis) else ⟨Max.max a.min b.min, Min.min (a.min + a.dim) (b.min + b.dim) - 1 - Max.max a.min b.min + 1⟩) = A
      have hA1 : 0 ≤ A.dim ∧ (0 < A.dim → A.dim ≤ b.dim ∧ I32 A.min ∧ I32 A.dim ∧ I32 (A.min + A.dim - 1) ∧ b.min ≤ A.min ∧ A.min + A.dim ≤ b.min + b.dim) := by
        rw [← hA]
        unfold I32 at *
        split_ifs with hc <;> simp only at hc ⊢ <;> omega
      simp only [List.map_cons]
      rw [hA]
      refine ⟨fun c hc => ?_, fun hp => ?_⟩
      · rcases List.mem_cons.1 hc with rfl | hc
        · exact hA1.1
        · exact h1 c hc
      · have hp0 := hp A (by simp)
        obtain ⟨d1, d2, d3, d4, d5, d6⟩ := hA1.2 hp0
        obtain ⟨g1, g2, g3⟩ := h2 (fun c hc => hp c (List.mem_cons_of_mem _ hc))
        refine ⟨?_, ?_, ?_⟩
        · intro c hc
          rcases List.mem_cons.1 hc with rfl | hc
          · exact ⟨hp0, d2, d3, d4⟩
          · exact g1 c hc
        · rw [card_cons, card_cons]
          exact mul_le_mul d1 g2 (card_pos g1.pos).le (le_trans hp0.le d1)
        · intro x hx
          obtain ⟨i, js, rfl, hi, hj⟩ := mem_cons.1 hx
          exact mem_cons_cons.2 ⟨by omega, g3 js hj⟩

theorem pushCells_rel {dom s : Interval} {c d : List ℤ → List ℤ → Bool} (hc : Agree (Same dom) c d) (hd : Proper dom) (hcd : card dom ≤ 2147483647)
    (hl : s.length = dom.length) (h0 : ∀ a ∈ s, 0 ≤ a.dim) {r : Interval} (hr : intersect s dom = .ok r) {v w : Vec (List ℤ)} (h : VecRel (Same dom) v w) :
    Sim (VecRel (Same dom)) (pushCells c v r) (pushCells d w r) := by
  obtain ⟨h1, h2⟩ := intersect_inv hl h0 hd hr
  have key : ∃ L, visit rasterGetIndices r (size r + 1) = .ok L ∧ ∀ x ∈ L, Mem dom x := by
    by_cases hp : ∀ a ∈ r, 0 < a.dim
    · obtain ⟨p1, p2, p3⟩ := h2 hp
      obtain ⟨L, l1, -, l3, -⟩ := C33_raster_iteration r p1 (by omega) (size r + 1) (by have := size_ok p1 (by omega); omega)
      exact ⟨L, l1, fun x hx => p3 x ((l3 x).1 hx)⟩
    · have he : empty r = true := by rw [empty_iff]; push Not at hp; exact hp
      obtain ⟨-, -, h⟩ := C38_partial r h1 he rasterGetIndices (size r)
      exact ⟨[], h, by simp⟩
  obtain ⟨L, l1, l2⟩ := key
  unfold pushCells
  rw [l1]
  refine foldlM_rel (Q := Same dom) (fun a b x y hab hxy => push_rel hc hab hxy) ?_ h
  clear l1
  induction L with
  | nil => exact .nil
  | cons x L ih => exact .cons ⟨rfl, l2 x (by simp)⟩ (ih fun y hy => l2 y (by simp [hy]))

theorem evict_rel {dom : Interval} {c d : List ℤ → List ℤ → Bool} (hc : Agree (Same dom) c d) (W : Interval) (fuel : ℕ) {v w : Vec (List ℤ)}
    (h : VecRel (Same dom) v w) : Sim (VecRel (Same dom)) (evict c W fuel v) (evict d W fuel w) := by
  induction fuel generalizing v w with
  | zero => exact .error _
  | succ fuel ih =>
    unfold evict
    rw [← h.1]
    by_cases h0 : v.len = 0
    · rw [if_pos h0, if_pos h0]; exact .ok h
    · rw [if_neg h0, if_neg h0]
      refine (top_rel h).bind fun t t' ht => ?_
      obtain ⟨rfl, -⟩ := ht
      refine (Sim.refl (inside W t)).bind fun b b' e => ?_
      obtain rfl := e
      cases b with
      | true => exact .ok h
      | false => exact (popTop_rel hc h).bind fun v w h => ih h

theorem drain_rel {dom : Interval} {c d : List ℤ → List ℤ → Bool} (hc : Agree (Same dom) c d) (fuel : ℕ) {v w : Vec (List ℤ)}
    (h : VecRel (Same dom) v w) : Sim Eq (drain c fuel v) (drain d fuel w) := by
  induction fuel generalizing v w with
  | zero => exact .error _
  | succ fuel ih =>
    unfold drain
    rw [← h.1]
    by_cases h0 : v.len = 0
    · rw [if_pos h0, if_pos h0]; exact .ok rfl
    · rw [if_neg h0, if_neg h0]
      exact (top_rel h).bind fun t t' ht => (popTop_rel hc h).bind fun v w h => (ih h).bind fun l l' e => .ok (by rw [ht.1, e])

/-- Two finders with maps that order the cells of the domain alike and have the same cells pass the filter. -/
structure Alike (f : Finder V) (map : List ℤ → V) (g : Finder U) (map' : List ℤ → U) : Prop where
  domain : g.domain = f.domain
  iwin : g.iwin = f.iwin
  order : ∀ c e, Mem f.domain c → Mem f.domain e → g.comp (map' c) (map' e) = f.comp (map c) (map e)
  filter : ∀ c, Mem f.domain c → (!g.enableFilterMinValue || g.comp (map' c) g.valueMin) = (!f.enableFilterMinValue || f.comp (map c) f.valueMin)

section
variable {f : Finder V} {map : List ℤ → V} {g : Finder U} {map' : List ℤ → U}

theorem Alike.agree (h : Alike f map g map') : Agree (Same f.domain) (f.cmp map) (g.cmp map') := by
  rintro a b _ _ ⟨rfl, ha⟩ ⟨rfl, hb⟩
  exact (h.order a b ha hb).symm

theorem isPeak_rel (h : Alike f map g map') {v w : Vec (List ℤ)} (hv : VecRel (Same f.domain) v w) {c : List ℤ} (hc : Mem f.domain c) :
    Sim Eq (isPeak f map v c) (isPeak g map' w c) := by
  unfold isPeak
  rw [h.filter c hc, ← hv.1]
  by_cases hp : (!f.enableFilterMinValue || f.comp (map c) f.valueMin) = true
  · rw [if_pos hp, if_pos hp]
    by_cases h0 : v.len = 0
    · rw [if_pos h0, if_pos h0]; exact .ok rfl
    · rw [if_neg h0, if_neg h0]
      refine (top_rel hv).bind fun t t' ht => ?_
      obtain ⟨rfl, ht⟩ := ht
      rw [h.order t c ht hc]
      split_ifs
      · exact .ok rfl
      · refine (nextTop_rel h.agree hv).bind fun n n' hn => ?_
        obtain ⟨rfl, hn⟩ := hn
        rw [h.order c n hc hn]
        exact .ok rfl
  · rw [if_neg hp, if_neg hp]; exact .ok rfl

/-- The states of the two runs: same window and same cell, heaps with the same cells in the same positions. -/
structure StateRel (dom : Interval) (s t : State) : Prop where
  items : VecRel (Same dom) s.items t.items
  maxima : VecRel (Same dom) s.maxima t.maxima
  window : t.window = s.window
  prev : t.prev = s.prev
  length : s.window.length = dom.length
  pos : ∀ a ∈ s.window, 0 < a.dim

theorem stacked_inv {W r : Interval} {d : ℕ} {k : ℤ} (hp : ∀ a ∈ W, 0 < a.dim) (h : stacked W d k = .ok r) :
    r.length = W.length ∧ ∀ a ∈ r, 0 ≤ a.dim := by
  induction W generalizing d r with
  | nil => cases h
  | cons a W ih =>
    have ht : ∀ b ∈ W, 0 ≤ b.dim := fun b hb => (hp b (by simp [hb])).le
    cases d with
    | zero =>
      unfold stacked at h
      split_ifs at h with hk
      · obtain ⟨m, -, h⟩ := bind_inv h
        obtain rfl := Except.ok.inj h
        refine ⟨rfl, fun b hb => ?_⟩
        rcases List.mem_cons.1 hb with rfl | hb
        · exact hk
        · exact ht b hb
      · obtain ⟨m, -, h⟩ := bind_inv h
        obtain ⟨k', e, h⟩ := bind_inv h
        obtain rfl := Except.ok.inj h
        obtain ⟨rfl, -⟩ := int_inv e
        refine ⟨rfl, fun b hb => ?_⟩
        rcases List.mem_cons.1 hb with rfl | hb
        · simp only; omega
        · exact ht b hb
    | succ d =>
      unfold stacked at h
      obtain ⟨r', e, h⟩ := bind_inv h
      obtain rfl := Except.ok.inj h
      obtain ⟨h1, h2⟩ := ih (fun b hb => hp b (by simp [hb])) e
      refine ⟨congrArg (· + 1) h1, fun b hb => ?_⟩
      rcases List.mem_cons.1 hb with rfl | hb
      · exact (hp b (by simp)).le
      · exact h2 b hb

theorem translate_inv {W r : Interval} {d : ℕ} {k : ℤ} (hp : ∀ a ∈ W, 0 < a.dim) (h : translate W d k = .ok r) :
    r.length = W.length ∧ ∀ a ∈ r, 0 < a.dim := by
  induction W generalizing d r with
  | nil => cases h
  | cons a W ih =>
    cases d with
    | zero =>
      unfold translate at h
      obtain ⟨m, -, h⟩ := bind_inv h
      obtain rfl := Except.ok.inj h
      refine ⟨rfl, fun b hb => ?_⟩
      rcases List.mem_cons.1 hb with rfl | hb
      · exact hp a (by simp)
      · exact hp b (by simp [hb])
    | succ d =>
      unfold translate at h
      obtain ⟨r', e, h⟩ := bind_inv h
      obtain rfl := Except.ok.inj h
      obtain ⟨h1, h2⟩ := ih (fun b hb => hp b (by simp [hb])) e
      refine ⟨congrArg (· + 1) h1, fun b hb => ?_⟩
      rcases List.mem_cons.1 hb with rfl | hb
      · exact hp b (by simp)
      · exact h2 b hb

theorem centered_inv {c w : List ℤ} {r : Interval} (hw : ∀ x ∈ w, 0 ≤ x) (h : initCentered c w = .ok r) :
    r.length = c.length ∧ ∀ a ∈ r, 0 < a.dim := by
  induction c generalizing w r with
  | nil => obtain rfl := Except.ok.inj h; simp
  | cons x c ih =>
    match w with
    | [] => cases h
    | y :: w =>
      unfold initCentered at h
      obtain ⟨m, -, h⟩ := bind_inv h
      obtain ⟨t, e1, h⟩ := bind_inv h
      obtain ⟨d, e2, h⟩ := bind_inv h
      obtain ⟨r', e, h⟩ := bind_inv h
      obtain rfl := Except.ok.inj h
      obtain ⟨rfl, -⟩ := int_inv e1
      obtain ⟨rfl, -⟩ := int_inv e2
      obtain ⟨h1, h2⟩ := ih (fun z hz => hw z (by simp [hz])) e
      refine ⟨congrArg (· + 1) h1, fun b hb => ?_⟩
      rcases List.mem_cons.1 hb with rfl | hb
      · have := hw y (by simp)
        simp only; omega
      · exact h2 b hb

theorem Sim.bindEq {γ γ' δ' : Type} {S : γ' → δ' → Prop} (x : Outcome γ) {F : γ → Outcome γ'} {G : γ → Outcome δ'}
    (hF : ∀ a, x = .ok a → Sim S (F a) (G a)) : Sim S (x >>= F) (x >>= G) := by
  cases x with
  | ok a => exact hF a rfl
  | error e => exact .error e

theorem body_rel (h : Alike f map g map') (hd : Proper f.domain) (hcd : card f.domain ≤ 2147483647) {s t : State} (hs : StateRel f.domain s t)
    {c : List ℤ} (hc : Mem f.domain c) : Sim (StateRel f.domain) (body f map s c) (body g map' t c) := by
  unfold body
  rw [hs.prev, hs.window, h.domain]
  refine Sim.bindEq _ fun dk _ => ?_
  obtain ⟨d, k⟩ := dk
  refine Sim.bindEq _ fun st hst => ?_
  obtain ⟨l1, l2⟩ := stacked_inv hs.pos hst
  refine Sim.bindEq _ fun nv hnv => ?_
  refine (pushCells_rel h.agree hd hcd (l1.trans hs.length) l2 hnv hs.items).bind fun v w hvw => ?_
  refine Sim.bindEq _ fun W hW => ?_
  obtain ⟨m1, m2⟩ := translate_inv hs.pos hW
  rw [hvw.1]
  refine (evict_rel h.agree W _ hvw).bind fun v w hvw => ?_
  refine (isPeak_rel h hvw hc).bind fun b b' e => ?_
  obtain rfl := e
  refine Sim.bind (R := VecRel (Same f.domain)) ?_ fun x y hxy => .ok ⟨hvw, hxy, rfl, rfl, m1.trans hs.length, m2⟩
  cases b with
  | true => exact push_rel h.agree hs.maxima ⟨rfl, hc⟩
  | false => exact .ok hs.maxima

/-- C141: `detect` has the same outcome for two finders and maps that order the cells of the domain alike and have the same cells pass the filter. -/
theorem C141_order (h : Alike f map g map') (hd : Proper f.domain) (hcd : card f.domain ≤ 2147483647) (hw : ∀ w ∈ f.iwin, 0 ≤ w) :
    detect f map = detect g map' := by
  have hm := fun p => at_mem hd p
  rw [detect_eq f map hd hcd, detect_eq g map' (h.domain ▸ hd) (h.domain ▸ hcd), h.domain]
  refine Sim.eq (Sim.bind (R := StateRel f.domain) ?_ fun s t hs => Sim.bind (R := StateRel f.domain) ?_ fun s t hs => ?_)
  · unfold initState
    rw [h.iwin, h.domain]
    refine Sim.bindEq _ fun W hW => ?_
    obtain ⟨c1, c2⟩ := centered_inv hw hW
    have hl : W.length = f.domain.length := c1.trans (mem_length (hm 0))
    have h0 : VecRel (Same f.domain) (Vec.empty []) (Vec.empty []) := ⟨rfl, fun i hi => absurd hi (Nat.not_lt_zero i)⟩
    refine Sim.bindEq _ fun nv hnv => ?_
    exact (pushCells_rel h.agree hd hcd hl (fun a ha => (c2 a ha).le) hnv h0).bind fun v w hvw => .ok ⟨hvw, h0, rfl, rfl, hl, c2⟩
  · refine foldlM_rel (Q := Same f.domain) (fun a b x y hab hxy => ?_) ?_ hs
    · obtain ⟨rfl, hx⟩ := hxy
      exact body_rel h hd hcd hab hx
    · generalize List.range ((card f.domain).toNat - 1) = L
      induction L with
      | nil => exact .nil
      | cons x L ih => exact .cons ⟨rfl, hm _⟩ ih
  · rw [hs.maxima.1]
    exact drain_rel h.agree _ hs.maxima

end

/-- C141: the values outside of the domain are immaterial. -/
theorem C141_outside (f : Finder V) (map map' : List ℤ → V) (hd : Proper f.domain) (hcd : card f.domain ≤ 2147483647) (hw : ∀ w ∈ f.iwin, 0 ≤ w)
    (h : ∀ c, Mem f.domain c → map' c = map c) : detect f map' = detect f map :=
  (C141_order ⟨rfl, rfl, fun c e hc he => by rw [h c hc, h e he], fun c hc => by rw [h c hc]⟩ hd hcd hw).symm

/-- C141: an order-preserving change of all values, the threshold of the filter included, leaves the peaks unchanged. -/
theorem C141_monotone (f : Finder V) (map : List ℤ → V) (comp' : U → U → Bool) (φ : V → U) (hφ : ∀ x y, comp' (φ x) (φ y) = f.comp x y)
    (hd : Proper f.domain) (hcd : card f.domain ≤ 2147483647) (hw : ∀ w ∈ f.iwin, 0 ≤ w) :
    detect ⟨comp', f.domain, f.iwin, φ f.valueMin, f.enableFilterMinValue⟩ (fun c => φ (map c)) = detect f map :=
  (C141_order (f := f) (map := map) (g := ⟨comp', f.domain, f.iwin, φ f.valueMin, f.enableFilterMinValue⟩) (map' := fun c => φ (map c))
    ⟨rfl, rfl, fun c e _ _ => hφ (map c) (map e), fun c _ => by simp only [hφ]⟩ hd hcd hw).symm

/-- C141: a filter that all cells of the domain pass is as good as none. -/
theorem C141_filter (f : Finder V) (map : List ℤ → V) (vmin : V) (hp : ∀ c, Mem f.domain c → f.comp (map c) vmin = true)
    (hd : Proper f.domain) (hcd : card f.domain ≤ 2147483647) (hw : ∀ w ∈ f.iwin, 0 ≤ w) :
    detect (f.enableFilterPeakMin true vmin) map = detect (f.enableFilterPeakMin false vmin) map :=
  C141_order (f := f.enableFilterPeakMin true vmin) (g := f.enableFilterPeakMin false vmin)
    ⟨rfl, rfl, fun _ _ _ _ => rfl, fun c hc => by simp only [Finder.enableFilterPeakMin, Bool.not_false, Bool.true_or, Bool.not_true, Bool.false_or]; exact (hp c hc).symm⟩
    hd hcd hw

/-- The squares of the values of the example of C40, and a large value next to the domain. -/
example : detect (finder [8] [1]) (row [9, 1, 16, 4, 49, 25, 81, 36, 100]) = .ok [[6], [4], [2]] := by decide +kernel

/-- The order matters: with the first two peaks exchanged the output changes. -/
example : detect (finder [8] [1]) (row [3, 1, 7, 2, 4, 3, 9, 6]) = .ok [[6], [2], [4]] := by decide +kernel

end Verif.PeakFinder
