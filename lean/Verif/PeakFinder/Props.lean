import Verif.PeakFinder.HeapLemmas
import Verif.Interval.Props

/-! Properties C40 and C41 of the peak finder. -/
namespace Verif.PeakFinder
open Verif Verif.Interval Verif.Interval.Spec Verif.PeakFinder.Spec Verif.Heap Verif.Heap.Spec
variable {V : Type}

/-! ### C41: order of the peaks -/

/-- C41: whenever `detect` returns, a reported peak is never worse than a later one (for any map, domain, window, filter and
strict weak order, equivalent values included). -/
theorem C41_order (f : Finder V) (map : List ℤ → V) (hw : StrictWeak f.comp) (out : List (List ℤ)) (h : detect f map = .ok out) :
    out.Pairwise (fun a b => f.comp (map b) (map a) = false) := by
  obtain ⟨β, _, key, hc⟩ := key_exists (strictWeak_cmp hw map)
  unfold detect at h
  obtain ⟨it, -, h2⟩ := bind_inv h
  obtain ⟨e, -, h3⟩ := bind_inv h2
  obtain ⟨_, -, h4⟩ := bind_inv h3
  obtain ⟨s, hs, h5⟩ := bind_inv h4
  obtain ⟨it1, -, h6⟩ := bind_inv h5
  obtain ⟨s1, h1, h7⟩ := bind_inv h6
  have hm : s.maxima = Vec.empty [] := by
    unfold initState at hs
    obtain ⟨_, -, hs⟩ := bind_inv hs
    obtain ⟨_, -, hs⟩ := bind_inv hs
    obtain ⟨_, -, hs⟩ := bind_inv hs
    obtain rfl := Except.ok.inj hs
    rfl
  exact drain_sorted key (f.cmp map) hc _ _ (domainLoop_ordered key hc e _ it1 s s1 (by rw [hm]; exact ordered_empty key []) h1).minOrd h7

/-! ### C40: the reported cells -/

/-- The filter on the values. -/
def passes (f : Finder V) (v : V) : Prop := f.enableFilterMinValue = false ∨ f.comp v f.valueMin = true

/-- C40, full statement: on each domain whose windows are representable `detect` returns and reports exactly the peaks. -/
def C40_statement : Prop :=
  ∀ (V : Type) (f : Finder V) (map : List ℤ → V), StrictWeak f.comp → Fits f.domain f.iwin →
    ∃ out, detect f map = .ok out ∧ ∀ c, c ∈ out ↔ IsPeak f.comp (passes f) map f.domain f.iwin c

theorem at_mem {d : Interval} (h : Proper d) (p : ℕ) : Mem d (at' d p) := fold_mem (digits_isDigits h.pos _)

theorem at_inj {d : Interval} (h : Proper d) {p q : ℕ} (hp : (p : ℤ) < card d) (hq : (q : ℤ) < card d) (e : at' d p = at' d q) :
    p = q := by
  have e' := fold_inj (digits_isDigits h.pos _) (digits_isDigits h.pos _) e
  have h1 := value_digits h.pos (p := p) (by omega) hp
  have h2 := value_digits h.pos (p := q) (by omega) hq
  rw [e', h2] at h1
  omega

/-- The peaks found along a list of cells: some of them, in order of discovery. -/
theorem fold_maxima {f : Finder V} {map : List ℤ → V} (l : List (List ℤ)) (s s' : State) (h : l.foldlM (body f map) s = .ok s') :
    ∃ l' : List (List ℤ), l'.Sublist l ∧ content s'.maxima = content s.maxima + (l' : Multiset (List ℤ)) ∧
      ∀ c ∈ l', passes f (map c) := by
  induction l generalizing s with
  | nil => obtain rfl := Except.ok.inj h; exact ⟨[], List.Sublist.refl _, by simp, by simp⟩
  | cons c l ih =>
    rw [foldlM_cons'] at h
    obtain ⟨s1, h1, h⟩ := bind_inv h
    obtain ⟨-, b, items, hb, hm⟩ := body_maxima h1
    obtain ⟨b', hb', hpass⟩ := isPeak_ok f map items c
    obtain rfl := Except.ok.inj (hb.symm.trans hb')
    obtain ⟨m', hm', hcont⟩ := pushPeak_ok f map c b s.maxima
    obtain rfl := Except.ok.inj (hm'.symm.trans hm)
    obtain ⟨l', h1', h2', h3'⟩ := ih s1 h
    cases b with
    | false => exact ⟨l', h1'.cons c, by rw [h2', hcont]; simp, h3'⟩
    | true =>
      refine ⟨c :: l', h1'.cons_cons c, ?_, ?_⟩
      · rw [h2', hcont, if_pos rfl, ← Multiset.cons_coe, Multiset.add_cons, Multiset.add_assoc, Multiset.singleton_add]
      · intro x hx
        rcases List.mem_cons.1 hx with rfl | hx
        · exact hpass rfl
        · exact h3' x hx

/-- C40, part: on each domain of countable size, whenever `detect` returns it reports domain cells that pass the filter, none
of them twice. The first cell of the traversal (the lowest corner) is never reported. Missing: that they are exactly the
local maxima, which is false, see `C40_violated`. -/
theorem C40_cells_partial (f : Finder V) (map : List ℤ → V) (h : Proper f.domain) (hc : card f.domain ≤ 2147483647)
    (out : List (List ℤ)) (ho : detect f map = .ok out) :
    out.Nodup ∧ (∀ c ∈ out, Mem f.domain c ∧ passes f (map c)) ∧ at' f.domain 0 ∉ out := by
  rw [detect_eq f map h hc] at ho
  obtain ⟨s, hs, ho⟩ := bind_inv ho
  obtain ⟨s1, h1, ho⟩ := bind_inv ho
  obtain ⟨l', g1, g2, g3⟩ := fold_maxima _ s s1 h1
  have e0 : content s.maxima = 0 := by
    unfold initState at hs
    obtain ⟨_, -, hs⟩ := bind_inv hs
    obtain ⟨_, -, hs⟩ := bind_inv hs
    obtain ⟨_, -, hs⟩ := bind_inv hs
    obtain rfl := Except.ok.inj hs
    rfl
  obtain ⟨out', o1, o2⟩ := drain_ok (f.cmp map) (s1.maxima.len + 1) s1.maxima (by omega)
  obtain rfl := Except.ok.inj (o1.symm.trans ho)
  rw [g2, e0, Multiset.zero_add, Multiset.coe_eq_coe] at o2
  have hpos := card_pos h.pos
  have hnd : ((List.range ((card f.domain).toNat - 1)).map fun j => at' f.domain (1 + j)).Nodup := by
    refine List.Nodup.map_on ?_ List.nodup_range
    intro x hx y hy e
    rw [List.mem_range] at hx hy
    have := at_inj h (p := 1 + x) (q := 1 + y) (by push_cast; omega) (by push_cast; omega) e
    omega
  refine ⟨o2.nodup_iff.2 (hnd.sublist g1), ?_, ?_⟩
  · intro c hc'
    have hc1 := o2.mem_iff.1 hc'
    obtain ⟨j, -, rfl⟩ := List.mem_map.1 (g1.subset hc1)
    exact ⟨at_mem h _, g3 _ hc1⟩
  · intro hm
    obtain ⟨j, hj, e⟩ := List.mem_map.1 (g1.subset (o2.mem_iff.1 hm))
    rw [List.mem_range] at hj
    have := at_inj h (p := 1 + j) (q := 0) (by push_cast; omega) (by push_cast; omega) e
    omega

/-- The first cell of the traversal is the lowest corner of the domain. -/
theorem at_zero (d : Interval) : at' d 0 = d.map Axis.min := by
  unfold at'
  have h : ∀ iv : Interval, (∀ x ∈ digits 0 iv, x = 0) := by
    intro iv
    induction iv with
    | nil => simp [digits]
    | cons a iv ih =>
      intro x hx
      simp only [digits, Int.zero_emod, Int.zero_ediv, List.mem_cons] at hx
      rcases hx with rfl | hx
      · rfl
      · exact ih x hx
  have ho : ∀ xs : List ℤ, (∀ x ∈ xs, x = 0) → oddOf xs = false := by
    intro xs hx
    match xs with
    | [] => rfl
    | x :: xs => rw [hx x (by simp)]; rfl
  induction d with
  | nil => rfl
  | cons a d ih =>
    simp only [Nat.cast_zero, digits, Int.zero_emod, Int.zero_ediv, fold, List.map_cons] at ih ⊢
    rw [ho _ (h d), ih]
    simp

/-- The fold over the domain returns when consecutive cells are adjacent. -/
theorem fold_ok {f : Finder V} (map : List ℤ → V) (hf : Fits f.domain f.iwin) (k p : ℕ) (s : State)
    (ha : ∀ j < k, Adjacent (at' f.domain (p + j)) (at' f.domain (p + 1 + j))) (hp : s.prev = at' f.domain p)
    (hw : s.window = centered s.prev f.iwin) (hl : ∀ x ∈ content s.items, x.length = f.domain.length) :
    ∃ s', ((List.range k).map fun j => at' f.domain (p + 1 + j)).foldlM (body f map) s = .ok s' := by
  induction k generalizing p s with
  | zero => exact ⟨s, rfl⟩
  | succ k ih =>
    have hmp : Mem f.domain s.prev := by rw [hp]; exact at_mem hf.proper _
    have hmc : Mem f.domain (at' f.domain (p + 1)) := at_mem hf.proper _
    obtain ⟨L, l1, l2, l3⟩ := body_eq map hf hmp hmc (by rw [hp]; exact ha 0 (by omega)) hw
    obtain ⟨v1, p1, p2⟩ := pushList_ok (f.cmp map) L s.items
    obtain ⟨-, hW, hWl, -⟩ := centered_ok hf.win hmc
    have hl1 : ∀ x ∈ content v1, x.length = f.domain.length := by
      intro x hx
      rw [p2] at hx
      rcases Multiset.mem_add.1 hx with hx | hx
      · exact mem_length ((l2 x).1 (by simpa using hx)).1
      · exact hl x hx
    obtain ⟨v2, P, q1, q2, -⟩ := evict_ok (f.cmp map) hW (v1.len + 1) v1 (by omega) (fun x hx => by rw [hWl]; exact hl1 x hx)
    obtain ⟨b, b1, -⟩ := isPeak_ok f map v2 (at' f.domain (p + 1))
    obtain ⟨mx, m1, -⟩ := pushPeak_ok f map (at' f.domain (p + 1)) b s.maxima
    rw [p1] at l3
    simp only [bind_ok] at l3
    rw [q1] at l3
    simp only [bind_ok] at l3
    rw [b1] at l3
    simp only [bind_ok] at l3
    rw [m1] at l3
    obtain ⟨s', h'⟩ := ih (p + 1) ⟨v2, mx, centered (at' f.domain (p + 1)) f.iwin, at' f.domain (p + 1)⟩
      (fun j hj => by have := ha (j + 1) (by omega); rwa [show p + (j + 1) = p + 1 + j by omega, show p + 1 + (j + 1) = p + 1 + 1 + j by omega] at this)
      rfl rfl (fun x hx => hl1 x (by rw [q2]; exact Multiset.mem_add.2 (Or.inr hx)))
    refine ⟨s', ?_⟩
    rw [range_shift (fun q => at' f.domain q) (p + 1) k]
    exact (Heap.foldlM_cons (body f map) s _ _ _ l3).trans h'

/-- C40, part: `detect` returns (no undefined behaviour, no assertion, no endless loop) on each domain with representable
windows whose boustrophedon order moves between adjacent cells, in particular in one and two dimensions. -/
theorem C40_returns_partial (f : Finder V) (map : List ℤ → V) (hf : Fits f.domain f.iwin)
    (he : ∀ d, 1 ≤ d → ∀ h' : d + 1 < f.domain.length, f.domain[d].dim % 2 = 0) : ∃ out, detect f map = .ok out := by
  rw [detect_eq f map hf.proper hf.card]
  obtain ⟨L, l1, l2, l3⟩ := initState_eq map hf (at_mem hf.proper 0)
  obtain ⟨v1, p1, p2⟩ := pushList_ok (f.cmp map) L (Vec.empty [])
  rw [p1] at l3
  have hpos := card_pos hf.proper.pos
  obtain ⟨s', h'⟩ := fold_ok map hf ((card f.domain).toNat - 1) 0 ⟨v1, Vec.empty [], centered (at' f.domain 0) f.iwin, at' f.domain 0⟩
    (by
      intro j hj
      have := fold_adjacent hf.proper.pos (smooth_of_interior he) (p := j) (by omega) (by omega)
      unfold at'
      rw [show ((0 + j : ℕ) : ℤ) = (j : ℤ) by omega, show ((0 + 1 + j : ℕ) : ℤ) = (j : ℤ) + 1 by omega]
      exact this) rfl rfl
    (by
      intro x hx
      rw [p2] at hx
      rcases Multiset.mem_add.1 hx with hx | hx
      · exact mem_length ((l2 x).1 (by simpa using hx)).1
      · simp [content, Vec.empty] at hx)
  obtain ⟨out, o, -⟩ := drain_ok (f.cmp map) (s'.maxima.len + 1) s'.maxima (by omega)
  refine ⟨out, ?_⟩
  rw [l3]
  simp only [bind_ok]
  simp only [Nat.zero_add] at h'
  rw [pure_bind, h']
  exact o

/-! ### One dimension -/

theorem noTies_of_nodup {α : Type} {cmp : α → α → Bool} {s : Multiset α} (h : s.Nodup) (hd : ∀ x ∈ s, ∀ y ∈ s, x ≠ y → ¬ Equivalent cmp x y) :
    NoTies cmp s := by
  intro x y t e
  rw [e] at h hd
  have hn := Multiset.nodup_cons.1 h
  exact hd x (by simp) y (by simp) (fun e => hn.1 (by simp [e]))

theorem val_inj {α : Type} {v : Vec α} (h : (content v).Nodup) {i j : ℕ} (hi : i < v.len) (hj : j < v.len) (e : v.val i = v.val j) :
    i = j := Multiset.inj_on_of_nodup_map h i (Multiset.mem_range.2 hi) j (Multiset.mem_range.2 hj) e

theorem mem_one {a : Axis} {x : List ℤ} : Mem [a] x ↔ ∃ j, x = [j] ∧ a.min ≤ j ∧ j < a.min + a.dim := by
  rw [mem_cons]
  constructor
  · rintro ⟨i, js, rfl, h1, h2⟩
    rw [mem_nil] at h2; subst h2
    exact ⟨i, rfl, h1⟩
  · rintro ⟨j, rfl, h⟩
    exact ⟨j, [], rfl, h, mem_nil.2 rfl⟩

theorem inWindow_one {w i j : ℤ} : InWindow [w] [i] [j] ↔ |j - i| ≤ w := by
  unfold InWindow
  constructor
  · rintro ⟨-, h⟩; simpa using h 0 (by simp)
  · intro h
    refine ⟨rfl, fun d hd => ?_⟩
    obtain rfl : d = 0 := by simpa using hd
    simpa using h

theorem at_one {m n : ℤ} {p : ℕ} (hp : (p : ℤ) < n) : at' [⟨m, n⟩] p = [m + p] := by
  show [if oddOf [] then n - (p : ℤ) % n - 1 + m else (p : ℤ) % n + m] = [m + (p : ℤ)]
  rw [Int.emod_eq_of_lt (by omega) hp, if_neg (by decide), add_comm]

/-- The verdict on the current cell, when the heap is ordered, holds distinct inequivalent elements, has the current cell among
two or more, and its top is `t`. -/
theorem isPeak_spec {f : Finder V} {map : List ℤ → V} (hw : StrictWeak f.comp) {v : Vec (List ℤ)} {c t : List ℤ}
    (hn : (content v).Nodup) (hd : ∀ x ∈ content v, ∀ y ∈ content v, x ≠ y → ¬ Equivalent (f.cmp map) x y)
    (ht : top v = .ok t) (hf : IsFirst (f.cmp map) (content v) t) (hc : c ∈ content v) (h2 : 2 ≤ v.len) :
    ∃ b, isPeak f map v c = .ok b ∧ (b = true ↔ passes f (map c) ∧ t = c) := by
  unfold isPeak
  have hpass : (!f.enableFilterMinValue || f.comp (map c) f.valueMin) = true ↔ passes f (map c) := by simp [passes]
  by_cases h : (!f.enableFilterMinValue || f.comp (map c) f.valueMin) = true
  · rw [if_pos h, if_neg (by omega), ht]
    simp only [bind_ok]
    obtain ⟨k, k0, kl, hk⟩ := nextTop_other (f.cmp map) v h2
    have e0 := Except.ok.inj (ht.symm.trans (top_val v (by omega)))
    by_cases h1 : f.comp (map t) (map c) = true
    · rw [if_pos h1]
      refine ⟨false, rfl, ?_⟩
      simp only [Bool.false_eq_true, false_iff, not_and]
      rintro _ rfl
      rw [hw.irrefl] at h1
      cases h1
    · rw [if_neg h1]
      have etc : t = c := by
        by_contra hne
        exact hd t hf.1 c hc hne ⟨by simpa [Finder.cmp] using h1, hf.2 c hc⟩
      rw [hk]
      refine ⟨_, rfl, ?_⟩
      have hkm : v.val k ∈ content v := mem_content.2 ⟨k, kl, rfl⟩
      have hne : t ≠ v.val k := by
        rw [e0]; intro e
        have := val_inj hn (by omega) kl e
        omega
      have hb : f.comp (map c) (map (v.val k)) = true := by
        by_contra hnb
        rw [← etc] at hnb
        exact hd t hf.1 _ hkm hne ⟨by simpa [Finder.cmp] using hnb, hf.2 _ hkm⟩
      rw [hb]
      simp [hpass.1 h, etc]
  · rw [if_neg h]
    refine ⟨false, rfl, ?_⟩
    simp only [Bool.false_eq_true, false_iff, not_and]
    intro hp
    exact absurd (hpass.2 hp) h

/-- Invariant of the loop in one dimension after the cell `m + p`. -/
structure Inv {β : Type} [LinearOrder β] (key : List ℤ → β) (f : Finder V) (map : List ℤ → V) (m n w : ℤ) (p : ℕ) (s : State) : Prop where
  prev : s.prev = [m + p]
  window : s.window = centered [m + p] [w]
  ordered : Ordered s.items.len true (fun j => key (s.items.val j))
  nodup : (content s.items).Nodup
  cells : ∀ x ∈ content s.items, ∃ j, x = [j] ∧ m ≤ j ∧ j < m + n ∧ j ≤ m + p + w
  full : ∀ j, m ≤ j → j < m + n → |j - (m + p)| ≤ w → [j] ∈ content s.items
  maxima : ∀ x, x ∈ content s.maxima ↔ ∃ q : ℕ, 1 ≤ q ∧ q ≤ p ∧ x = [m + q] ∧ IsPeak f.comp (passes f) map [⟨m, n⟩] [w] x

theorem inv_step {β : Type} [LinearOrder β] {key : List ℤ → β} {f : Finder V} {map : List ℤ → V} {m n w : ℤ}
    (hc : ∀ x y, f.cmp map x y = true ↔ key x < key y) (hw : StrictWeak f.comp) (hd : f.domain = [⟨m, n⟩]) (hi : f.iwin = [w])
    (hf : Fits f.domain f.iwin) (h1 : 1 ≤ w)
    (hdist : ∀ i j, m ≤ i → i < m + n → m ≤ j → j < m + n → i ≠ j → ¬ Equivalent f.comp (map [i]) (map [j]))
    {p : ℕ} (hp : (p : ℤ) + 1 < n) {s : State} (h : Inv key f map m n w p s) :
    ∃ s', body f map s [m + (p + 1 : ℕ)] = .ok s' ∧ Inv key f map m n w (p + 1) s' := by
  have hmp : Mem f.domain s.prev := by rw [hd, h.prev, mem_one]; exact ⟨_, rfl, by simp only; omega⟩
  have hmc : Mem f.domain [m + (p + 1 : ℕ)] := by rw [hd, mem_one]; exact ⟨_, rfl, by simp only; push_cast; omega⟩
  have hadj : Adjacent s.prev [m + (p + 1 : ℕ)] := by
    rw [h.prev]; exact adjacent_cons_head (Or.inl (by push_cast; omega))
  obtain ⟨L, l1, l2, l3⟩ := body_eq map hf hmp hmc hadj (by rw [h.window, h.prev, hi])
  obtain ⟨v1, p1, p2⟩ := pushList_ok (f.cmp map) L s.items
  have o1 := pushList_ordered key (f.cmp map) hc L s.items v1 h.ordered p1
  obtain ⟨-, hW, hWl, -⟩ := centered_ok hf.win hmc
  have hL : ∀ x ∈ L, x = [m + p + 1 + w] ∧ m + p + 1 + w < m + n := by
    intro x hx
    obtain ⟨a1, a2, a3⟩ := (l2 x).1 hx
    rw [hd, mem_one] at a1
    obtain ⟨j, rfl, a4, a5⟩ := a1
    rw [hi, inWindow_one, abs_le] at a2
    rw [hi, h.prev, inWindow_one, abs_le] at a3
    simp only at a4 a5
    push_cast at a2
    have : j = m + p + 1 + w := by omega
    exact ⟨by rw [this], by omega⟩
  have n1 : (content v1).Nodup := by
    rw [p2, Multiset.nodup_add]
    refine ⟨by simpa using l1, h.nodup, ?_⟩
    rw [Multiset.disjoint_left]
    intro x hx hx'
    obtain ⟨rfl, -⟩ := hL x (by simpa using hx)
    obtain ⟨j, e, -, -, e2⟩ := h.cells _ hx'
    simp only [List.cons.injEq, and_true] at e
    omega
  have c1 : ∀ x ∈ content v1, ∃ j, x = [j] ∧ m ≤ j ∧ j < m + n ∧ j ≤ m + p + 1 + w := by
    intro x hx
    rw [p2] at hx
    rcases Multiset.mem_add.1 hx with hx | hx
    · obtain ⟨rfl, e⟩ := hL x (by simpa using hx)
      exact ⟨_, rfl, by omega, e, le_refl _⟩
    · obtain ⟨j, e1, e2, e3, e4⟩ := h.cells x hx
      exact ⟨j, e1, e2, e3, by omega⟩
  have f1 : ∀ j, m ≤ j → j < m + n → |j - (m + p + 1)| ≤ w → [j] ∈ content v1 := by
    intro j j1 j2 j3
    rw [p2]
    by_cases hin : |j - (m + p)| ≤ w
    · exact Multiset.mem_add.2 (Or.inr (h.full j j1 j2 hin))
    · refine Multiset.mem_add.2 (Or.inl ?_)
      rw [Multiset.mem_coe, l2, hd, mem_one, hi, inWindow_one, h.prev, inWindow_one]
      refine ⟨⟨j, rfl, j1, j2⟩, ?_, hin⟩
      push_cast
      rwa [← add_assoc]
  have hdd : ∀ v : Vec (List ℤ), (∀ x ∈ content v, ∃ j, x = [j] ∧ m ≤ j ∧ j < m + n ∧ j ≤ m + p + 1 + w) →
      ∀ x ∈ content v, ∀ y ∈ content v, x ≠ y → ¬ Equivalent (f.cmp map) x y := by
    intro v hv x hx y hy hne
    obtain ⟨i, rfl, i1, i2, -⟩ := hv x hx
    obtain ⟨j, rfl, j1, j2, -⟩ := hv y hy
    exact hdist i j i1 i2 j1 j2 (fun e => hne (by rw [e]))
  obtain ⟨v2, P, q1, q2, q3, q4, q5⟩ := evict_ok (f.cmp map) hW (v1.len + 1) v1 (by omega)
    (fun x hx => by obtain ⟨j, rfl, -⟩ := c1 x hx; rw [hWl, hd]; rfl)
  have o2 := q5 key hc (noTies_of_nodup n1 (hdd v1 c1)) o1
  have hle : content v2 ≤ content v1 := by rw [q2]; exact Multiset.le_add_left _ _
  have n2 := Multiset.nodup_of_le hle n1
  have c2 : ∀ x ∈ content v2, ∃ j, x = [j] ∧ m ≤ j ∧ j < m + n ∧ j ≤ m + p + 1 + w := fun x hx => c1 x (Multiset.mem_of_le hle hx)
  have hlen1 : ([m + (p + 1 : ℕ)] : List ℤ).length = f.iwin.length := by rw [hi]; rfl
  have f2 : ∀ j, m ≤ j → j < m + n → |j - (m + p + 1)| ≤ w → [j] ∈ content v2 := by
    intro j j1 j2 j3
    have := f1 j j1 j2 j3
    rw [q2] at this
    rcases Multiset.mem_add.1 this with hx | hx
    · refine absurd ?_ (q3 _ hx)
      rw [mem_centered hlen1, hi, inWindow_one]
      push_cast
      rwa [← add_assoc]
    · exact hx
  have hcur : [m + (p + 1 : ℕ)] ∈ content v2 := by
    have := f2 (m + p + 1) (by omega) (by omega) (by simp; omega)
    push_cast
    rwa [← add_assoc]
  have hpre : [m + (p : ℤ)] ∈ content v2 := f2 (m + p) (by omega) (by omega) (by rw [abs_le]; omega)
  have h2 : 2 ≤ v2.len := by
    obtain ⟨i, i1, i2⟩ := mem_content.1 hcur
    obtain ⟨j, j1, j2⟩ := mem_content.1 hpre
    have : i ≠ j := by
      rintro rfl
      rw [i2] at j2
      simp only [List.cons.injEq, and_true] at j2
      push_cast at j2
      omega
    omega
  obtain ⟨t, ht, hfirst⟩ := top_ordered key (f.cmp map) hc v2 o2 (by omega)
  have htin : Mem (centered [m + (p + 1 : ℕ)] f.iwin) t := by
    rcases q4 with q4 | ⟨t', e1, e2⟩
    · omega
    · obtain rfl := Except.ok.inj (e1.symm.trans ht)
      exact e2
  obtain ⟨b, b1, b2⟩ := isPeak_spec hw n2 (hdd v2 c2) ht hfirst hcur h2
  obtain ⟨mx, m1, m2⟩ := pushPeak_ok f map [m + (p + 1 : ℕ)] b s.maxima
  rw [p1] at l3
  simp only [bind_ok] at l3
  rw [q1] at l3
  simp only [bind_ok] at l3
  rw [b1] at l3
  simp only [bind_ok] at l3
  rw [m1] at l3
  refine ⟨_, l3, rfl, by rw [hi], o2, n2, ?_, ?_, ?_⟩
  · intro x hx
    obtain ⟨j, j1, j2, j3, j4⟩ := c2 x hx
    exact ⟨j, j1, j2, j3, by push_cast; omega⟩
  · intro j j1 j2 j3
    refine f2 j j1 j2 ?_
    push_cast at j3
    rwa [← add_assoc] at j3
  · -- the verdict is right
    have hverdict : b = true ↔ IsPeak f.comp (passes f) map [⟨m, n⟩] [w] [m + (p + 1 : ℕ)] := by
      rw [b2]
      constructor
      · rintro ⟨g1, rfl⟩
        refine ⟨by rw [← hd]; exact hmc, g1, ?_⟩
        intro e e1 e2 e3
        obtain ⟨j, rfl, e4, e5⟩ := mem_one.1 e1
        simp only at e4 e5
        rw [inWindow_one] at e3
        have hj := f2 j e4 e5 (by push_cast at e3; rwa [← add_assoc] at e3)
        by_contra hn
        exact hdd v2 c2 _ hcur _ hj (Ne.symm e2) ⟨by simpa [Finder.cmp] using hn, hfirst.2 _ hj⟩
      · rintro ⟨g1, g2, g3⟩
        refine ⟨g2, ?_⟩
        by_contra hne
        obtain ⟨j, rfl, j1, j2, -⟩ := c2 t hfirst.1
        rw [mem_centered hlen1, hi] at htin
        have := g3 [j] (mem_one.2 ⟨j, rfl, j1, j2⟩) hne htin
        have h3 := hfirst.2 _ hcur
        unfold Finder.cmp at h3
        rw [this] at h3
        cases h3
    intro x
    show x ∈ content mx ↔ _
    rw [m2, Multiset.mem_add, h.maxima]
    constructor
    · rintro (hx | ⟨q, a1, a2, a3, a4⟩)
      · cases b with
        | false => simp at hx
        | true =>
          rw [if_pos rfl, Multiset.mem_singleton] at hx
          subst hx
          exact ⟨p + 1, by omega, le_refl _, rfl, hverdict.1 rfl⟩
      · exact ⟨q, a1, by omega, a3, a4⟩
    · rintro ⟨q, a1, a2, a3, a4⟩
      by_cases hq : q = p + 1
      · left
        subst hq
        subst a3
        rw [hverdict.2 a4, if_pos rfl, Multiset.mem_singleton]
      · exact Or.inr ⟨q, a1, by omega, a3, a4⟩

theorem inv_fold {β : Type} [LinearOrder β] {key : List ℤ → β} {f : Finder V} {map : List ℤ → V} {m n w : ℤ}
    (hc : ∀ x y, f.cmp map x y = true ↔ key x < key y) (hw : StrictWeak f.comp) (hd : f.domain = [⟨m, n⟩]) (hi : f.iwin = [w])
    (hf : Fits f.domain f.iwin) (h1 : 1 ≤ w)
    (hdist : ∀ i j, m ≤ i → i < m + n → m ≤ j → j < m + n → i ≠ j → ¬ Equivalent f.comp (map [i]) (map [j]))
    (k p : ℕ) (hp : (p : ℤ) + k < n) (s : State) (h : Inv key f map m n w p s) :
    ∃ s', ((List.range k).map fun j => at' f.domain (p + 1 + j)).foldlM (body f map) s = .ok s' ∧ Inv key f map m n w (p + k) s' := by
  induction k generalizing p s with
  | zero => exact ⟨s, rfl, h⟩
  | succ k ih =>
    obtain ⟨s1, e1, e2⟩ := inv_step hc hw hd hi hf h1 hdist (by push_cast at hp; omega) h
    obtain ⟨s', g1, g2⟩ := ih (p + 1) (by push_cast at hp ⊢; omega) s1 e2
    refine ⟨s', ?_, by rwa [show p + (k + 1) = p + 1 + k by omega]⟩
    rw [range_shift (fun q => at' f.domain q) (p + 1) k]
    refine (Heap.foldlM_cons (body f map) s s1 _ _ ?_).trans g1
    rw [hd, at_one (by push_cast at hp ⊢; omega)]
    exact e1

/-- C40, part: in one dimension, with a window of half-size at least one and pairwise inequivalent values, `detect` returns
and reports exactly the peaks other than the first cell of the domain. Missing: the first cell, equivalent values, windows of
half-size zero, more dimensions; in all these cases the property is false (`C40_violated`). -/
theorem C40_oneDim_partial (f : Finder V) (map : List ℤ → V) (m n w : ℤ) (hw : StrictWeak f.comp) (hd : f.domain = [⟨m, n⟩])
    (hi : f.iwin = [w]) (hf : Fits f.domain f.iwin) (h1 : 1 ≤ w)
    (hdist : ∀ i j, m ≤ i → i < m + n → m ≤ j → j < m + n → i ≠ j → ¬ Equivalent f.comp (map [i]) (map [j])) :
    ∃ out, detect f map = .ok out ∧ ∀ c, c ∈ out ↔ IsPeak f.comp (passes f) map f.domain f.iwin c ∧ c ≠ [m] := by
  obtain ⟨β, _, key, hc⟩ := key_exists (strictWeak_cmp hw map)
  have hn : 0 < n := by have := hf.proper.pos; rw [hd] at this; simpa using this
  have hcard : card f.domain = n := by rw [hd]; simp [card]
  have e0 : at' f.domain 0 = [m] := by
    rw [hd]; have := at_one (m := m) (n := n) (p := 0) (by simpa using hn); simpa using this
  have hm0 : Mem f.domain [m] := by rw [← e0]; exact at_mem hf.proper 0
  obtain ⟨L, l1, l2, l3⟩ := initState_eq map hf hm0
  obtain ⟨v1, p1, p2⟩ := pushList_ok (f.cmp map) L (Vec.empty [])
  have o1 := pushList_ordered key (f.cmp map) hc L _ v1 (ordered_empty key []) p1
  have p2' : content v1 = (L : Multiset (List ℤ)) := by rw [p2]; simp [content, Vec.empty]
  rw [p1] at l3
  have hinv : Inv key f map m n w 0 ⟨v1, Vec.empty [], centered [m] f.iwin, [m]⟩ := by
    refine ⟨by simp, by simp [hi], o1, by rw [p2']; simpa using l1, ?_, ?_, ?_⟩
    · intro x hx
      rw [p2', Multiset.mem_coe, l2, hd, mem_one, hi] at hx
      obtain ⟨⟨j, rfl, a1, a2⟩, a3⟩ := hx
      rw [inWindow_one, abs_le] at a3
      exact ⟨j, rfl, a1, a2, by simp only [Nat.cast_zero]; omega⟩
    · intro j j1 j2 j3
      rw [p2', Multiset.mem_coe, l2, hd, mem_one, hi, inWindow_one]
      exact ⟨⟨j, rfl, j1, j2⟩, by simpa using j3⟩
    · intro x
      simp only [content, Vec.empty]
      constructor
      · intro h; simp at h
      · rintro ⟨q, a1, a2, -⟩; omega
  obtain ⟨s', g1, g2⟩ := inv_fold hc hw hd hi hf h1 hdist (n.toNat - 1) 0 (by push_cast; omega) _ hinv
  obtain ⟨out, o, o'⟩ := drain_ok (f.cmp map) (s'.maxima.len + 1) s'.maxima (by omega)
  refine ⟨out, ?_, ?_⟩
  · rw [detect_eq f map hf.proper hf.card, e0, l3, hcard]
    simp only [bind_ok]
    simp only [Nat.zero_add] at g1
    rw [pure_bind, g1]
    exact o
  · intro c
    rw [← Multiset.mem_coe, o', g2.maxima, hd, hi]
    constructor
    · rintro ⟨q, a1, a2, rfl, a4⟩
      refine ⟨a4, ?_⟩
      simp only [ne_eq, List.cons.injEq, and_true]
      omega
    · rintro ⟨a1, a2⟩
      obtain ⟨j, rfl, j1, j2⟩ := mem_one.1 a1.1
      simp only at j1 j2
      have : j ≠ m := fun e => a2 (by rw [e])
      refine ⟨(j - m).toNat, by omega, by omega, ?_, a1⟩
      congr 1
      omega

/-! ### The domain -/

/-- The domains set by the three setters: the cells `0 ≤ c < isize`, `imin ≤ c ≤ imax` and `|c - icenter| ≤ isize` (the last
one has about twice the size asked for). -/
theorem C40_setDomain (f : Finder V) :
    (∀ (isize c : List ℤ), Mem (f.setDomainSize isize).domain c ↔
      c.length = isize.length ∧ ∀ d < isize.length, 0 ≤ c.getD d 0 ∧ c.getD d 0 < isize.getD d 0) ∧
    (∀ imin imax : List ℤ, List.Forall₂ (fun m x => I32 (x - m) ∧ I32 (x - m + 1)) imin imax →
      ∃ g, f.setDomainMinMax imin imax = .ok g ∧ g.comp = f.comp ∧ g.iwin = f.iwin ∧ ∀ c, Mem g.domain c ↔
        c.length = imin.length ∧ ∀ d < imin.length, imin.getD d 0 ≤ c.getD d 0 ∧ c.getD d 0 ≤ imax.getD d 0) ∧
    (∀ icenter isize : List ℤ, List.Forall₂ (fun c w => I32 (c - w) ∧ I32 (2 * w) ∧ I32 (2 * w + 1)) icenter isize →
      ∃ g, f.setDomainCentered icenter isize = .ok g ∧ g.comp = f.comp ∧ g.iwin = f.iwin ∧ ∀ c, Mem g.domain c ↔
        c.length = icenter.length ∧ ∀ d < icenter.length, |c.getD d 0 - icenter.getD d 0| ≤ isize.getD d 0) := by
  refine ⟨fun isize c => ?_, fun imin imax h => ?_, fun icenter isize h => ?_⟩
  · refine (C36_initBounds (List.replicate isize.length 0) isize (by simp) c).trans ?_
    rw [List.length_replicate]
    have e : ∀ d < isize.length, (List.replicate isize.length (0 : ℤ)).getD d 0 = 0 := by
      intro d hd; simp [List.getD, List.getElem?_replicate, hd]
    constructor
    · rintro ⟨h1, h2⟩; exact ⟨h1, fun d hd => by have := h2 d hd; rw [e d hd] at this; omega⟩
    · rintro ⟨h1, h2⟩; exact ⟨h1, fun d hd => by have := h2 d hd; rw [e d hd]; omega⟩
  · obtain ⟨d, h1, h2⟩ := C36_initMinMax imin imax h
    exact ⟨{ f with domain := d }, by simp [Finder.setDomainMinMax, h1, bind, Except.bind, pure, Except.pure], rfl, rfl, h2⟩
  · obtain ⟨d, h1, h2⟩ := C36_initCentered icenter isize h
    exact ⟨{ f with domain := d }, by simp [Finder.setDomainCentered, h1, bind, Except.bind, pure, Except.pure], rfl, rfl, h2⟩

/-! ### Witnesses -/

/-- Order of the values: the largest first. -/
def gtNat (a b : ℕ) : Bool := decide (b < a)

theorem gtNat_strictWeak : StrictWeak gtNat :=
  ⟨fun a => by simp [gtNat], fun a b c => by simp only [gtNat, decide_eq_true_eq]; omega,
    fun a b c => by simp only [gtNat, decide_eq_false_iff_not]; omega⟩

/-- A finder of maxima without filter on the domain starting at the origin. -/
def finder (dims win : List ℤ) : Finder ℕ := (((Finder.new dims.length 0 gtNat).setDomainSize dims).setPeakWindow win)

/-- The map with the given values in one dimension. -/
def row (vals : List ℕ) (c : List ℤ) : ℕ := vals.getD (c.getD 0 0).toNat 0

/-- The map with the given rows. -/
def table (rows : List (List ℕ)) (c : List ℤ) : ℕ := row (rows.getD (c.getD 1 0).toNat []) c

theorem fits_one {n w : ℤ} (hn : 0 < n ∧ n ≤ 1000) (hw : 0 ≤ w ∧ w ≤ 1000) : Fits (finder [n] [w]).domain (finder [n] [w]).iwin := by
  refine ⟨?_, ?_, ?_⟩
  · intro a ha
    simp only [finder, Finder.setPeakWindow, Finder.setDomainSize, initBounds, List.length_cons, List.length_nil,
      List.replicate_succ, List.replicate_zero, List.zipWith_cons_cons, List.zipWith_nil_left, List.mem_singleton] at ha
    subst ha
    unfold I32; simp only; omega
  · simp [finder, Finder.setPeakWindow, Finder.setDomainSize, initBounds, card]
    omega
  · refine List.Forall₂.cons ⟨hw.1, ?_, ?_, ?_⟩ List.Forall₂.nil <;> unfold I32 <;> (try dsimp only) <;> omega

/-- An ordinary case: values 3 1 4 2 7 5 9 6, half-size 1. -/
example : detect (finder [8] [1]) (row [3, 1, 4, 2, 7, 5, 9, 6]) = .ok [[6], [4], [2]] := by decide +kernel

/-- The same with the filter. -/
example : detect ((finder [8] [1]).enableFilterPeakMin true 5) (row [3, 1, 4, 2, 7, 5, 9, 6]) = .ok [[6], [4]] := by decide +kernel

/-- Equal peaks in two dimensions; one of the three maxima of value 2 is missed. -/
example : detect (finder [5, 3] [1, 1]) (table [[0, 1, 0, 2, 0], [0, 0, 0, 0, 0], [2, 0, 0, 0, 2]]) = .ok [[3, 0], [4, 2], [1, 0]] := by
  decide +kernel

/-- The code violates C40 in four ways: (1) the first cell of the domain is never reported; (2) with a window of half-size 0 a
cell is reported only if some stale cell is worse; (3) on a plateau of two equal values a cell is reported; (4) in two
dimensions, even with distinct values, a peak can be missed because it is twice in the heap. -/
theorem C40_violated : ¬ C40_statement ∧
    (detect (finder [3] [1]) (row [5, 1, 2]) = .ok [[2]] ∧
      IsPeak gtNat (passes (finder [3] [1])) (row [5, 1, 2]) (finder [3] [1]).domain [1] [0]) ∧
    (detect (finder [3] [0]) (row [1, 2, 0]) = .ok [[1]] ∧
      IsPeak gtNat (passes (finder [3] [0])) (row [1, 2, 0]) (finder [3] [0]).domain [0] [2]) ∧
    (detect (finder [4] [1]) (row [0, 2, 2, 1]) = .ok [[2]] ∧
      ¬ IsPeak gtNat (passes (finder [4] [1])) (row [0, 2, 2, 1]) (finder [4] [1]).domain [1] [2]) ∧
    (detect (finder [3, 2] [1, 1]) (table [[1, 3, 0], [4, 2, 5]]) = .ok [[2, 1]] ∧
      IsPeak gtNat (passes (finder [3, 2] [1, 1])) (table [[1, 3, 0], [4, 2, 5]]) (finder [3, 2] [1, 1]).domain [1, 1] [0, 1]) := by
  have d1 : detect (finder [3] [1]) (row [5, 1, 2]) = .ok [[2]] := by decide +kernel
  have d2 : detect (finder [3] [0]) (row [1, 2, 0]) = .ok [[1]] := by decide +kernel
  have d3 : detect (finder [4] [1]) (row [0, 2, 2, 1]) = .ok [[2]] := by decide +kernel
  have d4 : detect (finder [3, 2] [1, 1]) (table [[1, 3, 0], [4, 2, 5]]) = .ok [[2, 1]] := by decide +kernel
  have p1 : IsPeak gtNat (passes (finder [3] [1])) (row [5, 1, 2]) (finder [3] [1]).domain [1] [0] := by
    refine ⟨mem_one.2 ⟨0, rfl, by decide⟩, Or.inl rfl, ?_⟩
    intro e h1 h2 h3
    obtain ⟨j, rfl, j1, j2⟩ := mem_one.1 h1
    have : j = 0 ∨ j = 1 ∨ j = 2 := by simp only at j1 j2; omega
    rcases this with rfl | rfl | rfl
    · exact absurd rfl h2
    · decide
    · decide
  refine ⟨?_, ⟨d1, p1⟩, ⟨d2, ?_⟩, ⟨d3, ?_⟩, ⟨d4, ?_⟩⟩
  · intro hst
    obtain ⟨out, o1, o2⟩ := hst ℕ (finder [3] [1]) (row [5, 1, 2]) gtNat_strictWeak (fits_one (by decide) (by decide))
    obtain rfl := Except.ok.inj (o1.symm.trans d1)
    exact absurd ((o2 [0]).2 p1) (by decide)
  · refine ⟨mem_one.2 ⟨2, rfl, by decide⟩, Or.inl rfl, ?_⟩
    intro e h1 h2 h3
    obtain ⟨j, rfl, j1, j2⟩ := mem_one.1 h1
    rw [inWindow_one, abs_le] at h3
    have : j = 2 := by omega
    exact absurd (by rw [this]) h2
  · intro h
    have := h.2.2 [1] (mem_one.2 ⟨1, rfl, by decide⟩) (by decide) (inWindow_one.2 (by decide))
    revert this
    decide
  · refine ⟨?_, Or.inl rfl, ?_⟩
    · exact mem_cons_cons.2 ⟨by decide, mem_one.2 ⟨1, rfl, by decide⟩⟩
    · intro e h1 h2 h3
      obtain ⟨i, js, rfl, ⟨i1, i2⟩, h1⟩ := mem_cons.1 h1
      obtain ⟨j, rfl, j1, j2⟩ := mem_one.1 h1
      have hw := h3.2 0 (by simp)
      simp only [List.getD_cons_zero] at hw
      rw [abs_le] at hw
      simp only at i1 i2 j1 j2
      have hi : i = 0 ∨ i = 1 := by omega
      have hj : j = 0 ∨ j = 1 := by omega
      rcases hi with rfl | rfl <;> rcases hj with rfl | rfl
      · decide
      · exact absurd rfl h2
      · decide
      · decide

/-- The map with the given values on a box of 3 × 3 × 3 cells, the first coordinate running fastest. -/
def cube (vals : List ℕ) (c : List ℤ) : ℕ := vals.getD (c.getD 0 0 + 3 * c.getD 1 0 + 9 * c.getD 2 0).toNat 0

/-- Values of a box of 3 × 3 × 3 cells, all distinct. -/
def cubeVals : List ℕ := [4, 23, 9, 5, 8, 10, 15, 6, 24, 13, 7, 20, 3, 21, 18, 12, 14, 11, 1, 22, 19, 25, 16, 0, 26, 2, 17]

/-- In three dimensions the code even reports cells that are no peaks, also for pairwise distinct values: the cell (0, 1, 2)
of value 25 is reported although its neighbour (0, 2, 2) has the value 26. (The boustrophedon order jumps, see C35, and the
window follows only the coordinate with the largest increment.) -/
theorem C40_threeDim_violated : cubeVals.Nodup ∧
    (∃ out, detect (finder [3, 3, 3] [1, 1, 1]) (cube cubeVals) = .ok out ∧ [0, 1, 2] ∈ out) ∧
    ¬ IsPeak gtNat (passes (finder [3, 3, 3] [1, 1, 1])) (cube cubeVals) (finder [3, 3, 3] [1, 1, 1]).domain [1, 1, 1] [0, 1, 2] := by
  refine ⟨by decide, ?_, ?_⟩
  · exact ⟨[[0, 2, 2], [0, 1, 2], [2, 2, 0], [1, 0, 0]], by decide +kernel, by decide⟩
  · intro h
    have := h.2.2 [0, 2, 2] ?_ (by decide) ?_
    · revert this
      decide
    · exact mem_cons_cons.2 ⟨by decide, mem_cons_cons.2 ⟨by decide, mem_one.2 ⟨2, rfl, by decide⟩⟩⟩
    · refine ⟨rfl, fun d hd => ?_⟩
      have : d = 0 ∨ d = 1 ∨ d = 2 := by simp at hd; omega
      rcases this with rfl | rfl | rfl <;> decide

/-- The map with the given values on a grid of rows of 8 cells. -/
def grid8 (vals : List ℕ) (c : List ℤ) : ℕ := vals.getD (c.getD 0 0 + 8 * c.getD 1 0).toNat 0

/-- Values of a grid of 8 × 7 cells, all distinct. -/
def gridVals : List ℕ := [
  52, 30, 14, 36, 50, 38, 51, 35,
  54, 55, 44, 10, 53, 24, 49, 17,
  20, 40, 34,  8, 47, 27, 23,  4,
   5,  9, 13, 28, 26, 19, 16,  3,
  32,  6, 43, 22,  7, 11, 25, 21,
  15, 18, 39, 46, 41, 33, 45, 37,
  48, 31, 42, 29,  1,  2, 12,  0]

/-- Also in two dimensions, with pairwise distinct values and moves between adjacent cells, the code reports cells that are no
peaks: with half-sizes 2 and 3 the cell (3, 5) of value 46 is reported although the cell (4, 2) of its window has the value 47.
(A cell that enters the window again is twice in the heap, and `popTop` breaks the order of a heap with ties, see C20.) -/
theorem C40_twoDim_violated : gridVals.Nodup ∧
    (∃ out, detect (finder [8, 7] [2, 3]) (grid8 gridVals) = .ok out ∧ [3, 5] ∈ out) ∧
    ¬ IsPeak gtNat (passes (finder [8, 7] [2, 3])) (grid8 gridVals) (finder [8, 7] [2, 3]).domain [2, 3] [3, 5] := by
  refine ⟨by decide, ⟨[[1, 1], [4, 1], [0, 6], [3, 5]], by decide +kernel, by decide⟩, ?_⟩
  intro h
  have := h.2.2 [4, 2] ?_ (by decide) ?_
  · revert this
    decide
  · exact mem_cons_cons.2 ⟨by decide, mem_one.2 ⟨2, rfl, by decide⟩⟩
  · refine ⟨rfl, fun d hd => ?_⟩
    have : d = 0 ∨ d = 1 := by simp at hd; omega
    rcases this with rfl | rfl <;> decide

end Verif.PeakFinder
