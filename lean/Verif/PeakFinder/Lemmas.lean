import Verif.PeakFinder.Model
import Verif.PeakFinder.Spec
import Verif.Interval.Props
import Verif.Heap.Props
import Verif.Heap.MinOrder

/-! Lemmas on the peak finder: the traversal, the sliding window and the heap of the window. -/
namespace Verif.PeakFinder
open Verif Verif.Interval Verif.Interval.Spec Verif.PeakFinder.Spec
variable {V : Type}

/-! ### The loop over the domain -/

theorem foldlM_cons' {α β : Type} (f : β → α → Outcome β) (b : β) (x : α) (l : List α) :
    (x :: l).foldlM f b = (f b x).bind (fun b' => l.foldlM f b') := rfl

theorem domainLoop_succ {f : Finder V} {map : List ℤ → V} {e it nx : Iter} {fuel : ℕ} {s : State} (h : it.pos ≠ e.pos)
    (hn : it.next boustroGetIndices f.domain = .ok nx) :
    domainLoop f map e (fuel + 1) it s = (body f map s it.indices).bind (fun s' => domainLoop f map e fuel nx s') := by
  rw [domainLoop, if_pos h]
  cases hb : body f map s it.indices with
  | error e => rfl
  | ok s' => rw [hn]; rfl

theorem domainLoop_eq {f : Finder V} {map : List ℤ → V} {g : ℤ → List ℤ} {N : ℕ}
    (hN : ∀ p : ℤ, 0 ≤ p → p < N → I32 (p + 1)) (hix : ∀ p : ℤ, 0 ≤ p → p ≤ N → boustroGetIndices f.domain p = .ok (g p)) :
    ∀ (k p : ℕ) (e : Iter) (fuel : ℕ) (s : State), e.pos = N → p + k = N → k < fuel →
      domainLoop f map e fuel ⟨p, g p⟩ s = ((List.range k).map fun j => g (p + j : ℕ)).foldlM (body f map) s := by
  intro k
  induction k with
  | zero =>
    intro p e fuel s he hp hf
    obtain ⟨fuel, rfl⟩ : ∃ m, fuel = m + 1 := ⟨fuel - 1, by omega⟩
    unfold domainLoop
    rw [if_neg (by simp only [ne_eq, not_not]; omega)]
    rfl
  | succ k ih =>
    intro p e fuel s he hp hf
    obtain ⟨fuel, rfl⟩ : ∃ m, fuel = m + 1 := ⟨fuel - 1, by omega⟩
    have hn : Iter.next boustroGetIndices f.domain ⟨p, g p⟩ = .ok ⟨((p + 1 : ℕ) : ℤ), g ((p + 1 : ℕ) : ℤ)⟩ := by
      rw [Nat.cast_add, Nat.cast_one]
      exact next_ok (int_ok (hN _ (by simp only; omega) (by simp only; omega))) (hix _ (by simp only; omega) (by simp only; omega))
    rw [range_shift (fun q => g ((q : ℕ) : ℤ)) p k, foldlM_cons', domainLoop_succ (by simp only; omega) hn]
    simp only
    cases hb : body f map s (g p) with
    | error e => rfl
    | ok s' => exact ih (p + 1) e fuel s' he (by omega) (by omega)

/-- The cell at a position of the boustrophedon order. -/
def at' (d : Interval) (p : ℕ) : List ℤ := fold d (digits p d)

/-- `detect` is a fold over the cells of the domain in boustrophedon order. -/
theorem detect_eq (f : Finder V) (map : List ℤ → V) (h : Proper f.domain) (hc : card f.domain ≤ 2147483647) :
    detect f map = (do
      let s ← initState f map (at' f.domain 0)
      let s ← ((List.range ((card f.domain).toNat - 1)).map fun j => at' f.domain (1 + j)).foldlM (body f map) s
      drain (f.cmp map) (s.maxima.len + 1) s.maxima) := by
  have hs := size_ok h hc
  have hpos := card_pos h.pos
  have hix := fun p h0 hp => boustroGetIndices_ok h (p := p) h0 hp
  have hb : begin boustroGetIndices f.domain = .ok ⟨0, at' f.domain 0⟩ := by
    unfold begin Iter.mk'
    rw [not_empty h.pos, hix 0 (le_refl _) (by unfold I32; omega)]
    rfl
  have he : «end» boustroGetIndices f.domain = .ok ⟨card f.domain, fold f.domain (digits (card f.domain) f.domain)⟩ := by
    unfold «end» Iter.mk'
    rw [ofSize_small (by omega), hs, not_empty h.pos, hix _ hpos.le (by unfold I32; omega)]
    rfl
  have hn : Iter.next boustroGetIndices f.domain ⟨0, at' f.domain 0⟩ = .ok ⟨((1 : ℕ) : ℤ), at' f.domain 1⟩ :=
    next_ok (it := ⟨0, at' f.domain 0⟩) (int_ok (by unfold I32; simp)) (hix 1 (by omega) (by unfold I32; simp))
  unfold detect
  rw [hb, he]
  simp only [Heap.bind_ok]
  rw [show Cxx.assert ((0 : ℤ) ≠ card f.domain) = .ok () by unfold Cxx.assert; rw [if_pos (by omega)]]
  simp only [Heap.bind_ok]
  cases hi : initState f map (at' f.domain 0) with
  | error e => rfl
  | ok s =>
    simp only [Heap.bind_ok]
    rw [hn]
    simp only [Heap.bind_ok]
    have := domainLoop_eq (map := map) (g := fun p => fold f.domain (digits p f.domain)) (N := (card f.domain).toNat)
      (fun p h0 hp => by unfold I32; omega) (fun p h0 hp => hix p h0 (by unfold I32; omega)) ((card f.domain).toNat - 1) 1
      ⟨card f.domain, fold f.domain (digits (card f.domain) f.domain)⟩ (size f.domain + 1) s
      (by simp only; omega) (by omega) (by omega)
    unfold at'
    rw [this]

/-! ### The window -/

/-- The window centred on a cell. -/
def centered (c w : List ℤ) : Interval := List.zipWith (fun c w => ⟨c - w, 2 * w + 1⟩) c w

/-- One step along coordinate `d`. -/
inductive Adj : List ℤ → List ℤ → ℕ → ℤ → Prop
  | head (x k : ℤ) (l : List ℤ) (h : k = 1 ∨ k = -1) : Adj (x :: l) ((x + k) :: l) 0 k
  | tail (x : ℤ) {l m : List ℤ} {d : ℕ} {k : ℤ} (h : Adj l m d k) : Adj (x :: l) (x :: m) (d + 1) k

theorem adj_of_adjacent {p c : List ℤ} (h : Adjacent p c) : ∃ d k, Adj p c d k := by
  obtain ⟨hl, d, hd, h1, h2⟩ := h
  induction d generalizing p c with
  | zero =>
    match p, c, hl with
    | [], [], _ => simp at hd
    | x :: p, y :: c, hl =>
      have e : p = c := by
        refine List.ext_getElem (by simpa using hl) fun i hi hi' => ?_
        have := h2 (i + 1) (by simpa using hi) (by omega)
        simp only [List.getD_cons_succ] at this
        simp only [List.getD, List.getElem?_eq_getElem hi, List.getElem?_eq_getElem hi', Option.getD_some] at this
        exact this.symm
      subst e
      simp only [List.getD_cons_zero] at h1
      refine ⟨0, y - x, ?_⟩
      have := Adj.head x (y - x) p (by omega)
      rwa [add_sub_cancel] at this
  | succ d ih =>
    match p, c, hl with
    | [], [], _ => simp at hd
    | x :: p, y :: c, hl =>
      have e := h2 0 (by simp) (by omega)
      simp only [List.getD_cons_zero] at e
      subst e
      obtain ⟨d', k, h⟩ := ih (p := p) (c := c) (by simpa using hl) (by simpa using hd) (by simpa using h1)
        (fun e he hne => by have := h2 (e + 1) (by simpa using he) (by omega); simpa using this)
      exact ⟨_, _, Adj.tail _ h⟩

theorem findIncrementLoop_same {a : ℕ} {k : ℤ} {d : ℕ} (l : List ℤ) : findIncrementLoop a k d l l = .ok (a, k) := by
  induction l generalizing d with
  | nil => rfl
  | cons x l ih =>
    unfold findIncrementLoop
    rw [sub_self, int_ok (by unfold I32; simp)]
    simp only [Heap.bind_ok]
    rw [int_ok (by unfold I32; simp)]
    simp only [Heap.bind_ok]
    rw [if_neg (by simp)]
    exact ih

theorem findIncrement_ok {p c : List ℤ} {d : ℕ} {k : ℤ} (h : Adj p c d k) (e : ℕ) :
    findIncrementLoop 0 0 e p c = .ok (e + d, k) := by
  induction h generalizing e with
  | head x k l h =>
    unfold findIncrementLoop
    rw [add_sub_cancel_left, int_ok (by unfold I32; omega)]
    simp only [Heap.bind_ok]
    rw [int_ok (by unfold I32; omega)]
    simp only [Heap.bind_ok]
    rw [if_pos (by omega), findIncrementLoop_same]
    rfl
  | @tail x l m d k h ih =>
    unfold findIncrementLoop
    rw [sub_self, int_ok (by unfold I32; simp)]
    simp only [Heap.bind_ok]
    rw [int_ok (by unfold I32; simp)]
    simp only [Heap.bind_ok]
    rw [if_neg (by simp), ih (e + 1)]
    rw [show e + 1 + d = e + (d + 1) by omega]

/-- Conditions on an axis of the domain and the half-size of the window. -/
abbrev FitsAxis (a : Axis) (w : ℤ) : Prop := 0 ≤ w ∧ I32 (a.min - w) ∧ I32 (a.min + a.dim + w) ∧ I32 (2 * w + 1)

/-- A window centred on a domain cell: its axes are not empty, representable and overlap the domain up to the half-size. -/
theorem centered_ok {dom : Interval} {w c : List ℤ} (hw : List.Forall₂ FitsAxis dom w) (hc : Mem dom c) :
    (∀ a ∈ centered c w, 0 < a.dim) ∧ Spec.Repr (centered c w) ∧ (centered c w).length = dom.length ∧
      List.Forall₂ (fun (a b : Axis) => -2147483648 ≤ Min.min (a.min + a.dim) (b.min + b.dim) - 1 - Max.max a.min b.min)
        (centered c w) dom ∧ initCentered c w = .ok (centered c w) := by
  induction hw generalizing c with
  | nil =>
    rw [mem_nil] at hc; subst hc
    simp [centered, Spec.Repr, initCentered]
  | @cons a w dom ws h _ ih =>
    obtain ⟨i, is, rfl, h1, h2⟩ := mem_cons.1 hc
    obtain ⟨r1, r2, r3, r4, r5⟩ := ih h2
    obtain ⟨f1, f2, f3, f4⟩ := h
    unfold I32 at f2 f3 f4
    simp only [centered, List.zipWith_cons_cons] at r1 r2 r3 r4 r5 ⊢
    refine ⟨?_, ?_, by simpa using r3, List.Forall₂.cons ?_ r4, ?_⟩
    · intro b hb
      rcases List.mem_cons.1 hb with rfl | hb
      · simp only; omega
      · exact r1 b hb
    · intro b hb
      rcases List.mem_cons.1 hb with rfl | hb
      · simp only; unfold I32; omega
      · exact r2 b hb
    · simp only; omega
    · unfold initCentered
      rw [int_ok (z := i - w) (by unfold I32; omega), int_ok (z := 2 * w) (by unfold I32; omega)]
      simp only [Heap.bind_ok]
      rw [int_ok (by unfold I32; omega), r5]
      rfl

theorem mem_centered {c w : List ℤ} (hl : c.length = w.length) (e : List ℤ) : Mem (centered c w) e ↔ InWindow w c e := by
  unfold InWindow
  induction c generalizing w e with
  | nil => simp [centered, mem_nil]
  | cons x c ih =>
    match w, hl with
    | v :: w, hl =>
      match e with
      | [] => simp [centered, mem_cons]
      | y :: e =>
        have := ih (w := w) (by simpa using hl) e
        simp only [centered, List.zipWith_cons_cons] at this ⊢
        rw [mem_cons_cons, this]
        constructor
        · rintro ⟨h1, h2, h3⟩
          refine ⟨by simp [h2], fun d hd => ?_⟩
          match d with
          | 0 => simp only [List.getD_cons_zero]; rw [abs_le]; simp only at h1; omega
          | d + 1 => simpa using h3 d (by simpa using hd)
        · rintro ⟨h1, h2⟩
          have h0 := h2 0 (by simp)
          simp only [List.getD_cons_zero] at h0
          rw [abs_le] at h0
          refine ⟨by simp only; omega, by simpa using h1, fun d hd => ?_⟩
          simpa using h2 (d + 1) (by simpa using hd)

/-- The slide of the window by one step: the stacked interval holds the cells that enter the window. -/
theorem step_ok {dom : Interval} {w p c : List ℤ} {d : ℕ} {k : ℤ} (hw : List.Forall₂ FitsAxis dom w) (hp : Mem dom p)
    (hc : Mem dom c) (h : Adj p c d k) :
    ∃ s, stacked (centered p w) d k = .ok s ∧ translate (centered p w) d k = .ok (centered c w) ∧
      (∀ x, Mem s x ↔ Mem (centered c w) x ∧ ¬ Mem (centered p w) x) ∧ (∀ a ∈ s, 0 < a.dim) ∧ Spec.Repr s ∧ s.length = dom.length ∧
      List.Forall₂ (fun (a b : Axis) => -2147483648 ≤ Min.min (a.min + a.dim) (b.min + b.dim) - 1 - Max.max a.min b.min) s dom := by
  induction h generalizing dom w with
  | head x k l hk =>
    cases hw with
    | nil => rw [mem_nil] at hp; cases hp
    | @cons a v dom ws ha hws =>
      obtain ⟨hp1, hp2⟩ := mem_cons_cons.1 hp
      obtain ⟨hc1, -⟩ := mem_cons_cons.1 hc
      obtain ⟨r1, r2, r3, r4, -⟩ := centered_ok hws hp2
      obtain ⟨f1, f2, f3, f4⟩ := ha
      unfold I32 at f2 f3 f4
      have et : translate (centered (x :: l) (v :: ws)) 0 k = .ok (centered ((x + k) :: l) (v :: ws)) := by
        simp only [centered, List.zipWith_cons_cons]
        unfold translate
        simp only
        rw [int_ok (by unfold I32; omega)]
        simp only [Heap.bind_ok]
        rw [show x - v + k = x + k - v by ring]
        rfl
      obtain ⟨s, t, hs, ht, hst⟩ := slide_ok (iv := centered (x :: l) (v :: ws)) (d := 0) (k := k)
        (fun b hb => by
          rcases List.mem_cons.1 hb with rfl | hb
          · simp only; omega
          · exact r1 b hb)
        (fun b hb => by
          rcases List.mem_cons.1 hb with rfl | hb
          · simp only; unfold I32; omega
          · exact r2 b hb)
        (by simp [centered]) (by simp only [centered, List.zipWith_cons_cons, List.getElem_cons_zero]; omega)
        (by simp only [centered, List.zipWith_cons_cons, List.getElem_cons_zero]; unfold I32; omega)
      obtain rfl := Except.ok.inj (ht.symm.trans et)
      refine ⟨s, hs, et, hst, ?_⟩
      have es : s = (if k = 1 then (⟨x - v + (2 * v + 1), 1⟩ : Axis) else ⟨x - v - 1, 1⟩) :: centered l ws := by
        simp only [centered, List.zipWith_cons_cons] at hs ⊢
        unfold stacked at hs
        rcases hk with rfl | rfl
        · rw [if_pos (by omega)] at hs
          simp only at hs
          rw [int_ok (by unfold I32; omega)] at hs
          exact (Except.ok.inj hs).symm
        · rw [if_neg (by omega)] at hs
          simp only at hs
          rw [int_ok (by unfold I32; omega)] at hs
          simp only [Heap.bind_ok] at hs
          rw [int_ok (by unfold I32; simp)] at hs
          exact (Except.ok.inj hs).symm
      subst es
      refine ⟨?_, ?_, by simpa using r3, List.Forall₂.cons ?_ r4⟩
      · intro b hb
        rcases List.mem_cons.1 hb with rfl | hb
        · split_ifs <;> simp
        · exact r1 b hb
      · intro b hb
        rcases List.mem_cons.1 hb with rfl | hb
        · unfold I32; split_ifs <;> simp only <;> omega
        · exact r2 b hb
      · split_ifs <;> simp only <;> omega
  | @tail x l m d k h ih =>
    cases hw with
    | nil => rw [mem_nil] at hp; cases hp
    | @cons a v dom ws ha hws =>
      obtain ⟨hp1, hp2⟩ := mem_cons_cons.1 hp
      obtain ⟨hc1, hc2⟩ := mem_cons_cons.1 hc
      obtain ⟨s, s1, s2, s3, s4, s5, s6, s7⟩ := ih hws hp2 hc2
      obtain ⟨f1, f2, f3, f4⟩ := ha
      unfold I32 at f2 f3 f4
      simp only [centered, List.zipWith_cons_cons] at s1 s2 s3 ⊢
      refine ⟨⟨x - v, 2 * v + 1⟩ :: s, ?_, ?_, ?_, ?_, ?_, by simpa using s6, List.Forall₂.cons ?_ s7⟩
      · unfold stacked; rw [s1]; rfl
      · unfold translate; rw [s2]; rfl
      · rintro (_ | ⟨y, e⟩)
        · simp [mem_cons]
        · rw [mem_cons_cons, mem_cons_cons, mem_cons_cons, s3]
          tauto
      · intro b hb
        rcases List.mem_cons.1 hb with rfl | hb
        · simp only; omega
        · exact s4 b hb
      · intro b hb
        rcases List.mem_cons.1 hb with rfl | hb
        · simp only; unfold I32; omega
        · exact s5 b hb
      · simp only; omega

/-! ### The cells of the intersection -/

theorem clip_interAxis {a b : Axis} (ha : I32 a.min ∧ I32 a.dim ∧ I32 (a.min + a.dim)) (hb : 0 < b.dim ∧ I32 b.min ∧ I32 b.dim ∧ I32 (b.min + b.dim - 1)) :
    0 ≤ (clip (interAxis a b)).dim ∧ (0 < (clip (interAxis a b)).dim → (clip (interAxis a b)).dim ≤ b.dim ∧
      I32 (clip (interAxis a b)).min ∧ I32 (clip (interAxis a b)).dim ∧
      I32 ((clip (interAxis a b)).min + (clip (interAxis a b)).dim - 1)) := by
  unfold clip interAxis
  unfold I32 at *
  split_ifs with h <;> simp only at h ⊢ <;> omega

theorem inter_cells {s dom : Interval} (hl : s.length = dom.length) (hr : Spec.Repr s) (hd : Proper dom) :
    (∀ a ∈ (List.zipWith interAxis s dom).map clip, 0 ≤ a.dim) ∧
      ((∀ a ∈ (List.zipWith interAxis s dom).map clip, 0 < a.dim) →
        Proper ((List.zipWith interAxis s dom).map clip) ∧ card ((List.zipWith interAxis s dom).map clip) ≤ card dom) := by
  induction s generalizing dom with
  | nil =>
    match dom, hl with
    | [], _ => simp [Proper]
  | cons a s ih =>
    match dom, hl with
    | b :: dom, hl =>
      obtain ⟨h1, h2⟩ := ih (dom := dom) (by simpa using hl) (fun c hc => hr c (by simp [hc])) hd.tail
      obtain ⟨c1, c2⟩ := clip_interAxis (hr a (by simp)) (hd b (by simp))
      simp only [List.zipWith_cons_cons, List.map_cons]
      refine ⟨?_, fun hp => ?_⟩
      · intro c hc
        rcases List.mem_cons.1 hc with rfl | hc
        · exact c1
        · exact h1 c hc
      · have hp0 := hp _ List.mem_cons_self
        obtain ⟨d1, d2, d3, d4⟩ := c2 hp0
        obtain ⟨e1, e2⟩ := h2 (fun c hc => hp c (List.mem_cons_of_mem _ hc))
        refine ⟨?_, ?_⟩
        · intro c hc
          rcases List.mem_cons.1 hc with rfl | hc
          · exact ⟨hp0, d2, d3, d4⟩
          · exact e1 c hc
        · rw [card_cons, card_cons]
          exact mul_le_mul d1 e2 (card_pos e1.pos).le (le_trans hp0.le d1)

/-- The cells pushed for an interval: those of the interval that lie in the domain, each once. -/
theorem pushCells_ok (cmp : List ℤ → List ℤ → Bool) (items : Vec (List ℤ)) {s dom : Interval} (hl : s.length = dom.length)
    (hr : Spec.Repr s) (hd : Proper dom) (hc : card dom ≤ 2147483647) :
    ∃ L : List (List ℤ), L.Nodup ∧ (∀ x, x ∈ L ↔ Mem s x ∧ Mem dom x) ∧
      pushCells cmp items ((List.zipWith interAxis s dom).map clip) = L.foldlM (Heap.push cmp) items := by
  obtain ⟨h1, h2⟩ := inter_cells hl hr hd
  have hm := mem_inter hl
  generalize (List.zipWith interAxis s dom).map clip = r at h1 h2 hm ⊢
  by_cases hp : ∀ a ∈ r, 0 < a.dim
  · obtain ⟨p1, p2⟩ := h2 hp
    obtain ⟨L, l1, l2, l3, -⟩ := C33_raster_iteration r p1 (by omega) (size r + 1) (by have := size_ok p1 (by omega); omega)
    refine ⟨L, l2, fun x => (l3 x).trans (hm x), ?_⟩
    unfold pushCells
    rw [l1]
    rfl
  · have he : empty r = true := by rw [empty_iff]; push Not at hp; exact hp
    obtain ⟨-, -, h⟩ := C38_partial r h1 he rasterGetIndices (size r)
    refine ⟨[], List.nodup_nil, fun x => ?_, ?_⟩
    · rw [← hm]
      have : ¬ Mem r x := fun h => hp (exists_mem_iff.1 ⟨x, h⟩)
      simp [this]
    · unfold pushCells
      rw [h]
      rfl

theorem repr_domain {dom : Interval} {w : List ℤ} (hf : Fits dom w) : Spec.Repr dom := by
  obtain ⟨h1, -, h3⟩ := hf
  induction h3 with
  | nil => intro a ha; cases ha
  | @cons a w dom ws h _ ih =>
    intro b hb
    rcases List.mem_cons.1 hb with rfl | hb
    · obtain ⟨p1, p2, p3, p4⟩ := h1 b (by simp)
      obtain ⟨f1, f2, f3, f4⟩ := h
      unfold I32 at *
      omega
    · exact ih h1.tail b hb

/-- The body of the loop, for a step between adjacent cells of the domain and a window centred on the previous one. -/
theorem body_eq {f : Finder V} (map : List ℤ → V) (hf : Fits f.domain f.iwin) {s : State} {c : List ℤ} (hp : Mem f.domain s.prev)
    (hc : Mem f.domain c) (ha : Adjacent s.prev c) (hw : s.window = centered s.prev f.iwin) :
    ∃ L : List (List ℤ), L.Nodup ∧
      (∀ x, x ∈ L ↔ Mem f.domain x ∧ InWindow f.iwin c x ∧ ¬ InWindow f.iwin s.prev x) ∧
      body f map s c = (do
        let items ← L.foldlM (Heap.push (f.cmp map)) s.items
        let items ← evict (f.cmp map) (centered c f.iwin) (items.len + 1) items
        let peak ← isPeak f map items c
        let maxima ← body.pushPeak f map c peak s.maxima
        return ⟨items, maxima, centered c f.iwin, c⟩) := by
  obtain ⟨d, k, hadj⟩ := adj_of_adjacent ha
  obtain ⟨st, s1, s2, s3, s4, s5, s6, s7⟩ := step_ok hf.win hp hc hadj
  have hrd := repr_domain hf
  have hin := intersect_ok s4 hf.proper.pos s5 hrd s6 s7
  obtain ⟨L, l1, l2, l3⟩ := pushCells_ok (f.cmp map) s.items s6 s5 hf.proper hf.card
  have hlen := hf.win.length_eq
  refine ⟨L, l1, ?_, ?_⟩
  · intro x
    rw [l2, s3, mem_centered (by rw [mem_length hc, hlen]), mem_centered (by rw [mem_length hp, hlen])]
    tauto
  · have e1 : findIncrement s.prev c = .ok (d, k) := by
      have := findIncrement_ok hadj 0
      rwa [Nat.zero_add] at this
    unfold body
    rw [e1]
    simp only [Heap.bind_ok]
    rw [hw, s1]
    simp only [Heap.bind_ok]
    rw [hin]
    simp only [Heap.bind_ok]
    rw [l3, s2]
    simp only [Heap.bind_ok]

theorem initState_eq {f : Finder V} (map : List ℤ → V) (hf : Fits f.domain f.iwin) {c : List ℤ} (hc : Mem f.domain c) :
    ∃ L : List (List ℤ), L.Nodup ∧ (∀ x, x ∈ L ↔ Mem f.domain x ∧ InWindow f.iwin c x) ∧
      initState f map c = (do
        let items ← L.foldlM (Heap.push (f.cmp map)) (Vec.empty [])
        return ⟨items, Vec.empty [], centered c f.iwin, c⟩) := by
  obtain ⟨s4, s5, s6, s7, s8⟩ := centered_ok hf.win hc
  have hrd := repr_domain hf
  have hin := intersect_ok s4 hf.proper.pos s5 hrd s6 s7
  obtain ⟨L, l1, l2, l3⟩ := pushCells_ok (f.cmp map) (Vec.empty []) s6 s5 hf.proper hf.card
  have hlen := hf.win.length_eq
  refine ⟨L, l1, ?_, ?_⟩
  · intro x
    rw [l2, mem_centered (by rw [mem_length hc, hlen])]
    tauto
  · unfold initState
    rw [s8]
    simp only [Heap.bind_ok]
    rw [hin]
    simp only [Heap.bind_ok]
    rw [l3]

end Verif.PeakFinder
