import Verif.Grid.Model
import Verif.Interval.Props
import Mathlib.Tactic.NormNum

/-! Properties C39 and C67. -/
namespace Verif.Grid
open Verif Verif.Interval Verif.Interval.Spec
variable {α : Type}

/-- A grid as its user sees it: a value for each inside cell. -/
abbrev Content (α : Type) := List ℤ → α

/-- Specification of one operation on the content of a grid of domain `iv`. -/
def Spec.step (iv : Interval) (c : Content α) : Op α → Content α
  | .write is x => fun js => if js = is then x else c js
  | .writePos p x => fun js => if rank iv js = p then x else c js
  | .fill x => fun _ => x

/-- The operation addresses an inside cell or a position in `[0, size)`. -/
def Spec.Legal (iv : Interval) : Op α → Prop
  | .write is _ => Mem iv is
  | .writePos p _ => 0 ≤ p ∧ p < card iv
  | .fill _ => True

/-- A grid whose storage has one element per cell. -/
def Valid (g : Grid α) : Prop := Proper g.domain ∧ card g.domain ≤ 2147483647 ∧ (g.data.len : ℤ) = card g.domain

/-- The grid holds the given content. -/
def Holds (g : Grid α) (c : Content α) : Prop :=
  ∀ is, Mem g.domain is → read g is = .ok (c is) ∧ readPos g (rank g.domain is) = .ok (c is)

theorem read_ok {g : Grid α} (h : Valid g) {is : List ℤ} (hm : Mem g.domain is) :
    read g is = .ok (g.data.val (rank g.domain is).toNat) ∧
    readPos g (rank g.domain is) = .ok (g.data.val (rank g.domain is).toNat) := by
  obtain ⟨h1, h2, h3⟩ := h
  have hb := rank_bounds h1.pos hm
  constructor
  · unfold read
    simp only [staticGetPos_ok h1 h2 hm, bind, Except.bind]
    unfold Vec.get
    rw [if_pos ⟨hb.1, by omega⟩]
  · unfold readPos
    have e : Cxx.toSize (rank g.domain is) = (rank g.domain is).toNat := by
      have := toSize_nat hb.1 (by omega); omega
    rw [e, if_pos (by omega)]

theorem rank_inj {iv : Interval} (h : ∀ a ∈ iv, 0 < a.dim) {x y : List ℤ} (hx : Mem iv x) (hy : Mem iv y)
    (e : rank iv x = rank iv y) : x = y := by
  rw [← cell_rank h hx, e, cell_rank h hy]

/-- One legal operation succeeds and acts on the content as specified. -/
theorem step_ok {g : Grid α} (h : Valid g) {c : Content α} (hc : Holds g c) (o : Op α) (ho : Spec.Legal g.domain o) :
    ∃ g', step g o = .ok g' ∧ g'.domain = g.domain ∧ Valid g' ∧ Holds g' (Spec.step g.domain c o) := by
  have h' := h
  obtain ⟨h1, h2, h3⟩ := h'
  have hval : ∀ is, Mem g.domain is → g.data.val (rank g.domain is).toNat = c is := by
    intro is hm
    have := (read_ok h hm).1.symm.trans (hc is hm).1
    exact Except.ok.inj this
  have key : ∀ g' : Grid α, g'.domain = g.domain → g'.data.len = g.data.len → ∀ c' : Content α,
      (∀ is, Mem g.domain is → g'.data.val (rank g.domain is).toNat = c' is) → Valid g' ∧ Holds g' c' := by
    intro g' e1 e2 c' e3
    have hv : Valid g' := by unfold Valid; rw [e1, e2]; exact h
    refine ⟨hv, ?_⟩
    intro is hm
    have := read_ok hv hm
    rw [e1] at hm
    rw [this.1, this.2, e1, e3 is hm]
    exact ⟨rfl, rfl⟩
  match o, ho with
  | .write is x, ho =>
    have hb := rank_bounds h1.pos ho
    refine ⟨⟨⟨g.data.len, fun j => if j = (rank g.domain is).toNat then x else g.data.val j⟩, g.domain⟩, ?_, rfl, ?_⟩
    · unfold step write
      simp only [staticGetPos_ok h1 h2 ho, bind, Except.bind]
      unfold Vec.set
      rw [if_pos ⟨hb.1, by omega⟩]
      rfl
    · apply key
      · rfl
      · rfl
      intro js hm
      have hb' := rank_bounds h1.pos hm
      simp only [Spec.step]
      by_cases e : js = is
      · subst e; simp
      · rw [if_neg e, if_neg, hval js hm]
        intro e'
        exact e (rank_inj h1.pos hm ho (by omega))
  | .writePos p x, ho =>
    have e : Cxx.toSize p = p.toNat := by
      have := toSize_nat ho.1 (by have := ho.2; omega); omega
    refine ⟨⟨⟨g.data.len, fun j => if j = Cxx.toSize p then x else g.data.val j⟩, g.domain⟩, ?_, rfl, ?_⟩
    · show writePos g p x = _
      unfold writePos
      rw [if_pos (by rw [e]; have := ho.1; have := ho.2; omega)]
    · apply key
      · rfl
      · rfl
      intro js hm
      have hb' := rank_bounds h1.pos hm
      simp only [Spec.step]
      rw [e]
      by_cases e' : rank g.domain js = p
      · rw [if_pos e', if_pos (by rw [e'])]
      · rw [if_neg e', if_neg (by have := ho.1; omega), hval js hm]
  | .fill x, _ =>
    refine ⟨fill g x, rfl, rfl, ?_⟩
    apply key
    · rfl
    · rfl
    intro js hm
    have hb' := rank_bounds h1.pos hm
    simp only [Spec.step, fill]
    rw [if_pos (by omega)]

/-- C39: after any sequence of writes to inside cells, writes to valid positions and fills, each inside cell reads (by cell
and by position) the value the specification gives: the last one written to it or filled. -/
theorem C39_history (g : Grid α) (h : Valid g) (c : Content α) (hc : Holds g c) (os : List (Op α))
    (ho : ∀ o ∈ os, Spec.Legal g.domain o) :
    ∃ g', run g os = .ok g' ∧ g'.domain = g.domain ∧ Holds g' (os.foldl (Spec.step g.domain) c) := by
  induction os generalizing g c with
  | nil => exact ⟨g, rfl, rfl, hc⟩
  | cons o os ih =>
    obtain ⟨g1, e1, e2, e3, e4⟩ := step_ok h hc o (ho o (by simp))
    obtain ⟨g2, f1, f2, f3⟩ := ih g1 e3 _ e4 (fun o' ho' => by rw [e2]; exact ho o' (by simp [ho']))
    refine ⟨g2, ?_, f2.trans e2, ?_⟩
    · unfold run; simp only [e1, bind, Except.bind]; exact f1
    · rw [e2] at f3; exact f3

/-- C39: a new grid initialised with bounds is valid and holds the default value in each cell. -/
theorem C39_init (maxSize : ℕ) (z : α) (min dims : List ℤ) (hp : Proper (Interval.initBounds min dims))
    (hc : card (Interval.initBounds min dims) ≤ 2147483647) (hm : card (Interval.initBounds min dims) ≤ maxSize) :
    ∃ g, initBounds maxSize z (new z min.length) min dims = .ok g ∧ g.domain = Interval.initBounds min dims ∧ Valid g ∧
      Holds g (fun _ => z) := by
  have hs := size_ok hp hc
  let g : Grid α := ⟨⟨size (Interval.initBounds min dims), fun i => if i < 0 then z else z⟩, Interval.initBounds min dims⟩
  have hv : Valid g := ⟨hp, hc, hs⟩
  refine ⟨g, ?_, rfl, hv, ?_⟩
  · unfold initBounds resize
    simp only [bind, Except.bind]
    rw [if_neg (by omega)]
    rfl
  · intro is his
    have := read_ok hv his
    rw [this.1, this.2]
    simp [g]

/-- A grid initialised from the empty one on a given box. -/
theorem init_holds (z : α) (iv : Interval) (hp : Proper iv) (hc : card iv ≤ 2147483647) (maxSize : ℕ) (hm : card iv ≤ maxSize) (n : ℕ) :
    ∃ d, resize maxSize z (new z n).data (size iv) = .ok d ∧ Valid ⟨d, iv⟩ ∧ Holds ⟨d, iv⟩ (fun _ => z) := by
  have hs := size_ok hp hc
  refine ⟨⟨size iv, fun i => if i < 0 then z else z⟩, ?_, ⟨hp, hc, hs⟩, ?_⟩
  · unfold resize
    rw [if_neg (by omega)]
    rfl
  · intro is his
    have := read_ok (g := ⟨⟨size iv, fun i => if i < 0 then z else z⟩, iv⟩) ⟨hp, hc, hs⟩ his
    rw [this.1, this.2]
    simp

/-- C39, initialisation with the dimensions only: the cells are `0 ≤ x < dimensions`. -/
theorem C39_init_dims (maxSize : ℕ) (z : α) (dims : List ℤ) (hd : ∀ d ∈ dims, 0 < d ∧ I32 d) (hc : dims.prod ≤ 2147483647)
    (hm : dims.prod ≤ maxSize) :
    ∃ g, initDims maxSize z (new z dims.length) dims = .ok g ∧ Valid g ∧ Holds g (fun _ => z) ∧
      ∀ is, Mem g.domain is ↔ List.Forall₂ (fun d i => 0 ≤ i ∧ i < d) dims is := by
  have hiv : Interval.initBounds (dims.map fun _ => 0) dims = dims.map (fun d => ⟨0, d⟩) := by
    unfold Interval.initBounds
    rw [List.zipWith_map_left, List.zipWith_self]
  have hp : Proper (dims.map (fun d => (⟨0, d⟩ : Axis))) := by
    intro a ha
    obtain ⟨d, hd', rfl⟩ := List.mem_map.1 ha
    have := hd d hd'
    unfold I32 at *
    simp only
    omega
  have hcard : card (dims.map (fun d => (⟨0, d⟩ : Axis))) = dims.prod := by unfold card; rw [List.map_map]; exact congrArg List.prod (List.map_id dims)
  obtain ⟨d, h1, h2, h3⟩ := init_holds z _ hp (by rw [hcard]; exact hc) maxSize (by rw [hcard]; exact hm) dims.length
  refine ⟨_, ?_, h2, h3, ?_⟩
  · unfold initDims initBounds
    rw [hiv]
    simp only [bind, Except.bind, h1]
    rfl
  · intro is
    unfold Mem
    rw [List.forall₂_map_left_iff]
    simp

/-- C39, `initMinMax`: the cells are `min ≤ x ≤ max`. -/
theorem C39_init_minMax (maxSize : ℕ) (z : α) (min max : List ℤ)
    (h : List.Forall₂ (fun m x => I32 m ∧ I32 x ∧ m ≤ x ∧ I32 (x - m + 1)) min max)
    (hc : (List.zipWith (fun m x => x - m + 1) min max).prod ≤ 2147483647)
    (hm : (List.zipWith (fun m x => x - m + 1) min max).prod ≤ (maxSize : ℤ)) :
    ∃ g, initMinMax maxSize z (new z min.length) min max = .ok g ∧ Valid g ∧ Holds g (fun _ => z) ∧
      ∀ is, Mem g.domain is ↔
        is.length = min.length ∧ ∀ d < min.length, min.getD d 0 ≤ is.getD d 0 ∧ is.getD d 0 ≤ max.getD d 0 := by
  have h' : List.Forall₂ (fun m x => I32 (x - m) ∧ I32 (x - m + 1)) min max := by
    refine List.Forall₂.imp ?_ h
    intro m x hh
    unfold I32 at *
    omega
  obtain ⟨iv, e1, e2⟩ := C36_initMinMax min max h'
  obtain rfl := Except.ok.inj (e1.symm.trans (initMinMax_ok h.length_eq h'))
  have hp : Proper (List.zipWith (fun m x => (⟨m, x - m + 1⟩ : Axis)) min max) := by
    clear hc hm e1 e2 h'
    induction h with
    | nil => intro a ha; simp at ha
    | cons hx _ ih =>
      intro a ha
      rw [List.zipWith_cons_cons, List.mem_cons] at ha
      rcases ha with rfl | ha
      · unfold I32 at *
        simp only
        omega
      · exact ih a ha
  have hcard : card (List.zipWith (fun m x => (⟨m, x - m + 1⟩ : Axis)) min max) = (List.zipWith (fun m x => x - m + 1) min max).prod := by
    unfold card; rw [List.map_zipWith]
  obtain ⟨d, h1, h2, h3⟩ := init_holds z _ hp (by rw [hcard]; exact hc) maxSize (by rw [hcard]; exact hm) min.length
  refine ⟨_, ?_, h2, h3, e2⟩
  unfold initMinMax
  rw [e1]
  simp only [bind, Except.bind, h1]
  rfl

/-- C39, `initCenter`: the cells are those with `|x - center| ≤ win` in each coordinate. -/
theorem C39_init_center (maxSize : ℕ) (z : α) (center win : List ℤ)
    (h : List.Forall₂ (fun c w => I32 (c - w) ∧ I32 (c + w) ∧ 0 ≤ w ∧ I32 (2 * w + 1)) center win)
    (hc : (List.zipWith (fun _ w => 2 * w + 1) center win).prod ≤ 2147483647)
    (hm : (List.zipWith (fun _ w => 2 * w + 1) center win).prod ≤ (maxSize : ℤ)) :
    ∃ g, initCenter maxSize z (new z center.length) center win = .ok g ∧ Valid g ∧ Holds g (fun _ => z) ∧
      ∀ is, Mem g.domain is ↔
        is.length = center.length ∧ ∀ d < center.length, |is.getD d 0 - center.getD d 0| ≤ win.getD d 0 := by
  have h' : List.Forall₂ (fun c w => I32 (c - w) ∧ I32 (2 * w) ∧ I32 (2 * w + 1)) center win := by
    refine List.Forall₂.imp ?_ h
    intro m x hh
    unfold I32 at *
    omega
  obtain ⟨iv, e1, e2⟩ := C36_initCentered center win h'
  obtain rfl := Except.ok.inj (e1.symm.trans (initCentered_ok h'))
  have hp : Proper (List.zipWith (fun c w => (⟨c - w, 2 * w + 1⟩ : Axis)) center win) := by
    clear hc hm e1 e2 h'
    induction h with
    | nil => intro a ha; simp at ha
    | cons hx _ ih =>
      intro a ha
      rw [List.zipWith_cons_cons, List.mem_cons] at ha
      rcases ha with rfl | ha
      · unfold I32 at *
        simp only
        omega
      · exact ih a ha
  have hcard : card (List.zipWith (fun c w => (⟨c - w, 2 * w + 1⟩ : Axis)) center win) =
      (List.zipWith (fun _ w => 2 * w + 1) center win).prod := by
    unfold card; rw [List.map_zipWith]
  obtain ⟨d, h1, h2, h3⟩ := init_holds z _ hp (by rw [hcard]; exact hc) maxSize (by rw [hcard]; exact hm) center.length
  refine ⟨_, ?_, h2, h3, e2⟩
  unfold initCenter
  rw [e1]
  simp only [bind, Except.bind, h1]
  rfl

/-- C39: a position out of `[0, size)` throws, both for reading and for writing, on every grid with an admissible length. -/
theorem C39_position_throws (g : Grid α) (hl : g.data.len ≤ 9223372036854775807) (p : ℤ) (hp : I32 p)
    (h : p < 0 ∨ (g.data.len : ℤ) ≤ p) (x : α) :
    readPos g p = .error .throw ∧ writePos g p x = .error .throw := by
  have : ¬ Cxx.toSize p < g.data.len := by
    unfold Cxx.toSize I32 at *
    omega
  unfold readPos writePos
  rw [if_neg this, if_neg this]
  exact ⟨rfl, rfl⟩

example : (do
    let g ← initBounds 1000 (0 : ℕ) (new 0 2) [-1, 5] [2, 3]
    let g ← run g [.fill 4, .write [0, 6] 7, .writePos 4 9]
    let a ← read g [0, 6]
    let b ← read g [-1, 7]
    let c ← read g [0, 5]
    return [a, b, c]) = .ok [7, 9, 4] := by decide +kernel

/-- C67: after a grid is initialised again with other bounds, either all the cells have the default value, or the cells
inside both the domains keep their values. -/
def C67_statement : Prop :=
  ∀ (maxSize : ℕ) (g g' : Grid ℕ) (min dims : List ℤ), Valid g → Proper (Interval.initBounds min dims) →
    card (Interval.initBounds min dims) ≤ 2147483647 → initBounds maxSize 0 g min dims = .ok g' →
    (∀ is, Mem g'.domain is → read g' is = .ok 0) ∨
    (∀ is, Mem g.domain is → Mem g'.domain is → read g' is = read g is)

/-- `resize` keeps the values by position: a value moves to another cell. -/
theorem C67_violated : ¬ C67_statement := by
  intro h
  have hpr : ∀ d e : ℤ, 0 < d → 0 < e → d ≤ 3 → e ≤ 3 → Proper [⟨0, d⟩, ⟨0, e⟩] := by
    intro d e h1 h2 h3 h4 a ha
    simp only [List.mem_cons, List.not_mem_nil, or_false] at ha
    rcases ha with rfl | rfl <;> (unfold I32; simp only; omega)
  let g : Grid ℕ := ⟨⟨4, fun i => i + 1⟩, [⟨0, 2⟩, ⟨0, 2⟩]⟩
  have hv : Valid g := ⟨hpr 2 2 (by omega) (by omega) (by omega) (by omega), by norm_num [g, card], by norm_num [g, card]⟩
  have h1 := h 100 g ⟨⟨6, fun i => if i < 4 then i + 1 else 0⟩, [⟨0, 3⟩, ⟨0, 2⟩]⟩ [0, 0] [3, 2] hv
    (hpr 3 2 (by omega) (by omega) (by omega) (by omega)) (by norm_num [card, Interval.initBounds]) rfl
  have m : ∀ d : ℤ, 0 < d → Mem [⟨0, d⟩, ⟨0, 2⟩] [0, 1] := fun d hd =>
    List.Forall₂.cons ⟨by simp, by simpa using hd⟩ (List.Forall₂.cons ⟨by simp, by simp⟩ List.Forall₂.nil)
  rcases h1 with h1 | h1
  · exact absurd (h1 [0, 1] (m 3 (by omega))) (by decide +kernel)
  · exact absurd (h1 [0, 1] (m 2 (by omega)) (m 3 (by omega))) (by decide +kernel)

/-- C67 holds when the initialised grid was empty (`C39_init`), and when only the last dimension changes. Missing: the
other cases, where values move to other cells. -/
theorem C67_partial (maxSize : ℕ) (z : α) (g : Grid α) (hv : Valid g) (min dims : List ℤ)
    (hp : Proper (Interval.initBounds min dims)) (hc : card (Interval.initBounds min dims) ≤ 2147483647)
    (hm : card (Interval.initBounds min dims) ≤ maxSize) (iv : Interval) (a b : Axis)
    (hg : g.domain = iv ++ [a]) (hn : Interval.initBounds min dims = iv ++ [b]) (hab : a.min = b.min) :
    ∃ g', initBounds maxSize z g min dims = .ok g' ∧ Valid g' ∧
      ∀ is, Mem g.domain is → Mem g'.domain is → read g' is = read g is := by
  have hs := size_ok hp hc
  let g' : Grid α := ⟨⟨size (Interval.initBounds min dims), fun i => if i < g.data.len then g.data.val i else z⟩,
    Interval.initBounds min dims⟩
  have hv' : Valid g' := ⟨hp, hc, hs⟩
  refine ⟨g', ?_, hv', ?_⟩
  · unfold initBounds resize
    simp only [bind, Except.bind]
    rw [if_neg (by omega)]
    rfl
  · intro is h1 h2
    rw [(read_ok hv h1).1, (read_ok hv' h2).1]
    have hb := rank_bounds hv.1.pos h1
    have hr : rank g'.domain is = rank g.domain is := by
      show rank (Interval.initBounds min dims) is = _
      rw [hn, hg]
      clear_value g'
      clear hb h1 h2 hv hv' hs hp hc hm hg hn
      induction iv generalizing is with
      | nil =>
        match is with
        | [] => simp [rank, hab]
        | i :: is =>
          simp only [List.nil_append]
          rw [rank_cons, rank_cons, rank_nil, hab]; simp
      | cons c iv ih =>
        match is with
        | [] =>
          have e : ∀ jv : Interval, rank jv [] = rank jv (jv.map fun _ => 0) := by
            intro jv
            unfold rank
            refine Finset.sum_congr rfl fun d _ => ?_
            simp
          rw [e, e]
          simp only [List.cons_append, List.map_cons, List.map_append, List.map_nil]
          rw [rank_cons, rank_cons]
          have := ih (iv.map (fun _ => 0) ++ [0])
          rw [this]
        | i :: is =>
          simp only [List.cons_append]
          rw [rank_cons, rank_cons, ih]
    rw [hr]
    have := hv.2.2
    simp only [g']
    rw [if_pos (by omega)]

end Verif.Grid
