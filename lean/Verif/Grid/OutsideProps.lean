import Verif.Grid.Props

/-! Property theorems C176 (see properties.jsonl): access to cells outside the domain of a grid. -/
namespace Verif.Grid
open Verif Verif.Interval Verif.Interval.Spec
variable {α : Type}

theorem staticGetPos_cases (iv : Interval) : ∀ is : List ℤ, is.length = iv.length → staticGetPos iv is = .ok (rank iv is) ∨ staticGetPos iv is = .error (.ub .overflow) := by
  induction iv with
  | nil => intro is _; rw [rank_nil]; exact .inl rfl
  | cons a iv ih =>
    intro is hl
    cases is with
    | nil => simp at hl
    | cons i is =>
      rw [rank_cons]
      unfold staticGetPos
      by_cases h1 : I32 (i - a.min)
      · rw [int_ok h1]
        rcases ih is (by simpa using hl) with e | e
        · rw [e]
          show (Cxx.int (a.dim * rank iv is) >>= fun y => Cxx.int (i - a.min + y)) = _ ∨ (Cxx.int (a.dim * rank iv is) >>= fun y => Cxx.int (i - a.min + y)) = _
          by_cases h2 : I32 (a.dim * rank iv is)
          · rw [int_ok h2]
            show Cxx.int (i - a.min + a.dim * rank iv is) = _ ∨ Cxx.int (i - a.min + a.dim * rank iv is) = _
            by_cases h3 : I32 (i - a.min + a.dim * rank iv is)
            · exact .inl (int_ok h3)
            · exact .inr (int_bad h3)
          · rw [int_bad h2]; exact .inr rfl
        · rw [e]; exact .inr rfl
      · rw [int_bad h1]; exact .inr rfl

theorem rasterGetPos_cases (iv : Interval) : ∀ is : List ℤ, is.length = iv.length → rasterGetPos iv is = .ok (rank iv is) ∨ rasterGetPos iv is = .error (.ub .overflow) := by
  induction iv with
  | nil => intro is _; rw [rank_nil]; exact .inl rfl
  | cons a iv ih =>
    intro is hl
    cases is with
    | nil => simp at hl
    | cons i is =>
      have e0 : rank (a :: iv) (i :: is) = rank iv is * a.dim + i - a.min := by rw [rank_cons]; ring
      rw [e0]
      unfold rasterGetPos
      rcases ih is (by simpa using hl) with e | e
      · rw [e]
        show (Cxx.int (rank iv is * a.dim) >>= fun x => Cxx.int (x + i) >>= fun y => Cxx.int (y - a.min)) = _ ∨
          (Cxx.int (rank iv is * a.dim) >>= fun x => Cxx.int (x + i) >>= fun y => Cxx.int (y - a.min)) = _
        by_cases h1 : I32 (rank iv is * a.dim)
        · rw [int_ok h1]
          show (Cxx.int (rank iv is * a.dim + i) >>= fun y => Cxx.int (y - a.min)) = _ ∨ (Cxx.int (rank iv is * a.dim + i) >>= fun y => Cxx.int (y - a.min)) = _
          by_cases h2 : I32 (rank iv is * a.dim + i)
          · rw [int_ok h2]
            show Cxx.int (rank iv is * a.dim + i - a.min) = _ ∨ Cxx.int (rank iv is * a.dim + i - a.min) = _
            by_cases h3 : I32 (rank iv is * a.dim + i - a.min)
            · exact .inl (int_ok h3)
            · exact .inr (int_bad h3)
          · rw [int_bad h2]; exact .inr rfl
        · rw [int_bad h1]; exact .inr rfl
      · rw [e]; exact .inr rfl

/-- C176, full statement: an access to a cell outside the domain throws, as the access to a position out of range does. -/
def C176_statement : Prop :=
  ∀ (g : Grid ℕ), Valid g → ∀ is : List ℤ, is.length = g.domain.length → (∀ i ∈ is, I32 i) → ¬ Mem g.domain is → ∀ x, read g is = .error .throw ∧ write g is x = .error .throw

/-- **C176** (partial), what the accesses do for all indices: they are accesses to the inside cell of the same rank when there is one (for cells inside, the cell itself), and have undefined
behaviour otherwise or when the position overflows. Missing: the exception, `C176_never`, `C176_violated`. -/
theorem C176_access_partial (g : Grid α) (h : Valid g) (is : List ℤ) (hl : is.length = g.domain.length) :
    (∃ js, Mem g.domain js ∧ rank g.domain js = rank g.domain is ∧ (Mem g.domain is → js = is) ∧ read g is = read g js ∧ ∀ x, write g is x = write g js x) ∨
    (¬ Mem g.domain is ∧ (rank g.domain is < 0 ∨ card g.domain ≤ rank g.domain is) ∧ read g is = .error (.ub .outOfBounds) ∧ ∀ x, write g is x = .error (.ub .outOfBounds)) ∨
    (¬ Mem g.domain is ∧ read g is = .error (.ub .overflow) ∧ ∀ x, write g is x = .error (.ub .overflow)) := by
  obtain ⟨h1, h2, h3⟩ := h
  rcases staticGetPos_cases g.domain is hl with e | e
  · by_cases hr : 0 ≤ rank g.domain is ∧ rank g.domain is < card g.domain
    · refine .inl ⟨cell (rank g.domain is) g.domain, cell_mem h1.pos _, rank_cell h1.pos hr.1 hr.2, fun hm => cell_rank h1.pos hm, ?_, fun x => ?_⟩
      · unfold read
        rw [staticGetPos_ok h1 h2 (cell_mem h1.pos _), rank_cell h1.pos hr.1 hr.2, e]
      · unfold write
        rw [staticGetPos_ok h1 h2 (cell_mem h1.pos _), rank_cell h1.pos hr.1 hr.2, e]
    · have hn : ¬ (0 ≤ rank g.domain is ∧ rank g.domain is < (g.data.len : ℤ)) := by rw [h3]; exact hr
      refine .inr (.inl ⟨fun hm => hr (rank_bounds h1.pos hm), by omega, ?_, fun x => ?_⟩)
      · unfold read
        rw [e]
        show g.data.get _ = _
        unfold Vec.get
        rw [if_neg hn]
      · unfold write
        rw [e]
        show (g.data.set _ x >>= fun d => _) = _
        unfold Vec.set
        rw [if_neg hn]
        rfl
  · refine .inr (.inr ⟨fun hm => ?_, ?_, fun x => ?_⟩)
    · rw [staticGetPos_ok h1 h2 hm] at e; cases e
    · unfold read; rw [e]; rfl
    · unfold write; rw [e]; rfl

/-- C176: no access with indices throws. -/
theorem C176_never (g : Grid α) (h : Valid g) (is : List ℤ) (hl : is.length = g.domain.length) : read g is ≠ .error .throw ∧ ∀ x, write g is x ≠ .error .throw := by
  rcases C176_access_partial g h is hl with ⟨js, hj, -, -, e1, e2⟩ | ⟨-, -, e1, e2⟩ | ⟨-, e1, e2⟩
  · refine ⟨?_, fun x => ?_⟩
    · rw [e1, (read_ok h hj).1]; simp
    · rw [e2 x]
      unfold write
      rw [staticGetPos_ok h.1 h.2.1 hj]
      have hb := rank_bounds h.1.pos hj
      show (g.data.set _ x >>= fun d => _) ≠ _
      unfold Vec.set
      rw [if_pos ⟨hb.1, by rw [h.2.2]; exact hb.2⟩]
      simp [bind, Except.bind, pure, Except.pure]
  · refine ⟨?_, fun x => ?_⟩
    · rw [e1]; simp
    · rw [e2 x]; simp
  · refine ⟨?_, fun x => ?_⟩
    · rw [e1]; simp
    · rw [e2 x]; simp

/-- C176: with one coordinate no cell outside is taken for a cell inside. -/
theorem C176_row (g : Grid α) (h : Valid g) (a : Axis) (hd : g.domain = [a]) (i : ℤ) (hm : ¬ Mem g.domain [i]) : ∃ k, read g [i] = .error (.ub k) ∧ ∀ x, write g [i] x = .error (.ub k) := by
  rcases C176_access_partial g h [i] (by rw [hd]; rfl) with ⟨js, hj, hr, -, -⟩ | ⟨-, -, e1, e2⟩ | ⟨-, e1, e2⟩
  · exfalso
    rw [hd] at hj hr hm
    obtain ⟨j, js, rfl, hj1, -⟩ := mem_cons.1 hj
    rw [rank_cons, rank_cons, rank_nil, rank_nil] at hr
    refine hm (mem_cons_cons.2 ⟨by omega, .nil⟩)
  · exact ⟨_, e1, e2⟩
  · exact ⟨_, e1, e2⟩

theorem mem_I32 {iv : Interval} (h : Proper iv) {is : List ℤ} (hm : Mem iv is) : ∀ i ∈ is, I32 i := by
  induction iv generalizing is with
  | nil => rw [mem_nil] at hm; subst hm; intro i hi; cases hi
  | cons a iv ih =>
    obtain ⟨j, js, rfl, h1, h2⟩ := mem_cons.1 hm
    intro i hi
    rcases List.mem_cons.1 hi with rfl | hi
    · have := h a (by simp)
      unfold I32 at *
      omega
    · exact ih (fun b hb => h b (by simp [hb])) h2 i hi

theorem card_pos' {iv : Interval} (h : Proper iv) : 0 < card iv := by
  have := rank_bounds h.pos (cell_mem h.pos 0)
  omega

/-- C176: every grid with a second coordinate of two values or more has a cell outside that is taken for another cell: reading it gives the value of that cell and writing it changes that cell. -/
theorem C176_alias (g : Grid α) (h : Valid g) (a b : Axis) (jv : Interval) (hd : g.domain = a :: b :: jv) (hb : 2 ≤ b.dim) :
    ∃ is js, is.length = g.domain.length ∧ (∀ i ∈ is, I32 i) ∧ ¬ Mem g.domain is ∧ Mem g.domain js ∧ read g is = read g js ∧ (∃ v, read g is = .ok v) ∧
      ∀ x, ∃ g', write g is x = .ok g' ∧ read g' js = .ok x := by
  have h0 := h
  obtain ⟨h1, h2, h3⟩ := h
  rw [hd] at h1 h2 h3
  have ha := h1 a (by simp)
  have hb' := h1 b (by simp)
  have hp : Proper jv := fun c hc => h1 c (by simp [hc])
  have hpb : Proper (b :: jv) := fun c hc => h1 c (List.mem_cons_of_mem _ hc)
  have hcj := card_pos' hp
  have hcb := card_pos' hpb
  have e1 : card (b :: jv) = b.dim * card jv := by simp [card]
  have e2 : card (a :: b :: jv) = a.dim * card (b :: jv) := by simp [card]
  have hm0 := cell_mem hp.pos 0
  have hr0 := rank_cell hp.pos (le_refl 0) hcj
  have hcb2 : 2 ≤ card (b :: jv) := by rw [e1]; nlinarith
  have hcb3 : card (b :: jv) ≤ 2147483647 := by rw [e2] at h2; nlinarith [ha.1]
  have hca : 2 * a.dim ≤ card (a :: b :: jv) := by rw [e2]; nlinarith [ha.1]
  have k1 : Mem (b :: jv) (b.min :: cell 0 jv) := mem_cons_cons.2 ⟨by omega, hm0⟩
  have k2 : Mem (b :: jv) ((b.min + 1) :: cell 0 jv) := mem_cons_cons.2 ⟨by omega, hm0⟩
  have r1 : rank (b :: jv) (b.min :: cell 0 jv) = 0 := by rw [rank_cons, hr0]; ring
  have r2 : rank (b :: jv) ((b.min + 1) :: cell 0 jv) = 1 := by rw [rank_cons, hr0]; ring
  have fin : ∀ is js : List ℤ, (∀ i ∈ is, I32 i) → is.length = (a :: b :: jv).length → ¬ Mem (a :: b :: jv) is → Mem (a :: b :: jv) js → rank (a :: b :: jv) js = rank (a :: b :: jv) is →
      staticGetPos (a :: b :: jv) is = .ok (rank (a :: b :: jv) is) →
      ∃ is js, is.length = g.domain.length ∧ (∀ i ∈ is, I32 i) ∧ ¬ Mem g.domain is ∧ Mem g.domain js ∧ read g is = read g js ∧ (∃ v, read g is = .ok v) ∧
        ∀ x, ∃ g', write g is x = .ok g' ∧ read g' js = .ok x := by
    intro is js hi hl hn hm hr e
    have hm' : Mem g.domain js := by rw [hd]; exact hm
    have er : read g is = read g js := by
      unfold read
      rw [hd, e, staticGetPos_ok h1 h2 hm, hr]
    refine ⟨is, js, by rw [hd]; exact hl, hi, by rw [hd]; exact hn, hm', er, ⟨_, er.trans (read_ok h0 hm').1⟩, fun x => ?_⟩
    have ew : write g is x = write g js x := by
      unfold write
      rw [hd, e, staticGetPos_ok h1 h2 hm, hr]
    have hh : Holds g (fun ks => g.data.val (rank g.domain ks).toNat) := fun ks hks => read_ok h0 hks
    obtain ⟨g', s1, s2, -, s4⟩ := step_ok h0 hh (.write js x) hm'
    refine ⟨g', ew.trans s1, ?_⟩
    have := (s4 js (by rw [s2]; exact hm')).1
    rw [this]
    simp [Spec.step]
  have hlen : (cell 0 jv).length = jv.length := hm0.length_eq.symm
  by_cases hc : a.min + a.dim ≤ 2147483647
  · refine fin ((a.min + a.dim) :: b.min :: cell 0 jv) (a.min :: (b.min + 1) :: cell 0 jv) ?_ (by simp [hlen]) ?_ (mem_cons_cons.2 ⟨by omega, k2⟩) ?_ ?_
    · intro i hi
      rcases List.mem_cons.1 hi with rfl | hi
      · unfold I32 at *; omega
      · exact mem_I32 hpb k1 i hi
    · intro hm
      have := (mem_cons_cons.1 hm).1
      omega
    · rw [rank_cons a, rank_cons a, r1, r2]; ring
    · unfold staticGetPos
      rw [staticGetPos_ok hpb hcb3 k1, rank_cons a, r1, int_ok (by unfold I32 at *; omega)]
      show (Cxx.int (a.dim * 0) >>= fun y => Cxx.int (a.min + a.dim - a.min + y)) = _
      rw [int_ok (by unfold I32; omega)]
      exact int_ok (by unfold I32 at *; omega)
  · refine fin ((a.min - 1) :: (b.min + 1) :: cell 0 jv) ((a.min + a.dim - 1) :: b.min :: cell 0 jv) ?_ (by simp [hlen]) ?_ (mem_cons_cons.2 ⟨by omega, k1⟩) ?_ ?_
    · intro i hi
      rcases List.mem_cons.1 hi with rfl | hi
      · unfold I32 at *; omega
      · exact mem_I32 hpb k2 i hi
    · intro hm
      have := (mem_cons_cons.1 hm).1
      omega
    · rw [rank_cons a, rank_cons a, r1, r2]; ring
    · unfold staticGetPos
      rw [staticGetPos_ok hpb hcb3 k2, rank_cons a, r2, int_ok (by unfold I32 at *; omega)]
      show (Cxx.int (a.dim * 1) >>= fun y => Cxx.int (a.min - 1 - a.min + y)) = _
      rw [int_ok (by unfold I32 at *; omega)]
      exact int_ok (by unfold I32 at *; omega)

/-- C176: through the position (`value(getPos(indices))`) the cells whose rank is out of range throw, and the others are still taken for the cell of that rank. -/
theorem C176_position_partial (g : Grid α) (h : Valid g) (is : List ℤ) (hl : is.length = g.domain.length) :
    getPos g is = .error (.ub .overflow) ∨ ∃ p, getPos g is = .ok p ∧ p = rank g.domain is ∧
      ((p < 0 ∨ card g.domain ≤ p) → I32 p → readPos g p = .error .throw) ∧ (0 ≤ p → p < card g.domain → ∃ js, Mem g.domain js ∧ getIndices g p = .ok js ∧ readPos g p = read g js) := by
  rcases rasterGetPos_cases g.domain is hl with e | e
  · refine .inr ⟨_, e, rfl, fun hr hi => ?_, fun h0 hp => ?_⟩
    · obtain ⟨h1, h2, h3⟩ := h
      exact (C39_position_throws g (by omega) _ hi (by rw [h3]; exact hr) (g.data.val 0)).1
    · have hm := cell_mem h.1.pos (rank g.domain is)
      refine ⟨_, hm, rasterGetIndices_ok h.1 h0 (by have := h.2.1; unfold I32; omega), ?_⟩
      have := read_ok h hm
      rw [rank_cell h.1.pos h0 hp] at this
      rw [this.1, this.2]
  · exact .inl e

/-- The statement of C176 is false: in a grid of 2 x 2 the cell (2, 0) is read as (0, 1). -/
theorem C176_violated : ¬ C176_statement := by
  intro h
  have h1 := (h ⟨⟨4, fun i => i + 5⟩, [⟨0, 2⟩, ⟨0, 2⟩]⟩ ⟨by
      intro a ha
      simp only [List.mem_cons, List.not_mem_nil, or_false, or_self] at ha
      subst ha; unfold I32; norm_num, by simp [card], by simp [card]⟩ [2, 0] rfl (by
      intro i hi
      simp only [List.mem_cons, List.not_mem_nil, or_false] at hi
      rcases hi with rfl | rfl <;> (unfold I32; norm_num)) (by
      intro hm
      have := (mem_cons_cons.1 hm).1
      norm_num at this) 9).1
  have h2 : read (⟨⟨4, fun i => i + 5⟩, [⟨0, 2⟩, ⟨0, 2⟩]⟩ : Grid ℕ) [2, 0] = .ok 7 := by decide
  rw [h2] at h1
  cases h1

-- cells outside a grid of 2 x 2: taken for another one, out of bounds, overflow
example : read (⟨⟨4, fun i => i + 5⟩, [⟨0, 2⟩, ⟨0, 2⟩]⟩ : Grid ℕ) [-1, 1] = .ok 6 ∧ read (⟨⟨4, fun i => i + 5⟩, [⟨0, 2⟩, ⟨0, 2⟩]⟩ : Grid ℕ) [0, 2] = .error (.ub .outOfBounds) ∧
    read (⟨⟨4, fun i => i + 5⟩, [⟨0, 2⟩, ⟨0, 2⟩]⟩ : Grid ℕ) [0, 2147483647] = .error (.ub .overflow) := by decide

end Verif.Grid
