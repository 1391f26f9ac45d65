import Verif.DisjointSet.Lemmas

/-! Property theorems C22 to C28 (see properties.jsonl). -/
namespace Verif.DisjointSet
open Spec

/-- `find(a)` returns `r` in the state `s` (termination included). -/
def Finds (s : State) (a r : ℤ) : Prop := ∃ s', find s a = .ok (r, s')

theorem Finds.unique {s : State} {a r r' : ℤ} (h : Finds s a r) (h' : Finds s a r') : r = r' := by
  obtain ⟨s1, h⟩ := h
  obtain ⟨s2, h'⟩ := h'
  rw [h] at h'
  exact (Prod.mk.inj (Except.ok.inj h')).1

theorem Sim.finds {s : State} {A : Abs} {root : ℕ → ℕ} (h : Sim s A root) {a : ℕ} (ha : a < A.n) : Finds s a (root a) := by
  obtain ⟨s', hf, -⟩ := find_sim h ha
  exact ⟨s', hf⟩

/-! ### C22: find -/

/-- C22: after any valid history every call of `find` terminates on a valid member of the set of its argument, two calls
agree exactly on connected items, and no call of `find` changes the results of later calls. -/
theorem C22_find (h : List Op) (hv : Valid h) : ∃ s, run h = .ok s ∧ s.nodes.len = (absOf h).n ∧
    (∀ a < (absOf h).n, ∃ r < (absOf h).n, Finds s a r ∧ Conn (absOf h) a r) ∧
    (∀ a < (absOf h).n, ∀ b < (absOf h).n, ∀ r r' : ℤ, Finds s a r → Finds s b r' → (r = r' ↔ Conn (absOf h) a b)) ∧
    (∀ a < (absOf h).n, ∀ r s', find s a = .ok (r, s') → s'.nodes.len = s.nodes.len ∧
      ∀ b < (absOf h).n, ∀ r', Finds s b r' ↔ Finds s' b r') := by
  obtain ⟨s, root, hr, hs⟩ := run_sim h hv
  have hlen := hs.len
  refine ⟨s, hr, hlen, fun a ha => ?_, fun a ha b hb r r' h1 h2 => ?_, fun a ha r s' hf => ?_⟩
  · have h1 := hs.inv.rootLt a (by omega)
    refine ⟨root a, by omega, hs.finds ha, (hs.conn_iff ha (by omega)).2 (hs.inv.root_root (by omega)).symm⟩
  · rw [h1.unique (hs.finds ha), h2.unique (hs.finds hb), hs.conn_iff ha hb]
    omega
  · obtain ⟨s1, hf1, hs1⟩ := find_sim hs ha
    rw [hf1] at hf
    obtain ⟨-, rfl⟩ := Prod.mk.inj (Except.ok.inj hf)
    refine ⟨by rw [hs1.len, hlen], fun b hb r' => ?_⟩
    constructor
    · intro h1; rw [h1.unique (hs.finds hb)]; exact hs1.finds hb
    · intro h1; rw [h1.unique (hs1.finds hb)]; exact hs.finds hb

/-- A history with joins, path compression and two ranks. -/
def exampleHist : List Op :=
  [.init 4, .join 0 1, .join 2 3, .makeSet, .join 1 3, .find 3, .join 4 2]

theorem exampleHist_valid : Valid exampleHist := by
  simp [Valid, exampleHist, HistValid, OpValid, Abs.step]

/-! ### C23: join -/

/-- C23: `join` on valid identifiers after any valid history merges exactly the two sets (or nothing, returning the number
of items, when they are the same set) and returns the representative of the merged set. -/
theorem C23_join (h : List Op) (hv : Valid h) (a b : ℕ) (ha : a < (absOf h).n) (hb : b < (absOf h).n) :
    ∃ s r s', run h = .ok s ∧ join s a b = .ok (r, s') ∧ s'.nodes.len = s.nodes.len ∧
      (Conn (absOf h) a b → r = (absOf h).n ∧
        ∀ i < (absOf h).n, ∀ x, Finds s i x ↔ Finds s' i x) ∧
      (¬ Conn (absOf h) a b → Finds s' a r ∧ Finds s' b r) ∧
      (∀ i < (absOf h).n, ∀ j < (absOf h).n, ∀ x y, Finds s' i x → Finds s' j y →
        (x = y ↔ Conn (absOf h) i j ∨ (Conn (absOf h) i a ∧ Conn (absOf h) j b) ∨ (Conn (absOf h) i b ∧ Conn (absOf h) j a))) := by
  obtain ⟨s, root, hr, hs⟩ := run_sim h hv
  obtain ⟨r, s', root', hj, hs', hl, hcase⟩ := join_sim hs ha hb
  refine ⟨s, r, s', hr, hj, hl, fun hc => ?_, fun hc => ?_, fun i hi j hj x y hx hy => ?_⟩
  · rw [hs.conn_iff ha hb] at hc
    rcases hcase with ⟨-, rfl, hr⟩ | ⟨hne, -⟩
    · refine ⟨hr, fun i hi x => ?_⟩
      constructor
      · intro h1; rw [h1.unique (hs.finds hi)]; exact hs'.finds hi
      · intro h1; rw [h1.unique (hs'.finds hi)]; exact hs.finds hi
    · exact absurd hc hne
  · rw [hs.conn_iff ha hb] at hc
    rcases hcase with ⟨he, -⟩ | ⟨-, h1, h2, -⟩
    · exact absurd he hc
    · refine ⟨?_, ?_⟩
      · rw [h1]; exact hs'.finds ha
      · rw [h2]; exact hs'.finds hb
  · rw [hx.unique (hs'.finds hi), hy.unique (hs'.finds hj), hs.conn_iff hi hj, hs.conn_iff hi ha, hs.conn_iff hj hb,
      hs.conn_iff hi hb, hs.conn_iff hj ha]
    rcases hcase with ⟨he, rfl, -⟩ | ⟨-, -, -, hk⟩
    · omega
    · rw [← hk i j]; omega

/-! ### C24: size -/

/-- C24: `size(n)` is the number of items connected to `n`, after any valid history. -/
theorem C24_size (h : List Op) (hv : Valid h) (a : ℕ) (ha : a < (absOf h).n) :
    ∃ s s', run h = .ok s ∧ size s a = .ok ((cls (absOf h) a).card, s') := by
  obtain ⟨s, root, hr, hs⟩ := run_sim h hv
  obtain ⟨s', hsz, -⟩ := size_sim hs ha
  exact ⟨s, s', hr, hsz⟩

/-! ### C25: setNum -/

open Classical in
theorem classes_card {s : State} {A : Abs} {root : ℕ → ℕ} (h : Sim s A root) :
    (classes A).card = ((Finset.range A.n).filter fun i => root i = i).card := by
  have hlen := h.len
  have e : classes A = ((Finset.range A.n).filter fun i => root i = i).image (cls A) := by
    unfold classes
    ext c
    simp only [Finset.mem_image, Finset.mem_filter, Finset.mem_range]
    constructor
    · rintro ⟨i, hi, rfl⟩
      have hri := h.inv.rootLt i (by omega)
      have hrr := h.inv.root_root (i := i) (by omega)
      refine ⟨root i, ⟨by omega, hrr⟩, ?_⟩
      unfold cls
      apply Finset.filter_congr
      intro j hj
      rw [Finset.mem_range] at hj
      rw [h.conn_iff (by omega) hj, h.conn_iff hi hj, hrr]
    · rintro ⟨i, ⟨hi, -⟩, rfl⟩
      exact ⟨i, hi, rfl⟩
  rw [e, Finset.card_image_of_injOn]
  intro i hi j hj he
  simp only [Finset.coe_filter, Finset.mem_range, Set.mem_setOf_eq] at hi hj
  have : j ∈ cls A i := by
    rw [he]; simp only [cls, Finset.mem_filter, Finset.mem_range]
    exact ⟨hj.1, Relation.EqvGen.refl j⟩
  simp only [cls, Finset.mem_filter, Finset.mem_range] at this
  have := (h.conn_iff hi.1 hj.1).1 this.2
  omega

/-- C25, full statement. -/
def C25_statement : Prop :=
  ∀ h : List Op, Valid h → ∃ s, run h = .ok s ∧ s.setNum = (classes (absOf h)).card

/-- Exact value of `setNum()` after any valid history: the number of sets, minus the calls of `makeSet` since the last
initialisation (which forget to count), plus the argument of `initSets` if it was negative. -/
theorem C25_setNum_exact_partial (h : List Op) (hv : Valid h) :
    ∃ s, run h = .ok s ∧ s.setNum = (classes (absOf h)).card - (absOf h).made + (absOf h).neg := by
  obtain ⟨s, root, hr, hs⟩ := run_sim h hv
  exact ⟨s, hr, by rw [classes_card hs, hs.num]⟩

/-- C25 holds for the histories without `makeSet` and without negative `initSets`. Missing: the other ones, see
`C25_setNum_violated`. -/
theorem C25_setNum_partial (h : List Op) (hv : Valid h) (hm : (absOf h).made = 0) (hn : (absOf h).neg = 0) :
    ∃ s, run h = .ok s ∧ s.setNum = (classes (absOf h)).card := by
  obtain ⟨s, hr, hs⟩ := C25_setNum_exact_partial h hv
  exact ⟨s, hr, by rw [hs, hm, hn]; omega⟩

/-- C25 is false for the code: after one `makeSet()` there is one set but `setNum() == 0`. -/
theorem C25_setNum_violated : ¬ C25_statement := by
  intro h
  obtain ⟨s, hr, hs⟩ := h [.makeSet] (by simp [Valid, HistValid, OpValid])
  obtain ⟨s', hr', hs'⟩ := C25_setNum_exact_partial [.makeSet] (by simp [Valid, HistValid, OpValid])
  rw [hr] at hr'
  obtain rfl := Except.ok.inj hr'
  rw [hs] at hs'
  simp [absOf, Abs.step] at hs'
  omega

/-! ### C26: logarithmic depth -/

open Classical in
/-- C26: the loop of `find` evaluates its condition at most `log2(size of the set) + 1` times, i.e. follows at most
`log2(size of the set)` parent links. -/
theorem C26_depth (h : List Op) (hv : Valid h) (a : ℕ) (ha : a < (absOf h).n) :
    ∃ s r, run h = .ok s ∧ Finds s a r ∧ findLoop s.nodes (Nat.log 2 (cls (absOf h) a).card + 1) a = .ok r := by
  obtain ⟨s, root, hr, hs⟩ := run_sim h hv
  have hlen := hs.len
  refine ⟨s, root a, hr, hs.finds ha, ?_⟩
  apply findLoop_log hs.inv (by omega)
  apply Nat.lt_succ_of_le
  apply le_of_eq
  congr 2
  unfold cls
  rw [hlen]
  apply Finset.filter_congr
  intro j hj
  rw [hs.conn_iff ha (Finset.mem_range.1 hj)]
  exact eq_comm

/-! ### C27: parents -/

/-- C27: `parents()` is strictly increasing and lists exactly the values returned by `find`, so that every set has exactly
one member in the list. -/
theorem C27_parents (h : List Op) (hv : Valid h) : ∃ s, run h = .ok s ∧ (parents s).Pairwise (· < ·) ∧
    (∀ x : ℤ, x ∈ parents s ↔ ∃ a < (absOf h).n, Finds s (a : ℕ) x) ∧
    (∀ a < (absOf h).n, ∃! r : ℕ, (r : ℤ) ∈ parents s ∧ r < (absOf h).n ∧ Conn (absOf h) a r) := by
  obtain ⟨s, root, hr, hs⟩ := run_sim h hv
  have hlen := hs.len
  have hmem : ∀ x : ℤ, x ∈ parents s ↔ ∃ r < (absOf h).n, x = (r : ℤ) ∧ root r = r := by
    intro x
    unfold parents
    rw [List.mem_filterMap]
    constructor
    · rintro ⟨i, hi, hx⟩
      rw [List.mem_range] at hi
      split_ifs at hx with hp
      · exact ⟨i, by omega, (Option.some.inj hx).symm, hs.inv.rootFix i hi hp⟩
    · rintro ⟨r, hr, rfl, hrr⟩
      refine ⟨r, List.mem_range.2 (by omega), ?_⟩
      have := hs.inv.rootPar r (by omega)
      rw [hrr] at this
      rw [if_pos this]
  refine ⟨s, hr, ?_, fun x => ?_, fun a ha => ?_⟩
  · unfold parents
    rw [List.pairwise_filterMap]
    apply List.Pairwise.imp _ List.pairwise_lt_range
    intro i j hij x hx y hy
    split_ifs at hx hy
    · have h1 := Option.some.inj hx
      have h2 := Option.some.inj hy
      omega
  · rw [hmem]
    constructor
    · rintro ⟨r, hr, rfl, hrr⟩
      refine ⟨r, hr, ?_⟩
      have := hs.finds hr
      rwa [hrr] at this
    · rintro ⟨a, ha, hx⟩
      have h1 := hs.inv.rootLt a (by omega)
      exact ⟨root a, by omega, hx.unique (hs.finds ha), hs.inv.root_root (by omega)⟩
  · have h1 := hs.inv.rootLt a (by omega)
    have h2 := hs.inv.root_root (i := a) (by omega)
    refine ⟨root a, ⟨(hmem _).2 ⟨root a, by omega, rfl, h2⟩, by omega, (hs.conn_iff ha (by omega)).2 h2.symm⟩, ?_⟩
    rintro r ⟨hr1, hr2, hr3⟩
    rw [hs.conn_iff ha hr2] at hr3
    obtain ⟨r', -, he, hrr⟩ := (hmem _).1 hr1
    have : r = r' := by omega
    subst this
    omega

/-! ### C28: invalid identifiers -/

/-- The identifier is out of range. -/
def BadId (s : State) (n : ℤ) : Prop := n < 0 ∨ (s.nodes.len : ℤ) ≤ n

/-- C28, full statement: with an invalid identifier `find`, `join` and `size` return (no undefined behaviour). -/
def C28_statement : Prop :=
  ∀ (s : State) (n m : ℤ), BadId s n →
    find s n = .ok (s.nodes.len, s) ∧ (∃ r, join s n m = .ok (s.nodes.len, r)) ∧ (∃ k r, size s n = .ok (k, r))

/-- C28 holds for `find`, and for `join` when both identifiers are invalid, in every state whatsoever.
Missing: `size`, and `join` with a valid identifier, which read out of bounds. -/
theorem C28_invalid_partial (s : State) (n m : ℤ) (hn : BadId s n) :
    find s n = .ok (s.nodes.len, s) ∧ (BadId s m → join s n m = .ok (s.nodes.len, s)) := by
  have hf : ∀ k, BadId s k → find s k = .ok (s.nodes.len, s) := by
    intro k hk
    unfold find
    rw [if_pos (show k < 0 ∨ k ≥ (s.nodes.len : ℤ) from hk)]; rfl
  refine ⟨hf n hn, fun hm => ?_⟩
  unfold join
  simp [hf n hn, hf m hm, bind, Except.bind, pure, Except.pure]

/-- `size(n)` with an invalid identifier reads `nodes_[nodes_.size()]`, in every state. -/
theorem C28_size_violated (s : State) (n : ℤ) (hn : BadId s n) : size s n = .error (.ub .outOfBounds) := by
  unfold size
  rw [(C28_invalid_partial s n n hn).1]
  simp only [bind, Except.bind]
  rw [Vec.get_oob _ (Or.inr (le_refl _))]

/-- `join(n, m)` with an invalid `n` and a valid `m` reads out of bounds, after every valid history. -/
theorem C28_join_violated (h : List Op) (hv : Valid h) : ∃ s, run h = .ok s ∧
    ∀ (n : ℤ) (m : ℕ), BadId s n → m < s.nodes.len → join s n m = .error (.ub .outOfBounds) := by
  obtain ⟨s, root, hr, hs⟩ := run_sim h hv
  refine ⟨s, hr, fun n m hn hm => ?_⟩
  have hlen := hs.len
  obtain ⟨s', hf, hs'⟩ := find_sim hs (a := m) (by omega)
  have hr := hs.inv.rootLt m hm
  have hlen' := hs'.len
  unfold join
  rw [(C28_invalid_partial s n n hn).1]
  simp only [bind, Except.bind, hf]
  rw [if_neg (by omega), Vec.get_oob _ (Or.inr (by omega))]

/-- C28 is false for the code. -/
theorem C28_violated : ¬ C28_statement := by
  intro h
  obtain ⟨-, -, k, r, hk⟩ := h (initSets 2) 5 5 (Or.inr (by decide))
  rw [C28_size_violated (initSets 2) 5 (Or.inr (by decide))] at hk
  cases hk

/-! ### Examples -/

/-- What the model computes on the example history. -/
def exampleResult : Outcome (Int × List Int × List Int × Nat) := do
  let s ← run exampleHist
  let ids ← [0, 1, 2, 3, 4].mapM fun i => do let r ← find s i; return r.1
  let sz ← size s 4
  return (s.setNum, parents s, ids, sz.1)

example : exampleResult = .ok (0, [0], [0, 0, 0, 0, 0], 5) := by decide +kernel
example : (absOf exampleHist).n = 5 ∧ (absOf exampleHist).made = 1 := by decide
example : Valid [.init 3, .join 0 1] ∧ (absOf [.init 3, .join 0 1]).made = 0 ∧ (absOf [.init 3, .join 0 1]).neg = 0 := by
  simp [Valid, HistValid, OpValid, absOf, Abs.step]

end Verif.DisjointSet
