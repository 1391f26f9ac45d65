import Verif.DisjointSet.OrderProps
import Mathlib.Algebra.Order.BigOperators.Group.Finset

/-! Property theorem C27, sizes (see properties.jsonl): the sizes of the representatives add up to the number of items. -/
namespace Verif.DisjointSet
open Verif Spec

theorem parents_sum {s : State} {A : Abs} {root : ℕ → ℕ} (h : Sim s A root) (f : ℤ → ℕ) : ((parents s).map f).sum = ∑ i ∈ (Finset.range A.n).filter (fun i => root i = i), f i := by
  have hlen := h.len
  unfold parents
  rw [hlen]
  have key : ∀ m, m ≤ A.n → (((List.range m).filterMap fun i => if (s.nodes.val i).parent = (i : ℤ) then some (i : ℤ) else none).map f).sum =
      ∑ i ∈ (Finset.range m).filter (fun i => root i = i), f i := by
    intro m
    induction m with
    | zero => intro _; rfl
    | succ m ih =>
      intro hm
      rw [List.range_succ, List.filterMap_append, List.map_append, List.sum_append, ih (by omega), Finset.range_add_one, Finset.filter_insert]
      have hp : (s.nodes.val m).parent = (m : ℤ) ↔ root m = m := by
        constructor
        · exact fun hp => h.inv.rootFix m (by omega) hp
        · intro hr
          have := h.inv.rootPar m (by omega)
          rwa [hr] at this
      by_cases hr : root m = m
      · rw [if_pos hr, Finset.sum_insert (by simp), Nat.add_comm]
        simp [hp.2 hr]
      · rw [if_neg hr]
        simp [mt hp.1 hr]
  exact key A.n le_rfl

open Classical in
/-- C27, sizes: `size` returns for every representative listed by `parents`, and the sizes add up to the number of items. -/
theorem C27_total (h : List Op) (hv : Valid h) : ∃ s f, run h = .ok s ∧ (∀ r ∈ parents s, ∃ s', size s r = .ok (f r, s')) ∧ ((parents s).map f).sum = (absOf h).n := by
  obtain ⟨s, root, hr, hs⟩ := run_sim h hv
  have hlen := hs.len
  refine ⟨s, fun r => (cls (absOf h) r.toNat).card, hr, fun r hm => ?_, ?_⟩
  · unfold parents at hm
    rw [List.mem_filterMap] at hm
    obtain ⟨i, hi, hx⟩ := hm
    rw [List.mem_range, hlen] at hi
    split_ifs at hx with hp
    obtain rfl := Option.some.inj hx
    obtain ⟨s', e, -⟩ := size_sim hs hi
    exact ⟨s', e⟩
  · rw [parents_sum hs]
    have hmap : ∀ i ∈ Finset.range (absOf h).n, root i ∈ (Finset.range (absOf h).n).filter (fun i => root i = i) := fun i hi => by
      rw [Finset.mem_range] at hi
      have h1 := hs.inv.rootLt i (by omega)
      exact Finset.mem_filter.2 ⟨Finset.mem_range.2 (by omega), hs.inv.root_root (by omega)⟩
    have e := Finset.card_eq_sum_card_fiberwise hmap
    rw [Finset.card_range] at e
    refine Eq.trans (Finset.sum_congr rfl fun b hb => ?_) e.symm
    obtain ⟨hb1, hb2⟩ := Finset.mem_filter.1 hb
    rw [Int.toNat_natCast]
    unfold cls
    congr 1
    refine Finset.filter_congr fun j hj => ?_
    rw [hs.conn_iff (Finset.mem_range.1 hb1) (Finset.mem_range.1 hj), hb2]
    exact eq_comm

/-- Example: five items in sets of sizes 3 and 2. -/
example : (match run (joins 5 [(0, 1), (3, 4), (1, 2)]) with
    | .ok s => (parents s).map fun r => match size s r with | .ok (k, _) => k | .error _ => 0
    | .error _ => []) = [3, 2] := by decide +kernel

end Verif.DisjointSet
