import Verif.LabelSet.Props

/-! Property theorem C30 (see properties.jsonl): the exact pairs of label sets that are compared right. -/
namespace Verif.LabelSet
open Verif Verif.SortedList

/-- C30: the comparisons are right exactly when neither set consists of the smallest labels of the other without being equal to it. -/
theorem C30_iff (a b : LabelSet) (ha : Reachable a) (hb : Reachable b) :
    (eq a b = .ok (decide (a.toFinset = b.toFinset)) ∧ ne a b = .ok (decide (a.toFinset ≠ b.toFinset))) ↔
      (a.labels <+: b.labels ∨ b.labels <+: a.labels → a.toFinset = b.toFinset) := by
  obtain ⟨h1, h2, h3⟩ := equal3_spec a.labels b.labels
  have hiff : a.toFinset = b.toFinset ↔ a.labels = b.labels := by
    constructor
    · intro h
      exact sorted_ext ha.sorted hb.sorted (fun z => by
        have := congrArg (fun s => z ∈ s) h
        simpa [LabelSet.toFinset] using this)
    · intro h
      unfold LabelSet.toFinset; rw [h]
  by_cases hc : a.toFinset = b.toFinset
  · have hl := hiff.1 hc
    have := (C30_equality_partial a b ha hb).2.2 (by unfold size; rw [hl])
    exact ⟨fun _ _ => hc, fun _ => this⟩
  · unfold eq ne
    simp only [hc, imp_false, not_or, ne_eq, not_false_eq_true, decide_false, decide_true]
    constructor
    · rintro ⟨e, -⟩
      refine ⟨fun h => ?_, fun h => ?_⟩
      · rw [h1.2 h] at e; cases e
      · have hlt : b.labels.length < a.labels.length := by
          rcases h.length_le.lt_or_eq with hl | hl
          · exact hl
          · exact absurd (hiff.2 (h.eq_of_length hl).symm) hc
        rw [h2.2 ⟨h, hlt⟩] at e; cases e
    · rintro ⟨n1, n2⟩
      have hf : equal3 a.labels b.labels = .ok false := by
        rcases h3 with h | h | h
        · exact absurd (h1.1 h) n1
        · exact h
        · exact absurd (h2.1 h).1 n2
      rw [hf]
      exact ⟨rfl, rfl⟩

/-- `{1, 3}` and `{1, 2, 3}` are compared right, `{1, 2}` and `{1, 2, 3}` are not. -/
example : eq (ofRange [1, 3]) (ofRange [1, 2, 3]) = .ok false ∧ eq (ofRange [1, 2]) (ofRange [1, 2, 3]) = .ok true := by decide

end Verif.LabelSet
