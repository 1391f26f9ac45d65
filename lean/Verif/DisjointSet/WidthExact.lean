import Verif.DisjointSet.WidthProps

/-! Property theorem C133, exact form (see properties.jsonl): when the representatives can be listed. -/
namespace Verif.DisjointSet
open Verif Spec

/-- C133, exact condition: in every state, reached or not, `parents` returns the representatives exactly when there are fewer than 2^31 nodes; otherwise its counter overflows. -/
theorem C133_parents_iff (s : State) : (parentsW s = .ok (parents s) ↔ s.nodes.len < 2147483648) ∧ (parentsW s = .error (.ub .overflow) ↔ 2147483648 ≤ s.nodes.len) := by
  by_cases h : s.nodes.len < 2147483648
  · rw [parentsW_eq s h]
    exact ⟨⟨fun _ => h, fun _ => rfl⟩, fun hc => (by cases hc), fun hc => by omega⟩
  · rw [C133_parents_violated s (by omega)]
    exact ⟨⟨fun hc => (by cases hc), fun hc => absurd hc h⟩, fun _ => by omega, fun _ => rfl⟩

/-- Example: three sets, one of which holds two items. -/
example : (match runW [.init 4, .join 1 3] with | .ok s => parentsW s | .error e => .error e) = .ok [0, 1, 2] := by decide +kernel

end Verif.DisjointSet
