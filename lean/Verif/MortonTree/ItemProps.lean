import Verif.MortonTree.Items

/-! Property theorem C99 (see properties.jsonl): the exact lists from which an item is constructed right. -/
namespace Verif.MortonTree
open Verif NumericTraits

/-- C99: the item is right exactly when the list has the size of the dimension. -/
theorem C99_iff {S : Type} (dim : ℕ) (v : List S) (i : ℤ) :
    (∃ c, itemOf dim v i = .ok (c, i) ∧ c.len = dim ∧ ∀ d < dim, c.val d = v[d]? ∧ c.val d ≠ none) ↔ v.length = dim := by
  constructor
  · rintro ⟨c, e, h1, h2⟩
    rcases lt_trichotomy v.length dim with h | h | h
    · obtain ⟨d, hd⟩ : ∃ d, d = v.length := ⟨_, rfl⟩
      have := (h2 d (by omega))
      rw [this.1, List.getElem?_eq_none (by omega)] at this
      exact absurd rfl this.2
    · exact h
    · rw [C99_long_violated dim v i h] at e
      cases e
  · rintro rfl
    exact C99_item_partial v i

/-- From two values the item of the plane, but not that of the space, is constructed. -/
example : (∃ c, itemOf 2 [4, 5] 7 = .ok (c, 7) ∧ c.len = 2 ∧ ∀ d < 2, c.val d = ([4, 5] : List ℤ)[d]? ∧ c.val d ≠ none) ∧
    ¬ ∃ c, itemOf 3 [4, 5] 7 = .ok (c, 7) ∧ c.len = 3 ∧ ∀ d < 3, c.val d = ([4, 5] : List ℤ)[d]? ∧ c.val d ≠ none :=
  ⟨(C99_iff 2 [4, 5] 7).2 rfl, fun h => absurd ((C99_iff 3 [4, 5] 7).1 h) (by decide)⟩

end Verif.MortonTree
