import Verif.DisjointSet.Props

/-! Property theorem C28 (see properties.jsonl): the exact identifiers that `join` and `size` accept. -/
namespace Verif.DisjointSet
open Verif Spec

/-- C28: after every valid history `join` is defined exactly when both identifiers are valid or both are invalid, and reads out of bounds otherwise; `size` is defined exactly
for the valid ones; `find` is defined for all. -/
theorem C28_iff (h : List Op) (hv : Valid h) : ∃ s, run h = .ok s ∧ ∀ n m : ℤ,
    (∃ r, find s n = .ok r) ∧
    ((∃ r, join s n m = .ok r) ↔ (BadId s n ↔ BadId s m)) ∧ ((¬ ∃ r, join s n m = .ok r) ↔ join s n m = .error (.ub .outOfBounds)) ∧
    ((∃ r, size s n = .ok r) ↔ ¬ BadId s n) := by
  obtain ⟨s, root, hr, hs⟩ := run_sim h hv
  refine ⟨s, hr, fun n m => ?_⟩
  have hlen := hs.len
  have good : ∀ k : ℤ, ¬ BadId s k → ∃ a : ℕ, k = a ∧ a < (absOf h).n := by
    intro k hk
    unfold BadId at hk
    exact ⟨k.toNat, by omega, by omega⟩
  have hfind : ∃ r, find s n = .ok r := by
    by_cases hn : BadId s n
    · exact ⟨_, (C28_invalid_partial s n n hn).1⟩
    · obtain ⟨a, rfl, ha⟩ := good n hn
      obtain ⟨s', hf, -⟩ := find_sim hs ha
      exact ⟨_, hf⟩
  have hsize : (∃ r, size s n = .ok r) ↔ ¬ BadId s n := by
    constructor
    · rintro ⟨r, e⟩ hn
      rw [C28_size_violated s n hn] at e; cases e
    · intro hn
      obtain ⟨a, rfl, ha⟩ := good n hn
      obtain ⟨s', hf, hs'⟩ := find_sim hs ha
      have hr := hs.inv.rootLt a (by omega)
      have hlen' := hs'.len
      unfold size
      simp only [bind, Except.bind, hf]
      rw [Vec.get_nat _ (by omega)]
      exact ⟨_, rfl⟩
  have hcase : ((∃ r, join s n m = .ok r) ∧ (BadId s n ↔ BadId s m)) ∨ (join s n m = .error (.ub .outOfBounds) ∧ ¬ (BadId s n ↔ BadId s m)) := by
    by_cases hn : BadId s n
    · by_cases hm : BadId s m
      · exact .inl ⟨⟨_, (C28_invalid_partial s n m hn).2 hm⟩, by simp [hn, hm]⟩
      · right
        obtain ⟨b, rfl, hb⟩ := good m hm
        obtain ⟨s2, e2, hj⟩ := C28_join_violated h hv
        rw [hr] at e2
        obtain rfl := Except.ok.inj e2
        exact ⟨hj n b hn (by omega), by simp [hn, hm]⟩
    · obtain ⟨a, rfl, ha⟩ := good n hn
      by_cases hm : BadId s m
      · right
        refine ⟨?_, by simp [hn, hm]⟩
        obtain ⟨s', hf, hs'⟩ := find_sim hs ha
        have hlen' := hs'.len
        have hr := hs.inv.rootLt a (by omega)
        have hm' : BadId s' m := by unfold BadId at *; omega
        unfold join
        simp only [bind, Except.bind, hf, (C28_invalid_partial s' m m hm').1]
        rw [if_neg (by omega), Vec.get_nat _ (by omega)]
        simp only
        rw [Vec.get_oob _ (Or.inr (le_refl _))]
      · left
        obtain ⟨b, rfl, hb⟩ := good m hm
        refine ⟨?_, by simp [hn, hm]⟩
        obtain ⟨r, s', root', e, -⟩ := join_sim hs ha hb
        exact ⟨_, e⟩
  rcases hcase with ⟨⟨r, e⟩, h2⟩ | ⟨e, h2⟩
  · rw [e]
    exact ⟨hfind, ⟨fun _ => h2, fun _ => ⟨_, rfl⟩⟩, ⟨fun h => absurd ⟨_, rfl⟩ h, fun h => by cases h⟩, hsize⟩
  · rw [e]
    refine ⟨hfind, ⟨fun ⟨r, h⟩ => (by cases h), fun h => absurd h h2⟩, ⟨fun _ => rfl, ?_⟩, hsize⟩
    rintro - ⟨r, h⟩
    cases h

/-- In three sets the identifiers 2 and 7 cannot be joined, but 7 and -1 can. -/
example : (join (initSets 3) 2 7).toOption.isNone ∧ (join (initSets 3) 7 (-1)).toOption.isSome ∧ (join (initSets 3) 2 1).toOption.isSome := by decide +kernel

end Verif.DisjointSet
