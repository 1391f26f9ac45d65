import Verif.Grid.ThrowProps

/-! Property theorem C126, exact condition (see properties.jsonl). -/
namespace Verif.Grid
open Verif Verif.Interval Verif.Interval.Spec
variable {α : Type}

/-- C126, exact condition: after an initialisation every inside cell can be read if and only if the old storage is large enough or the allocation of the new one succeeds. -/
theorem C126_iff (ok : ℕ → Bool) (z : α) (g g' : Grid α) (i : Init) (dom : Interval) (thrown : Bool) (hd : i.domain = .ok dom) (hp : Proper dom) (hc : card dom ≤ 2147483647)
    (he : tryInit ok z g i = .ok (g', thrown)) : (∀ is, Mem g'.domain is → ∃ v, read g' is = .ok v) ↔ card dom ≤ g.data.len ∨ ok (card dom).toNat = true := by
  obtain ⟨g1, t1, h1, h2, h3, h4, h5⟩ := C126_cells ok z g i dom hd hp hc
  obtain ⟨rfl, rfl⟩ := Prod.mk.inj (Except.ok.inj (h1.symm.trans he))
  have hpos := card_pos hp.pos
  constructor
  · intro h
    by_contra hn
    rw [not_or, Bool.not_eq_true] at hn
    have ht : t1 = true := h3.2 ⟨by omega, hn.2⟩
    have hm := cell_mem hp.pos (card dom - 1)
    obtain ⟨v, hv⟩ := h (cell (card dom - 1) dom) (by rw [h2]; exact hm)
    rw [h5 _ hm, rank_cell hp.pos (by omega) (by omega), if_neg (by omega), if_pos ht] at hv
    cases hv
  · intro h
    obtain ⟨g2, e1, e2, -, e3⟩ := C126_partial ok z g i dom hd hp hc h
    obtain ⟨rfl, -⟩ := Prod.mk.inj (Except.ok.inj (e1.symm.trans he))
    rwa [e2]

/-- Example: from three cells to two no memory is needed; from two cells to three it is. -/
example : (match tryInit (fun _ => false) 0 (⟨⟨3, fun i => i + 5⟩, [⟨0, 3⟩]⟩ : Grid ℕ) (.dims [2]) with
      | .ok (g, t) => some (t, (read g [1]).toOption)
      | .error _ => none) = some (false, some 6) ∧
    (match tryInit (fun _ => false) 0 (⟨⟨2, fun i => i + 5⟩, [⟨0, 2⟩]⟩ : Grid ℕ) (.dims [3]) with
      | .ok (g, t) => some (t, (read g [2]).toOption)
      | .error _ => none) = some (true, none) := by decide +kernel

end Verif.Grid
