import Verif.LutPrint.Props
import Mathlib.Data.List.Nodup

/-! Property theorems C93, exact form (see properties.jsonl): how many rows are printed and when one is repeated. -/
namespace Verif.LutPrint
open Verif Verif.Functions
variable {K : Type} [Field K] [LinearOrder K] [IsStrictOrderedRing K] [FloorRing K]

/-- C93, exact condition: as many rows as asked for are printed exactly when one more is asked for than the table has. -/
theorem C93_count_iff (l : Lut K) (n : Nat) (k : Int) (hn : 1 ≤ n) (hn' : n < 2 ^ 31) (h0 : l.lut ≠ []) (hl : l.lut.length < 2 ^ 30) :
    (∃ rows, printLUT l n k = .ok rows ∧ rows.length = n) ↔ n = l.lut.length + 1 := by
  by_cases h : n ≤ l.lut.length
  · obtain ⟨rows, e, h1, -⟩ := C93_count_violated l n k hn h hl
    constructor
    · rintro ⟨rows', e', hr⟩
      obtain rfl := Except.ok.inj (e.symm.trans e')
      omega
    · intro hc; omega
  · obtain ⟨rows, last, e, hlen, -, -⟩ := C93_rows_partial l n k hn hn' h0 hl
    have hs : stepOf l.lut.length n = 1 := by
      unfold stepOf
      rw [Nat.div_eq_of_lt (by omega)]
      rfl
    rw [hs, Nat.div_one] at hlen
    constructor
    · rintro ⟨rows', e', hr⟩
      obtain rfl := Except.ok.inj (e.symm.trans e')
      rw [List.length_append, List.length_singleton] at hr
      omega
    · intro hc
      exact ⟨_, e, by rw [List.length_append, List.length_singleton]; omega⟩

/-- C93: a row is printed twice exactly when the step between the rows divides the index of the last entry. -/
theorem C93_twice_iff (l : Lut K) (n : Nat) (k : Int) (hn : 1 ≤ n) (hn' : n < 2 ^ 31) (h0 : l.lut ≠ []) (hl : l.lut.length < 2 ^ 30) :
    ∃ rows, printLUT l n k = .ok rows ∧ (¬ (rows.map fun r => r.index).Nodup ↔ max (l.lut.length / n) 1 ∣ l.lut.length - 1) := by
  obtain ⟨rows, last, e, hlen, h1, h2⟩ := C93_rows_partial l n k hn hn' h0 hl
  refine ⟨_, e, ?_⟩
  have hp : 0 < l.lut.length := List.length_pos_iff.2 h0
  have hc : 1 ≤ stepOf l.lut.length n := le_max_right _ _
  change _ ↔ stepOf l.lut.length n ∣ _
  generalize stepOf l.lut.length n = c at *
  have hi : ∀ t (h : t < rows.length), rows[t].index = t * c := fun t h => (h1 t h).1
  have hlast : last.index = l.lut.length - 1 := h2.1
  have hnd : (rows.map fun r => r.index).Nodup := by
    rw [List.nodup_iff_injective_get]
    intro a b hab
    have ha : (a : ℕ) < rows.length := lt_of_lt_of_eq a.2 (List.length_map _)
    have hb : (b : ℕ) < rows.length := lt_of_lt_of_eq b.2 (List.length_map _)
    simp only [List.get_eq_getElem, List.getElem_map, hi _ ha, hi _ hb] at hab
    exact Fin.ext (Nat.eq_of_mul_eq_mul_right (by omega) hab)
  rw [List.map_append, List.map_singleton, List.nodup_append]
  constructor
  · intro h
    by_contra hd
    refine h ⟨hnd, List.nodup_singleton _, ?_⟩
    intro a ha b hb hab
    rw [List.mem_singleton] at hb
    obtain ⟨t, ht, rfl⟩ := List.getElem_of_mem ha
    rw [List.length_map] at ht
    rw [List.getElem_map, hi t ht, hb, hlast] at hab
    exact hd ⟨t, by rw [← hab, Nat.mul_comm]⟩
  · rintro ⟨t, ht⟩ ⟨-, -, h⟩
    have htr : t < rows.length := by
      rw [hlen, Nat.lt_iff_add_one_le, Nat.le_div_iff_mul_le (by omega)]
      have : (t + 1) * c = c * t + c := by ring
      omega
    refine h _ (List.mem_map_of_mem (List.getElem_mem htr)) last.index (List.mem_singleton.2 rfl) ?_
    rw [hi t htr, hlast, ht, Nat.mul_comm]

/-- Example: six entries, five rows asked: the last one is printed twice; with two asked for the step 3 misses the last entry. -/
example : ([5, 2].map fun n => (printLUT (K := ℚ) ⟨(List.range 6).map fun i => ⟨i, ⟨1, fun _ => 1⟩⟩, 0⟩ n 0).map (fun r => r.map fun x => x.index)) =
    [.ok [0, 1, 2, 3, 4, 5, 5], .ok [0, 3, 5]] := by decide +kernel

end Verif.LutPrint
