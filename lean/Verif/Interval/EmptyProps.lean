import Verif.Interval.Props

/-! Property theorem C38 (see properties.jsonl): the exact empty intervals over which nothing is iterated. -/
namespace Verif.Interval
open Verif

theorem sizeLoop_dvd : ∀ (iv : Interval) (s : ℕ), ((sizeLoop s iv : ℕ) : ℤ) % 18446744073709551616 = ((s : ℤ) * (iv.map Axis.dim).prod) % 18446744073709551616 := by
  intro iv
  induction iv with
  | nil => intro s; simp [sizeLoop]
  | cons a iv ih =>
    intro s
    unfold sizeLoop
    rw [ih, List.map_cons, List.prod_cons, ← mul_assoc]
    have h0 : 0 ≤ a.dim % 18446744073709551616 := Int.emod_nonneg _ (by norm_num)
    push_cast [Cxx.toSize, Int.toNat_of_nonneg h0]
    rw [Int.mul_emod, Int.emod_emod_of_dvd _ dvd_rfl, ← Int.mul_emod]
    conv_lhs => rw [mul_assoc, mul_left_comm, Int.mul_emod, Int.emod_emod_of_dvd _ dvd_rfl, ← Int.mul_emod]
    congr 1
    ring

theorem sizeLoop_lt : ∀ (iv : Interval) (s : ℕ), s < 18446744073709551616 → sizeLoop s iv < 18446744073709551616 := by
  intro iv
  induction iv with
  | nil => intro s h; exact h
  | cons a iv ih =>
    intro s h
    exact ih _ (Nat.mod_lt _ (by norm_num))

/-- C38: the size of an empty interval is zero exactly when the product of its dimensions is a multiple of 2^64; the begin and the end of the iteration are the same
exactly when it is a multiple of 2^32. -/
theorem C38_iff (iv : Interval) (h : empty iv = true) (ix : Interval → ℤ → Outcome (List ℤ)) :
    (size iv = 0 ↔ (2 ^ 64 : ℤ) ∣ (iv.map Axis.dim).prod) ∧
    ((∃ b e, begin ix iv = .ok b ∧ «end» ix iv = .ok e ∧ b.pos = e.pos) ↔ (2 ^ 32 : ℤ) ∣ (iv.map Axis.dim).prod) := by
  have hd := sizeLoop_dvd iv 1
  have hl := sizeLoop_lt iv 1 (by norm_num)
  simp only [Nat.cast_one, one_mul] at hd
  change ((size iv : ℕ) : ℤ) % _ = _ at hd
  change size iv < _ at hl
  generalize (iv.map Axis.dim).prod = P at *
  have hb : begin ix iv = .ok ⟨0, iv.map Axis.min⟩ := by unfold begin Iter.mk'; rw [h]; rfl
  have he : «end» ix iv = .ok ⟨Cxx.ofSize (size iv), iv.map Axis.min⟩ := by unfold «end» Iter.mk'; rw [h]; rfl
  constructor
  · norm_num
    omega
  · rw [hb, he]
    generalize hz : Cxx.ofSize (size iv) = z
    have h1 : (∃ b e : Iter, (Except.ok ⟨0, iv.map Axis.min⟩ : Outcome Iter) = .ok b ∧ (Except.ok ⟨z, iv.map Axis.min⟩ : Outcome Iter) = .ok e ∧ b.pos = e.pos) ↔
        z = 0 := by
      constructor
      · rintro ⟨b, e, e1, e2, e3⟩
        rw [← Except.ok.inj e1, ← Except.ok.inj e2] at e3
        exact e3.symm
      · intro h0
        exact ⟨_, _, rfl, rfl, h0.symm⟩
    rw [h1, ← hz]
    unfold Cxx.ofSize
    norm_num
    rw [Int.bmod_def]
    split_ifs <;> omega

/-- Dimensions -2 and 3 give an iteration that does not end at once, -65536 and 65536 one that does, although the size is not zero. -/
example : ¬ ((2 ^ 32 : ℤ) ∣ ([⟨0, -2⟩, ⟨0, 3⟩].map Axis.dim).prod) ∧ ((2 ^ 32 : ℤ) ∣ ([⟨0, -65536⟩, ⟨0, 65536⟩].map Axis.dim).prod) ∧
    empty [⟨0, -65536⟩, ⟨0, 65536⟩] = true ∧ size [⟨0, -65536⟩, ⟨0, 65536⟩] = 18446744069414584320 := by decide +kernel

end Verif.Interval
