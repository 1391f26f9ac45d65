import Verif.NumericTraits.Props

/-! Property theorem C05 (see properties.jsonl): what the `int64_t` specialisation of `log2Mod` computes. -/
namespace Verif.NumericTraits
open Verif.BitManip

/-- C05, `int64_t`: the result is 55 plus the number of bits of the lowest byte of the magnitude, so it is right exactly for the magnitudes from
`2^(55+s)` to `2^(56+s) - 1`, where `s` is that number of bits. -/
theorem C05_int64_iff (x : BitVec 64) (h0 : x.toInt ≠ 0) (hm : x.toInt ≠ -9223372036854775808) :
    log2Mod .i64 x = .ok (55 + ((x.toInt.natAbs % 256).size : ℤ)) ∧
    ((∃ r, log2Mod .i64 x = .ok r ∧ Spec.IsLog2 x.toInt r) ↔
      2 ^ (55 + (x.toInt.natAbs % 256).size) ≤ x.toInt.natAbs ∧ x.toInt.natAbs < 2 ^ (56 + (x.toInt.natAbs % 256).size)) := by
  have hv : log2Mod .i64 x = .ok (55 + ((x.toInt.natAbs % 256).size : ℤ)) := by
    have hx := x.isLt
    have hi : x.toInt = if 2 * x.toNat < 2 ^ 64 then (x.toNat : ℤ) else (x.toNat : ℤ) - 2 ^ 64 := BitVec.toInt_eq_toNat_cond x
    simp only [log2Mod, nlz8_eq]
    by_cases hp : x.toInt > 0
    · rw [if_pos hp]
      have e : (x.setWidth 8).toNat = x.toInt.natAbs % 256 := by
        rw [BitVec.toNat_setWidth]
        split_ifs at hi <;> omega
      rw [e]
      congr 1; omega
    · rw [if_neg hp, if_pos (by omega), if_neg hm]
      have e : ((-x).setWidth 8).toNat = x.toInt.natAbs % 256 := by
        rw [BitVec.toNat_setWidth, BitVec.toNat_neg]
        split_ifs at hi <;> omega
      rw [e]
      congr 1; omega
  refine ⟨hv, ?_⟩
  generalize (x.toInt.natAbs % 256).size = s at hv ⊢
  have ht : (55 + (s : ℤ)).toNat = 55 + s := by omega
  have hiff : Spec.IsLog2 x.toInt (55 + (s : ℤ)) ↔ 2 ^ (55 + s) ≤ x.toInt.natAbs ∧ x.toInt.natAbs < 2 ^ (56 + s) := by
    unfold Spec.IsLog2
    rw [ht, Int.abs_eq_natAbs, show 55 + s + 1 = 56 + s by omega]
    constructor
    · rintro ⟨-, h1, h2⟩
      exact ⟨by exact_mod_cast h1, by exact_mod_cast h2⟩
    · rintro ⟨h1, h2⟩
      exact ⟨by omega, by exact_mod_cast h1, by exact_mod_cast h2⟩
  rw [← hiff]
  constructor
  · rintro ⟨r, hr, h⟩
    rw [hv] at hr
    rwa [← Except.ok.inj hr] at h
  · exact fun h => ⟨_, hv, h⟩

/-- A right result, and a wrong one of the same size. -/
example : log2Mod .i64 0x0080000000000000#64 = .ok 55 ∧ log2Mod .i64 0x0080000000000001#64 = .ok 56 := by decide

end Verif.NumericTraits
