import Verif.TlsFp.Weight

/-! The weights of the small ranges, for C107. -/
namespace Verif.TlsFp
open Verif Ieee Fp Float.Model Float.Model.UnpackedFloat

variable {spec : Format} [Fmt spec]

theorem cap_val : (lit .binary64 1 12).Fin ∧ (lit .binary64 1 12).val = 10 ^ 12 := by
  have h : (lit .binary64 1 12).x = .finite .positive 8192000000000000 (-13) (by decide) := by decide +kernel
  refine ⟨by unfold Fp.Fin; rw [h]; trivial, ?_⟩
  unfold Fp.val
  rw [h, Ieee.val]
  norm_num [sgn]

/-- C107: a range up to 2^-20 has the weight 10^12, rounded. -/
theorem C107_cap (hl : Lim spec) (h64 : Sub64 spec) {r : Fp spec} (hr : r.Fin) (hb : |r.val| ≤ 2 ^ (-20 : ℤ)) : (weight r).Is (10 ^ 12) := by
  have hav : r.abs.val = |r.val| := abs_val r
  have hca := conv_exact h64 (abs_fin.2 hr) (by rw [hav, abs_abs]; exact hb.trans (two_pow_le (by norm_num)))
  have h1 := lit_is (spec := .binary64) (m := 1) (k := 6) (by norm_num) (by norm_num) (by decide) (by
    refine le_trans ?_ (two_pow_le (show (0 : ℤ) ≤ top .binary64 by decide))
    norm_num)
  have h2 := h1.2.err (k := -19) (by decide) (by norm_num)
  unfold weight
  rw [if_pos]
  · have := conv_is (spec := spec) cap_val.1 (by
      rw [cap_val.2]
      refine le_trans ?_ (two_pow_le (show (40 : ℤ) ≤ top spec by have := hl.hi; omega))
      norm_num)
    rwa [cap_val.2] at this
  · have h4 : (lit .binary64 1 (-6)).Fin := h1.1
    rw [lt_iff hca.1 h4, hca.2, hav]
    refine hb.trans_lt ?_
    have h3 := (_root_.abs_le.1 h2).1
    change _ ≤ (lit .binary64 1 (-6)).val - _ at h3
    norm_num [show Format.binary64.mantissaBits = 53 from rfl] at h3 ⊢
    linarith

example : (weight (0 : Dbl)).val = 10 ^ 12 := by
  have h := C107_cap lim_dbl sub_dbl (r := 0) zero_is.1 (by rw [zero_is.2]; norm_num)
  exact h.2.exact (cap_val.2 ▸ (lit .binary64 1 12).grid)

end Verif.TlsFp
