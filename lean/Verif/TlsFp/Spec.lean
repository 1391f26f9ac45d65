import Verif.Tls.Spec
import Verif.TlsFp.Model

/-! Specification vocabulary for C107; the weighted mean and the cost are those of `Verif.Tls.Spec`, over the reals. -/
namespace Verif.TlsFp
open Verif Ieee Fp Float.Model

variable {spec : Format} [Fmt spec]

/-- The order of the list `l` made by `srt` is one that std::sort may give for the comparison of the first components, tls_scalar_consensus.h:61-64. -/
def Sorts (srt : List (Fp spec × ℤ) → List (Fp spec × ℤ)) (l : List (Fp spec × ℤ)) : Prop := (srt l).Perm l ∧ (srt l).Pairwise fun a b => ¬ b.1 < a.1

/-- The real values of a vector. -/
noncomputable def V (values : Vec (Fp spec)) (i : ℕ) : ℝ := (values.val i).val

/-- `m` is between the first and the last point of the intervals of the measures. -/
def InHull (values ranges : Vec (Fp spec)) (m : ℝ) : Prop :=
  (∃ i < values.len, V values i - V ranges i ≤ m) ∧ ∃ i < values.len, m ≤ V values i + V ranges i

/-- The problem: at most 2^q measures with values up to 2^p and ranges between 2^a and 2^b. -/
structure Dom (values ranges : Vec (Fp spec)) (p q a b : ℤ) : Prop where
  len : values.len = ranges.len
  pos : 0 < values.len
  small : values.len < 2 ^ 31
  num : (values.len : ℝ) ≤ 2 ^ q
  vf : ∀ i < values.len, (values.val i).Fin
  rf : ∀ i < values.len, (ranges.val i).Fin
  v : ∀ i < values.len, |(values.val i).val| ≤ 2 ^ p
  ra : ∀ i < values.len, 2 ^ a ≤ (ranges.val i).val
  rb : ∀ i < values.len, (ranges.val i).val ≤ 2 ^ b

/-- The exponents of a problem, compared with the precision: `z` bounds `p`, `2 * p` and `b`. -/
structure Sizes (spec : Format) (p q a b z : ℤ) : Prop where
  q0 : 0 ≤ q
  q1 : q ≤ 28
  a0 : -19 ≤ a
  ab : a ≤ b
  b0 : b ≤ 28
  p0 : -28 ≤ p
  p1 : p ≤ 28
  pz : p ≤ z
  pz2 : 2 * p ≤ z
  bz : b ≤ z
  z1 : z ≤ 56
  cond : 4 * q + 2 * (b - a) + z + 15 ≤ a + spec.mantissaBits

end Verif.TlsFp
