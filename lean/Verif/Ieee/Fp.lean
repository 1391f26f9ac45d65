import Verif.Ieee.Bound
import Mathlib.Algebra.Order.Floor.Ring
import Mathlib.Data.Real.Archimedean

/-!
The numbers of an IEEE 754 format (`double`: binary64, `float`: binary32) with the arithmetic of the logical model of the floating point types of Lean
(`Init.Data.Float.Model`): the result of an operation is rounded to the nearest, to even in case of a tie, and overflows to an infinity. There is a single NaN.
-/
namespace Verif.Ieee
open Float.Model Float.Model.UnpackedFloat

deriving instance DecidableEq for Float.Model.UnpackedFloat.Sign
deriving instance DecidableEq for Float.Model.UnpackedFloat

/-- The formats with at least two bits of exponent and two of mantissa. -/
class Fmt (spec : Format) : Prop where
  eb : 2 ≤ spec.exponentBits
  good : Good spec
  range : spec.minExponent ≤ maxExponent spec

instance : Fmt .binary64 := ⟨by decide, ⟨by decide, by decide⟩, by decide⟩
instance : Fmt .binary32 := ⟨by decide, ⟨by decide, by decide⟩, by decide⟩

/-- The numbers of a format, with the infinities and NaN. -/
structure Fp (spec : Format) where
  x : UnpackedFloat
  repr : Repr spec x

/-- `double`. -/
abbrev Dbl := Fp .binary64
/-- `float`. -/
abbrev Flt := Fp .binary32

namespace Fp
variable {spec : Format} [Fmt spec]

instance : DecidableEq (Fp spec) := fun a b => decidable_of_iff (a.x = b.x) ⟨fun h => by cases a; cases b; congr, fun h => h ▸ rfl⟩

omit [Fmt spec] in
@[ext] theorem ext {a b : Fp spec} (h : a.x = b.x) : a = b := by cases a; cases b; congr

/-- A result, rounded already, in the format: too large numbers become infinite. -/
def ofU (spec : Format) [Fmt spec] (y : UnpackedFloat) : Fp spec := ⟨UnpackedFloat.unpack spec (UnpackedFloat.pack spec y), repr_unpack Fmt.eb _⟩

instance : Add (Fp spec) := ⟨fun a b => ofU spec (UnpackedFloat.add spec a.x b.x)⟩
instance : Sub (Fp spec) := ⟨fun a b => ofU spec (UnpackedFloat.sub spec a.x b.x)⟩
instance : Mul (Fp spec) := ⟨fun a b => ofU spec (UnpackedFloat.mul spec a.x b.x)⟩
instance : Div (Fp spec) := ⟨fun a b => ofU spec (UnpackedFloat.div spec a.x b.x)⟩
instance : Neg (Fp spec) := ⟨fun a => ofU spec a.x.neg⟩
instance : LT (Fp spec) := ⟨fun a b => a.x.lt b.x = true⟩
instance : LE (Fp spec) := ⟨fun a b => a.x.le b.x = true⟩
instance (a b : Fp spec) : Decidable (a < b) := inferInstanceAs (Decidable (a.x.lt b.x = true))
instance (a b : Fp spec) : Decidable (a ≤ b) := inferInstanceAs (Decidable (a.x.le b.x = true))

/-- `fabs`. -/
def abs (a : Fp spec) : Fp spec := ofU spec a.x.abs

/-- The decimal literal `m * 10 ^ e`. -/
def lit (spec : Format) [Fmt spec] (m : ℕ) (e : ℤ) : Fp spec := ofU spec (UnpackedFloat.ofScientific spec m e)

/-- A result of `floor`. -/
def floorU (spec : Format) : UnpackedFloat → UnpackedFloat
  | .finite s m e h => if 0 ≤ e then .finite s m e h else normalize spec (s.apply m / 2 ^ (-e).toNat) 0 s
  | y => y

/-- `floor`. -/
def floor (a : Fp spec) : Fp spec := ofU spec (floorU spec a.x)

/-- The sign bit (NaN counts as positive). -/
def sign (a : Fp spec) : Sign :=
  match a.x with
  | .finite s .. => s
  | .zero s => s
  | .infinity s => s
  | .notANumber => .positive

/-- `copysign`. -/
def copysign (a b : Fp spec) : Fp spec :=
  match sign b with
  | .positive => a.abs
  | .negative => -a.abs

/-- Conversion between formats. -/
def convU (spec : Format) : UnpackedFloat → UnpackedFloat
  | .finite s m e _ => round spec s m e
  | y => y

/-- Conversion between formats. -/
def conv {spec' : Format} (a : Fp spec') : Fp spec := ofU spec (convU spec a.x)

/-- NaN. -/
def nan : Fp spec := ⟨.notANumber, trivial⟩

/-- The value of a finite number. -/
noncomputable def val (a : Fp spec) : ℝ := Ieee.val a.x

/-- Neither infinite nor NaN. -/
def Fin (a : Fp spec) : Prop := Ieee.Fin a.x

instance (a : Fp spec) : Decidable a.Fin := by
  unfold Fin Ieee.Fin
  split <;> infer_instance

theorem ofU_repr {y : UnpackedFloat} (h : Repr spec y) : ofU spec y = ⟨y, h⟩ := ext (unpack_pack Fmt.eb h)

omit [Fmt spec] in
theorem canon (a : Fp spec) : Canon spec a.x := by
  have := a.repr
  cases h : a.x with
  | finite s m e hm => rw [h] at this; exact this.1
  | infinity s => trivial
  | notANumber => trivial
  | zero s => trivial

omit [Fmt spec] in
theorem grid (a : Fp spec) : Grid spec a.val := grid_val a.canon

theorem _root_.Verif.Ieee.Rounded.fin' {x : ℝ} {y : UnpackedFloat} (h : Rounded spec x y) : Ieee.Fin y := by
  rcases h.fin with ⟨s, rfl⟩ | ⟨s, m, e, hm, rfl⟩ <;> trivial

/-- `a` is `x` rounded to the nearest number of the format, a finite one. -/
def Is (a : Fp spec) (x : ℝ) : Prop := a.Fin ∧ Rounded spec x a.x

theorem ofU_spec {x : ℝ} {y : UnpackedFloat} (h : Rounded spec x y) {k : ℤ} (hk : spec.minExponent ≤ k) (hk' : k < maxExponent spec + spec.mantissaBits)
    (hx : |x| ≤ 2 ^ k) : (ofU spec y).Is x := by
  have h1 : |Ieee.val y| < 2 ^ (maxExponent spec + spec.mantissaBits) := lt_of_le_of_lt (h.abs_le hk hx) (zpow_lt_zpow_right₀ (by norm_num) hk')
  rw [ofU_repr (h.repr h1 Fmt.range)]
  exact ⟨h.fin', h⟩

/-- The largest power of two below all the overflows. -/
def top (spec : Format) : ℤ := maxExponent spec + spec.mantissaBits - 1

omit [Fmt spec] in
theorem minExponent_le_top [Fmt spec] : spec.minExponent ≤ top spec := by
  have h1 := Fmt.range (spec := spec)
  have h2 := (Fmt.good (spec := spec)).p
  unfold top
  omega

theorem ofU_spec' {x : ℝ} {y : UnpackedFloat} (h : Rounded spec x y) (hx : |x| ≤ 2 ^ top spec) : (ofU spec y).Is x :=
  ofU_spec h minExponent_le_top (by unfold top; omega) hx

theorem add_is {a b : Fp spec} (ha : a.Fin) (hb : b.Fin) (h : |a.val + b.val| ≤ 2 ^ top spec) : (a + b).Is (a.val + b.val) :=
  ofU_spec' (add_spec Fmt.good ha hb a.canon b.canon) h

theorem sub_is {a b : Fp spec} (ha : a.Fin) (hb : b.Fin) (h : |a.val - b.val| ≤ 2 ^ top spec) : (a - b).Is (a.val - b.val) :=
  ofU_spec' (sub_spec Fmt.good ha hb a.canon b.canon) h

theorem mul_is {a b : Fp spec} (ha : a.Fin) (hb : b.Fin) (h : |a.val * b.val| ≤ 2 ^ top spec) : (a * b).Is (a.val * b.val) :=
  ofU_spec' (mul_spec Fmt.good ha hb a.canon b.canon) h

theorem div_is {a b : Fp spec} (ha : a.Fin) (hb : b.Fin) (h0 : b.val ≠ 0) (h : |a.val / b.val| ≤ 2 ^ top spec) : (a / b).Is (a.val / b.val) :=
  ofU_spec' (div_spec Fmt.good ha hb h0) h

theorem neg_x (a : Fp spec) : (-a).x = a.x.neg := by
  have : Repr spec a.x.neg := by
    have := a.repr
    cases h : a.x <;> rw [h] at this <;> exact this
  show (ofU spec _).x = _
  rw [ofU_repr this]

theorem abs_x (a : Fp spec) : a.abs.x = a.x.abs := by
  have : Repr spec a.x.abs := by
    have := a.repr
    cases h : a.x <;> rw [h] at this <;> first | exact this | trivial
  show (ofU spec _).x = _
  rw [ofU_repr this]

theorem neg_fin {a : Fp spec} : (-a).Fin ↔ a.Fin := by
  unfold Fin
  rw [neg_x]
  cases a.x <;> exact Iff.rfl

theorem abs_fin {a : Fp spec} : a.abs.Fin ↔ a.Fin := by
  unfold Fin
  rw [abs_x]
  cases a.x <;> exact Iff.rfl

theorem neg_val (a : Fp spec) : (-a).val = -a.val := by
  unfold val
  rw [neg_x]
  cases a.x with
  | finite s m e h => simp only [UnpackedFloat.neg, Ieee.val, sgn_neg]; ring
  | _ => simp [UnpackedFloat.neg, Ieee.val]

theorem abs_val (a : Fp spec) : a.abs.val = |a.val| := by
  unfold val
  rw [abs_x]
  cases a.x with
  | finite s m e h =>
    simp only [UnpackedFloat.abs, Ieee.val]
    rw [abs_mul, sgn_abs, abs_of_nonneg (mul_nonneg (Nat.cast_nonneg _) (two_pow_pos e).le)]
    rfl
  | _ => simp [UnpackedFloat.abs, Ieee.val]

protected theorem neg_neg (a : Fp spec) : - -a = a := by
  apply ext
  rw [neg_x, neg_x]
  cases a.x with
  | finite s m e h => cases s <;> rfl
  | zero s => cases s <;> rfl
  | infinity s => cases s <;> rfl
  | notANumber => rfl

theorem copysign_fin {a b : Fp spec} : (copysign a b).Fin ↔ a.Fin := by
  unfold copysign
  cases sign b <;> simp only [neg_fin, abs_fin]

theorem copysign_val (a b : Fp spec) : (copysign a b).val = sgn (sign b) * |a.val| := by
  unfold copysign
  cases sign b <;> simp only [neg_val, abs_val, sgn] <;> ring

theorem roundWithAccuracy_neg (s : Sign) (m : ℕ) (e : ℤ) (acc : Accuracy) :
    roundWithAccuracy spec (-s) m e acc = (roundWithAccuracy spec s m e acc).neg := by
  unfold roundWithAccuracy
  dsimp only
  split <;> rfl

theorem unpackOf_neg (E : BitVec spec.exponentBits) (M : BitVec spec.mantissaBitsWithoutImplicit) (s : Sign) :
    unpackOf spec E M (-s) = (unpackOf spec E M s).neg := by
  unfold unpackOf
  split
  · split <;> rfl
  · split
    · split <;> rfl
    · rfl

theorem ofU_neg (y : UnpackedFloat) : ofU spec y.neg = -ofU spec y := by
  apply ext
  rw [neg_x]
  show UnpackedFloat.unpack spec (UnpackedFloat.pack spec y.neg) = (UnpackedFloat.unpack spec (UnpackedFloat.pack spec y)).neg
  cases y with
  | notANumber =>
    rw [show (UnpackedFloat.notANumber).neg = .notANumber from rfl, unpack_pack Fmt.eb (x := .notANumber) trivial]
    rfl
  | infinity s =>
    rw [show (UnpackedFloat.infinity s).neg = .infinity (-s) from rfl, unpack_pack Fmt.eb (x := .infinity _) trivial, unpack_pack Fmt.eb (x := .infinity _) trivial]
    rfl
  | zero s =>
    rw [show (UnpackedFloat.zero s).neg = .zero (-s) from rfl, unpack_pack Fmt.eb (x := .zero _) trivial, unpack_pack Fmt.eb (x := .zero _) trivial]
    rfl
  | finite s m e h =>
    rw [show (UnpackedFloat.finite s m e h).neg = .finite (-s) m e h from rfl]
    unfold UnpackedFloat.pack packedInfinity
    dsimp only
    split
    · rw [unpack_packComponents, unpack_packComponents, unpackOf_neg]
    · split <;> rw [unpack_packComponents, unpack_packComponents, unpackOf_neg]

theorem sign_neg_mul (s t : Sign) : -s * t = -(s * t) := by cases s <;> cases t <;> rfl

theorem sign_mul_comm (s t : Sign) : s * t = t * s := by cases s <;> cases t <;> rfl

/-- A product with a negated factor is the negated product, bit by bit. -/
protected theorem neg_mul (a b : Fp spec) : -a * b = -(a * b) := by
  show ofU spec (UnpackedFloat.mul spec (-a).x b.x) = -ofU spec (UnpackedFloat.mul spec a.x b.x)
  rw [← ofU_neg, neg_x]
  congr 1
  cases a.x with
  | notANumber => rfl
  | infinity s => cases b.x <;> cases s <;> first | rfl | (rename_i t; cases t <;> rfl) | (rename_i t _ _ _; cases t <;> rfl)
  | zero s => cases b.x <;> cases s <;> first | rfl | (rename_i t; cases t <;> rfl) | (rename_i t _ _ _; cases t <;> rfl)
  | finite s m e h =>
    cases b.x with
    | notANumber => rfl
    | infinity t => cases s <;> cases t <;> rfl
    | zero t => cases s <;> cases t <;> rfl
    | finite t m' e' h' =>
      show roundWithAccuracy spec (-s * t) _ _ _ = UnpackedFloat.neg (roundWithAccuracy spec (s * t) _ _ _)
      rw [sign_neg_mul, roundWithAccuracy_neg]

protected theorem mul_comm (a b : Fp spec) : a * b = b * a := by
  show ofU spec (UnpackedFloat.mul spec a.x b.x) = ofU spec (UnpackedFloat.mul spec b.x a.x)
  congr 1
  cases a.x with
  | notANumber => cases b.x <;> rfl
  | infinity s => cases b.x <;> cases s <;> first | rfl | (rename_i t; cases t <;> rfl) | (rename_i t _ _ _; cases t <;> rfl)
  | zero s => cases b.x <;> cases s <;> first | rfl | (rename_i t; cases t <;> rfl) | (rename_i t _ _ _; cases t <;> rfl)
  | finite s m e h =>
    cases b.x with
    | notANumber => rfl
    | infinity t => cases s <;> cases t <;> rfl
    | zero t => cases s <;> cases t <;> rfl
    | finite t m' e' h' =>
      show roundWithAccuracy spec (s * t) (m * m') (e + e') _ = roundWithAccuracy spec (t * s) (m' * m) (e' + e) _
      rw [sign_mul_comm, Nat.mul_comm, Int.add_comm]

protected theorem mul_neg (a b : Fp spec) : a * -b = -(a * b) := by rw [Fp.mul_comm, Fp.neg_mul, Fp.mul_comm]

protected theorem abs_neg (a : Fp spec) : (-a).abs = a.abs := by
  apply ext
  rw [abs_x, abs_x, neg_x]
  cases a.x <;> rfl

/-- NaN. -/
def NaN (a : Fp spec) : Prop := a.x = .notANumber

instance (a : Fp spec) : Decidable a.NaN := inferInstanceAs (Decidable (a.x = .notANumber))

theorem nan_ofU {y : UnpackedFloat} (h : y = .notANumber) : (ofU spec y).NaN := by
  rw [h, ofU_repr (y := .notANumber) trivial]
  rfl

theorem NaN.mul {a b : Fp spec} (h : a.NaN ∨ b.NaN) : (a * b).NaN := by
  apply nan_ofU
  rcases h with h | h <;> rw [show _ = _ from h]
  · rfl
  · cases a.x <;> rfl

theorem NaN.div {a b : Fp spec} (h : a.NaN ∨ b.NaN) : (a / b).NaN := by
  apply nan_ofU
  rcases h with h | h <;> rw [show _ = _ from h]
  · rfl
  · cases a.x <;> rfl

theorem NaN.sub {a b : Fp spec} (h : a.NaN ∨ b.NaN) : (a - b).NaN := by
  apply nan_ofU
  rcases h with h | h <;> rw [show _ = _ from h]
  · rfl
  · cases a.x <;> rfl

theorem NaN.neg {a : Fp spec} : (-a).NaN ↔ a.NaN := by
  unfold NaN
  rw [neg_x]
  cases a.x <;> simp [UnpackedFloat.neg]

theorem NaN.abs {a : Fp spec} : a.abs.NaN ↔ a.NaN := by
  unfold NaN
  rw [abs_x]
  cases a.x <;> simp [UnpackedFloat.abs]

theorem NaN.copysign {a b : Fp spec} : (copysign a b).NaN ↔ a.NaN := by
  unfold Fp.copysign
  cases sign b <;> simp only [NaN.neg, NaN.abs]

theorem NaN.not_lt {a b : Fp spec} (h : a.NaN ∨ b.NaN) : ¬ a < b := by
  show ¬ (a.x.lt b.x = true)
  unfold UnpackedFloat.lt
  rcases h with h | h <;> rw [show _ = _ from h]
  · simp [UnpackedFloat.compare]
  · cases a.x <;> simp [UnpackedFloat.compare]

theorem NaN.eq {a b : Fp spec} (h : a.NaN) (h' : b.NaN) : a = b := ext (h.trans h'.symm)

theorem sign_neg {a : Fp spec} (h : ¬ a.NaN) : sign (-a) = -sign a := by
  unfold sign
  rw [neg_x]
  unfold NaN at h
  revert h
  cases a.x <;> intro h <;> first | rfl | exact absurd rfl h

theorem copysign_neg {a b : Fp spec} (h : ¬ b.NaN) : copysign a (-b) = -copysign a b := by
  unfold copysign
  rw [sign_neg h]
  cases sign b
  · show a.abs = - -a.abs
    rw [Fp.neg_neg]
  · rfl

/-- Every finite number is at most the largest number. -/
theorem val_lt (a : Fp spec) : |a.val| < 2 ^ (top spec + 1) := by
  have hc := a.canon
  have hr := a.repr
  unfold val
  cases h : a.x with
  | finite s m e hm =>
    rw [h] at hc hr
    rw [Ieee.val, abs_mul, sgn_abs, one_mul, abs_of_nonneg (mul_nonneg (Nat.cast_nonneg _) (two_pow_pos e).le)]
    calc (m : ℝ) * 2 ^ e < 2 ^ (spec.mantissaBits : ℤ) * 2 ^ e := by
          apply mul_lt_mul_of_pos_right _ (two_pow_pos e)
          rw [zpow_natCast]
          exact_mod_cast hc.1
      _ = 2 ^ ((spec.mantissaBits : ℤ) + e) := (two_pow_add _ _).symm
      _ ≤ _ := two_pow_le (by have := hr.2; unfold top; omega)
  | _ => simpa [Ieee.val] using two_pow_pos _

end Fp
end Verif.Ieee
