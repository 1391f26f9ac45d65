import Verif.HoughFp.WindowModel
import Verif.HoughFp.Props
import Verif.HoughFp.InitModel
import Verif.TlsFp.Lemmas

/-! C121: the windows of the Hough detectors, given in the units of the parameters, in float arithmetic. -/
namespace Verif.HoughFp
open Verif Hough Ieee Fp Interval Interval.Spec Float.Model

/-- `ceil` of a finite number. -/
theorem ceil?_fin {spec : Format} {a : Fp spec} (h : a.Fin) : ceil? a = some ⌈a.val⌉ := by
  unfold ceil? Fp.val Fp.Fin at *
  cases hx : a.x with
  | infinity s => rw [hx] at h; cases h
  | notANumber => rw [hx] at h; cases h
  | zero s =>
    show some 0 = some ⌈(0 : ℝ)⌉
    simp
  | finite s m e hm =>
    show (if 0 ≤ e then _ else _) = some ⌈Ieee.val (.finite s m e hm)⌉
    rw [Ieee.val]
    by_cases he : 0 ≤ e
    · rw [if_pos he]
      have e1 : ((m * 2 ^ e.toNat : ℕ) : ℝ) = (m : ℝ) * 2 ^ e := by
        push_cast
        rw [← zpow_natCast, show ((e.toNat : ℕ) : ℤ) = e by omega]
      congr 1
      symm
      cases s with
      | positive =>
        show ⌈(1 : ℝ) * ((m : ℝ) * 2 ^ e)⌉ = ((m * 2 ^ e.toNat : ℕ) : ℤ)
        rw [one_mul, ← e1, Int.ceil_natCast]
      | negative =>
        show ⌈(-1 : ℝ) * ((m : ℝ) * 2 ^ e)⌉ = -((m * 2 ^ e.toNat : ℕ) : ℤ)
        rw [neg_one_mul, ← e1, Int.ceil_neg, Int.floor_natCast]
    · rw [if_neg he]
      have hpos : 0 < 2 ^ (-e).toNat := by positivity
      have hposR : (0 : ℝ) < ((2 ^ (-e).toNat : ℕ) : ℝ) := by exact_mod_cast hpos
      have e1 : (m : ℝ) * 2 ^ e = (m : ℝ) / ((2 ^ (-e).toNat : ℕ) : ℝ) := by
        push_cast
        rw [← zpow_natCast, show (((-e).toNat : ℕ) : ℤ) = -e by omega, zpow_neg]
        field_simp
      generalize 2 ^ (-e).toNat = k at *
      cases s with
      | positive =>
        show some _ = some ⌈(1 : ℝ) * ((m : ℝ) * 2 ^ e)⌉
        congr 1
        symm
        rw [one_mul, e1, Int.ceil_eq_iff]
        have h1 := Nat.lt_div_mul_add (a := m + k - 1) hpos
        have h2 := Nat.div_mul_le_self (m + k - 1) k
        generalize (m + k - 1) / k = q at *
        have h1' : m ≤ q * k := by omega
        have h2' : q * k < m + k := by omega
        constructor
        · rw [lt_div_iff₀ hposR]
          have : ((q * k : ℕ) : ℝ) < ((m + k : ℕ) : ℝ) := by exact_mod_cast h2'
          push_cast at this ⊢
          linarith
        · rw [div_le_iff₀ hposR]
          exact_mod_cast h1'
      | negative =>
        show some _ = some ⌈(-1 : ℝ) * ((m : ℝ) * 2 ^ e)⌉
        congr 1
        symm
        rw [neg_one_mul, Int.ceil_neg, e1, neg_inj, Int.floor_eq_iff]
        constructor
        · rw [le_div_iff₀ hposR]
          exact_mod_cast Nat.div_mul_le_self m k
        · rw [div_lt_iff₀ hposR]
          have := Nat.lt_div_mul_add (a := m) hpos
          exact_mod_cast (by rw [Nat.add_mul, one_mul]; exact this : m < (m / k + 1) * k)

theorem ceil?_none {spec : Format} {a : Fp spec} (h : ¬ a.Fin) : ceil? a = none := by
  unfold ceil? Fp.Fin at *
  cases hx : a.x with
  | infinity s => rfl
  | notANumber => rfl
  | zero s => rw [hx] at h; exact absurd trivial h
  | finite s m e hm => rw [hx] at h; exact absurd trivial h

/-- The number `i` of cells of resolution `res` is the least one that covers the size `win`, up to an error of `ε` cells. -/
def Covers (win res : ℝ) (i : ℤ) (ε : ℝ) : Prop := (i - 1) * res < win ∧ win ≤ (i + ε) * res

/-- A size and a resolution: a window of at most 2^k cells. -/
structure WinDom (k : ℤ) (win res : Flt) : Prop where
  k0 : -125 ≤ k
  k1 : k ≤ 24
  winFin : win.Fin
  resFin : res.Fin
  pos : 0 < res.val
  le : |win.val| ≤ 2 ^ k * res.val

theorem quot_is {k : ℤ} {win res : Flt} (h : WinDom k win res) :
    (win / res).Is (win.val / res.val) ∧ |win.val / res.val| ≤ 2 ^ k := by
  have hq : |win.val / res.val| ≤ 2 ^ k := by
    rw [abs_div, abs_of_pos h.pos, div_le_iff₀ h.pos]
    exact h.le
  have k1 := h.k1
  exact ⟨div_is h.winFin h.resFin h.pos.ne' (hq.trans (two_pow_le (show k ≤ 127 by omega))), hq⟩

/-- The number of cells is the least integer not below the rounded quotient. -/
theorem castCeil_quot {k : ℤ} {win res : Flt} (h : WinDom k win res) : castCeil (win / res) = .ok ⌈(win / res).val⌉ := by
  obtain ⟨hi, hq⟩ := quot_is h
  have k0 := h.k0
  have k1 := h.k1
  have hb : |(win / res).val| ≤ 2 ^ (24 : ℤ) := (hi.2.abs_le (show (-149 : ℤ) ≤ k by omega) hq).trans (two_pow_le k1)
  have hb' := _root_.abs_le.1 hb
  unfold castCeil
  rw [ceil?_fin hi.1]
  show Cxx.int _ = _
  have h1 : ⌈(win / res).val⌉ ≤ 2147483647 := Int.ceil_le.2 (by push_cast; norm_num at hb'; linarith [hb'.2])
  have h2 : -2147483648 < ⌈(win / res).val⌉ := Int.lt_ceil.2 (by push_cast; norm_num at hb'; linarith [hb'.1])
  unfold Cxx.int
  rw [if_pos (by omega)]

/-- C121, one window: at most 2^k cells, for k up to 24. The number of cells is never too great, and covers the size up to 2^(k - 25) of a cell. -/
theorem C121_cells_partial {k : ℤ} {win res : Flt} (h : WinDom k win res) :
    ∃ i, castCeil (win / res) = .ok i ∧ Covers win.val res.val i (2 ^ (k - 25)) := by
  obtain ⟨hi, hq⟩ := quot_is h
  have k0 := h.k0
  have k1 := h.k1
  refine ⟨_, castCeil_quot h, ?_, ?_⟩
  · rw [← lt_div_iff₀ h.pos]
    by_contra hn
    rw [not_lt] at hn
    have hb := _root_.abs_le.1 (hq.trans (two_pow_le k1))
    have hb' : |(win / res).val| ≤ 2 ^ (24 : ℤ) := (hi.2.abs_le (show (-149 : ℤ) ≤ k by omega) hq).trans (two_pow_le k1)
    have hg : Grid .binary32 ((⌈(win / res).val⌉ - 1 : ℤ) : ℝ) := by
      refine grid_int Fmt.good ?_
      show |_| ≤ (2 : ℝ) ^ (24 : ℤ)
      rw [_root_.abs_le]
      push_cast
      refine ⟨by linarith [hb.1], ?_⟩
      have := Int.ceil_lt_add_one (win / res).val
      linarith [(_root_.abs_le.1 hb').2]
    have := hi.2.mono_le hg (by push_cast; exact hn)
    have h3 : (win / res).val ≤ ((⌈(win / res).val⌉ - 1 : ℤ) : ℝ) := this
    have h4 := Int.ceil_le.2 h3
    omega
  · rw [← div_le_iff₀ h.pos]
    have he : |(win / res).val - win.val / res.val| ≤ 2 ^ (k - 25) :=
      (hi.2.err (show (-149 : ℤ) + 24 ≤ k by omega) hq).trans (two_pow_le (show k - 24 - 1 ≤ k - 25 by omega))
    have := Int.le_ceil (win / res).val
    linarith [(_root_.abs_le.1 he).1]

/-- C121, sizes that are multiples of the resolution: exactly the multiple. -/
theorem C121_multiple {win res : Flt} (hw : win.Fin) (hr : res.Fin) (h0 : 0 < res.val) {j : ℤ} (hj : |j| ≤ 16777216) (h : win.val = j * res.val) :
    castCeil (win / res) = .ok j := by
  have hj' : |(j : ℝ)| ≤ 2 ^ (24 : ℤ) := by
    have : ((|j| : ℤ) : ℝ) ≤ 16777216 := by exact_mod_cast hj
    rw [Int.cast_abs] at this
    norm_num
    exact this
  have hd : WinDom 24 win res := ⟨by norm_num, le_rfl, hw, hr, h0, by
    rw [h, abs_mul, abs_of_pos h0]
    exact mul_le_mul_of_nonneg_right hj' h0.le⟩
  rw [castCeil_quot hd]
  have hq := (quot_is hd).1
  rw [h, mul_div_cancel_right₀ _ h0.ne'] at hq
  have : (win / res).val = j := hq.2.exact (grid_int Fmt.good hj')
  rw [this, Int.ceil_intCast]

/-- C121, full statement: the windows in cells are the least ones that cover the sizes. -/
def C121_statement : Prop :=
  (∀ (d : Plane Flt) (thetaWin phiWin rhoWin : Flt), WinDom 24 thetaWin d.thetaRes → WinDom 24 phiWin d.phiRes → WinDom 24 rhoWin d.rhoRes →
    ∃ i j k : ℤ, setPeakWindowPlane d thetaWin phiWin rhoWin = .ok (d.setPeakWindow i j k) ∧
      Covers thetaWin.val d.thetaRes.val i 0 ∧ Covers phiWin.val d.phiRes.val j 0 ∧ Covers rhoWin.val d.rhoRes.val k 0) ∧
  ∀ (d : Line Flt) (thetaWin rhoWin : Flt), WinDom 24 thetaWin d.thetaRes → WinDom 24 rhoWin d.rhoRes →
    ∃ i k : ℤ, setPeakWindowLine d thetaWin rhoWin = .ok (d.setPeakWindow i k) ∧
      Covers thetaWin.val d.thetaRes.val i 0 ∧ Covers rhoWin.val d.rhoRes.val k 0

/-- C121, the part that holds: windows of at most 2^a, 2^b, 2^c cells cover the sizes up to 2^(a - 25), 2^(b - 25), 2^(c - 25) of a cell and are never too great. -/
theorem C121_windows_partial :
    (∀ (d : Plane Flt) (a b c : ℤ) (thetaWin phiWin rhoWin : Flt), WinDom a thetaWin d.thetaRes → WinDom b phiWin d.phiRes → WinDom c rhoWin d.rhoRes →
      ∃ i j k : ℤ, setPeakWindowPlane d thetaWin phiWin rhoWin = .ok (d.setPeakWindow i j k) ∧
        Covers thetaWin.val d.thetaRes.val i (2 ^ (a - 25)) ∧ Covers phiWin.val d.phiRes.val j (2 ^ (b - 25)) ∧ Covers rhoWin.val d.rhoRes.val k (2 ^ (c - 25))) ∧
    ∀ (d : Line Flt) (a c : ℤ) (thetaWin rhoWin : Flt), WinDom a thetaWin d.thetaRes → WinDom c rhoWin d.rhoRes →
      ∃ i k : ℤ, setPeakWindowLine d thetaWin rhoWin = .ok (d.setPeakWindow i k) ∧
        Covers thetaWin.val d.thetaRes.val i (2 ^ (a - 25)) ∧ Covers rhoWin.val d.rhoRes.val k (2 ^ (c - 25)) := by
  constructor
  · intro d a b c w1 w2 w3 h1 h2 h3
    obtain ⟨i, i1, i2⟩ := C121_cells_partial h1
    obtain ⟨j, j1, j2⟩ := C121_cells_partial h2
    obtain ⟨k, k1, k2⟩ := C121_cells_partial h3
    refine ⟨i, j, k, ?_, i2, j2, k2⟩
    unfold setPeakWindowPlane
    rw [i1, bind_ok, j1, bind_ok, k1, bind_ok]
    rfl
  · intro d a c w1 w3 h1 h3
    obtain ⟨i, i1, i2⟩ := C121_cells_partial h1
    obtain ⟨k, k1, k2⟩ := C121_cells_partial h3
    refine ⟨i, k, ?_, i2, k2⟩
    unfold setPeakWindowLine
    rw [i1, bind_ok, k1, bind_ok]
    rfl

/-- An ordinary case: a window of size 0.25 with cells of size 0.1 has 3 cells; a negative size and one below a cell. -/
example : castCeil (lit .binary32 25 (-2) / lit .binary32 1 (-1)) = .ok 3 ∧ castCeil (-lit .binary32 25 (-2) / lit .binary32 1 (-1)) = .ok (-2) ∧
    castCeil (lit .binary32 1 (-2) / lit .binary32 1 (-1)) = .ok 1 := by decide +kernel

theorem three_tenths : (lit .binary32 3 (-1)).Fin ∧ (lit .binary32 3 (-1)).val = 10066330 / 2 ^ 25 := by
  have h : (lit .binary32 3 (-1)).x = .finite .positive 10066330 (-25) (by decide) := by decide +kernel
  refine ⟨by unfold Fp.Fin; rw [h]; trivial, ?_⟩
  unfold Fp.val
  rw [h, Ieee.val]
  norm_num [sgn]

theorem one_tenth : (lit .binary32 1 (-1)).Fin ∧ (lit .binary32 1 (-1)).val = 13421773 / 2 ^ 27 := by
  have h : (lit .binary32 1 (-1)).x = .finite .positive 13421773 (-27) (by decide) := by decide +kernel
  refine ⟨by unfold Fp.Fin; rw [h]; trivial, ?_⟩
  unfold Fp.val
  rw [h, Ieee.val]
  norm_num [sgn]

/-- A detector of lines with resolutions of 0.1. -/
def tenths : Line Flt := ⟨Grid.new 0 2, Vec.empty 0, Vec.empty (0, 0), 0, 0, 0, 0, lit .binary32 1 (-1), lit .binary32 1 (-1), 1, 1⟩

/-- C121 is false: sizes just above a multiple of the resolution are not covered. The size 0.3, with cells of size 0.1, gets 3 cells, although in `float` 0.3 is
greater than three times 0.1. -/
theorem C121_violated : ¬ C121_statement := by
  rintro ⟨-, hs⟩
  have hd : WinDom 24 (lit .binary32 3 (-1)) (lit .binary32 1 (-1)) := by
    refine ⟨by norm_num, le_rfl, three_tenths.1, one_tenth.1, ?_, ?_⟩
    · rw [one_tenth.2]; norm_num
    · rw [one_tenth.2, three_tenths.2]; norm_num [abs_le]
  obtain ⟨i, k, e, h1, -⟩ := hs tenths _ _ hd hd
  have hc : castCeil (lit .binary32 3 (-1) / lit .binary32 1 (-1)) = .ok 3 := by decide +kernel
  have : setPeakWindowLine tenths (lit .binary32 3 (-1)) (lit .binary32 3 (-1)) = .ok (tenths.setPeakWindow 3 3) := by
    unfold setPeakWindowLine
    show (castCeil (lit .binary32 3 (-1) / lit .binary32 1 (-1)) >>= fun t => castCeil (lit .binary32 3 (-1) / lit .binary32 1 (-1)) >>= _) = _
    rw [hc, bind_ok, bind_ok]
    rfl
  rw [this] at e
  have e' := congrArg Line.ithetaWin (Except.ok.inj e)
  have e3 : i = 3 := e'.symm
  subst e3
  have h2 : (lit .binary32 3 (-1)).val ≤ ((3 : ℤ) + 0) * (lit .binary32 1 (-1)).val := h1.2
  rw [one_tenth.2, three_tenths.2] at h2
  norm_num at h2

/-- Sizes that are multiples of the resolution in decimals need not be multiples in `float`: the size 2.7, with cells of size 0.9, gets 4 cells. -/
theorem C121_decimal_violated : castCeil (lit .binary32 27 (-1) / lit .binary32 9 (-1)) = .ok 4 := by decide +kernel

theorem nan_not_fin {spec : Format} {a : Fp spec} (h : a.NaN) : ¬ a.Fin := by
  unfold Fp.Fin
  rw [show a.x = .notANumber from h]
  exact id

/-- The windows cannot be set in these units when a resolution is zero, as before the initialisation: the conversion is undefined for every size. The same holds for a
size or a resolution that is NaN, and for 2^31 cells or more. -/
theorem C121_undefined_violated {win res : Flt} (h : (res.Fin ∧ res.val = 0) ∨ win.NaN ∨ res.NaN ∨
    (win.Fin ∧ res.Fin ∧ 0 < res.val ∧ 2 ^ 31 * res.val ≤ win.val ∧ win.val ≤ 2 ^ 127 * res.val)) :
    castCeil (win / res) = .error (.ub .overflow) := by
  unfold castCeil
  rcases h with ⟨h1, h2⟩ | h | h | ⟨h1, h2, h3, h4, h5⟩
  · rw [ceil?_none (Ieee.Fp.div_zero_not_fin h1 h2)]
  · rw [ceil?_none (nan_not_fin (NaN.div (Or.inl h)))]
  · rw [ceil?_none (nan_not_fin (NaN.div (Or.inr h)))]
  · have q1 : (2 : ℝ) ^ (31 : ℤ) ≤ win.val / res.val := by rw [le_div_iff₀ h3]; exact_mod_cast h4
    have q2 : win.val / res.val ≤ (2 : ℝ) ^ (127 : ℤ) := by rw [div_le_iff₀ h3]; exact_mod_cast h5
    have q0 : 0 ≤ win.val / res.val := (two_pow_pos _).le.trans q1
    have hi := div_is h1 h2 h3.ne' (by rw [abs_of_nonneg q0]; exact q2)
    rw [ceil?_fin hi.1]
    show Cxx.int _ = _
    have h6 : (2 : ℝ) ^ (31 : ℤ) ≤ (win / res).val := hi.2.mono_ge (grid_two_pow (by decide)) q1
    have h7 : (2147483648 : ℤ) ≤ ⌈(win / res).val⌉ := by
      have := Int.le_ceil (win / res).val
      have h8 : ((2147483648 : ℤ) : ℝ) ≤ (⌈(win / res).val⌉ : ℝ) := by push_cast; norm_num at h6; linarith
      exact_mod_cast h8
    unfold Cxx.int
    rw [if_neg (by omega)]

/-- The window of a detector that is not initialised. -/
example (thetaWin phiWin rhoWin : Flt) : setPeakWindowPlane Plane.new thetaWin phiWin rhoWin = .error (.ub .overflow) := by
  unfold setPeakWindowPlane
  rw [C121_undefined_violated (res := Plane.new.thetaRes) (Or.inl zero_fl)]
  rfl

end Verif.HoughFp
