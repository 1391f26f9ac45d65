import Verif.HoughFp.LineModel
import Verif.HoughFp.InitProps
import Verif.Hough.LineProps

/-! Property theorems C139 (see properties.jsonl). -/
namespace Verif.Ieee.Fp
open Float.Model
variable {spec : Format} [Fmt spec]

/-- The sum does not depend on the order of the terms, bit by bit. -/
protected theorem add_comm (a b : Fp spec) : a + b = b + a := by
  show ofU spec (UnpackedFloat.add spec a.x b.x) = ofU spec (UnpackedFloat.add spec b.x a.x)
  congr 1
  cases a.x with
  | notANumber => cases b.x <;> rfl
  | infinity s => cases b.x <;> cases s <;> first | rfl | (rename_i t; cases t <;> rfl) | (rename_i t _ _ _; cases t <;> rfl)
  | zero s => cases b.x <;> cases s <;> first | rfl | (rename_i t; cases t <;> rfl) | (rename_i t _ _ _; cases t <;> rfl)
  | finite s m e h =>
    cases b.x with
    | notANumber => rfl
    | infinity t => cases s <;> cases t <;> rfl
    | zero t => cases s <;> cases t <;> rfl
    | finite t m' e' h' =>
      unfold UnpackedFloat.add
      dsimp only
      rw [Int.min_comm e' e, Int.add_comm (t.apply _)]

end Verif.Ieee.Fp

namespace Verif.HoughFp
open Verif Hough Ieee Fp Interval Interval.Spec Float.Model FunctionsFp GisFp Geometry2Fp Real

/-- The initialisation of the line detector. -/
theorem lineInit_ok (T : Trig) (maxSize : ℕ) (d : Line Flt) {a b : ℤ} (h : LineSizes maxSize a b) (thetaMin rhoMin thetaRes rhoRes : Flt) :
    ∃ d', lineInit T maxSize d a b thetaMin rhoMin thetaRes rhoRes = .ok d' ∧ LineOk d' (fun _ => 0) (fun _ => 0) ∧
      (d'.thetaNum, d'.rhoNum) = (a, b) ∧ (d'.thetaMin, d'.rhoMin, d'.thetaRes, d'.rhoRes) = (thetaMin, rhoMin, thetaRes, rhoRes) ∧
      d'.lut.len = a.toNat ∧ ∀ i, 0 ≤ i ∧ i < a → d'.lut.get i = .ok (unitf T (thetaRes * TlsFp.ofInt .binary32 i + thetaMin)) := by
  obtain ⟨ha, hb, h1, h2⟩ := h
  have p1 : a ≤ a * b := le_mul_of_one_le_right ha.le hb
  have p2 : b ≤ a * b := le_mul_of_one_le_left hb.le ha
  have i2 : ∀ x ∈ [a, b], 0 < x ∧ I32 x := by
    unfold I32
    intro x hx
    simp only [List.mem_cons, List.not_mem_nil, or_false] at hx
    rcases hx with rfl | rfl <;> omega
  have e2 : [a, b].prod = a * b := by simp
  obtain ⟨t, ct, t1, t2⟩ := initDims_ok maxSize 0 d.transform [a, b] i2 (by rw [e2]; omega) (by rw [e2]; omega)
  have hsz : Cxx.toSize a = a.toNat := by unfold Cxx.toSize; omega
  have hs : Grid.resize maxSize 0 d.spectrum a.toNat = .ok ⟨a.toNat, fun i => if i < d.spectrum.len then d.spectrum.val i else 0⟩ := if_neg (by omega)
  have hl : Grid.resize maxSize (0, 0) d.lut a.toNat = .ok ⟨a.toNat, fun i => if i < d.lut.len then d.lut.val i else (0, 0)⟩ := if_neg (by omega)
  obtain ⟨l, l1, l2, l3⟩ := forN_inv (f := fun itheta l => Vec.set l itheta (unitf T (thetaRes * TlsFp.ofInt .binary32 itheta + thetaMin)))
    (fun i v => v.len = a.toNat ∧ ∀ j, 0 ≤ j ∧ j < i → v.get j = .ok (unitf T (thetaRes * TlsFp.ofInt .binary32 j + thetaMin))) ha.le
    (s := ⟨a.toNat, fun i => if i < d.lut.len then d.lut.val i else (0, 0)⟩) ⟨rfl, fun j hj => by omega⟩ (by
      rintro i i0 i1 v ⟨v1, v2⟩
      refine ⟨_, if_pos (by omega), v1, fun j hj => ?_⟩
      unfold Vec.get
      rw [if_pos (by simp only; omega)]
      by_cases e : j = i
      · subst e
        simp
      · have := v2 j (by omega)
        unfold Vec.get at this
        rw [if_pos (by omega)] at this
        simp only
        rw [if_neg (by omega)]
        exact this)
  refine ⟨⟨Grid.fill t 0, fillVec ⟨a.toNat, fun i => if i < d.spectrum.len then d.spectrum.val i else 0⟩, l, a, b, thetaMin, rhoMin, thetaRes, rhoRes,
    d.ithetaWin, d.irhoWin⟩, ?_, ⟨t2.fill 0, fun i hi => fillVec_get _ (by simp only at hi ⊢; omega), ha, hb⟩, rfl, rfl, l2, l3⟩
  unfold lineInit
  rw [t1, bind_ok, hsz, hs, bind_ok, hl, bind_ok, l1, bind_ok]
  rfl

/-- A vector with components up to one, near the unit vector of an angle. -/
def NearCircle (n : Flt × Flt) (theta e : ℝ) : Prop :=
  (Approx n.1 (cos theta) e ∧ |n.1.val| ≤ 1) ∧ (Approx n.2 (sin theta) e ∧ |n.2.val| ≤ 1)

/-- The vector of an approximate angle. -/
theorem unitf_is {T : Trig} (hT : Accurate T) (hB : Bounded T) {x : Flt} {th : ℝ} (h : Approx x th (57 / 10 ^ 8)) (t1 : |th| ≤ 7) : NearCircle (unitf T x) th (1 / 2 ^ 20) := by
  have x1 : |x.val| ≤ 32 := (h.abs_le t1).trans (by norm_num)
  have C : ∀ a b, |cos a - cos b| ≤ |a - b| := fun a b => abs_cos_sub_cos_le a b
  have S : ∀ a b, |sin a - sin b| ≤ |a - b| := fun a b => abs_sin_sub_sin_le a b
  unfold unitf NearCircle
  by_cases hd : T.dbl
  · rw [if_pos hd]
    obtain ⟨wx1, wx2⟩ := wide_is h.1
    have ct := lib_is (e := 57 / 10 ^ 8) (v := th) C abs_cos_le_one (by rw [wx2]; exact h.2) (hT.cos (wide x) wx1 (by rwa [wx2]))
    have st := lib_is (e := 57 / 10 ^ 8) (v := th) S abs_sin_le_one (by rw [wx2]; exact h.2) (hT.sin (wide x) wx1 (by rwa [wx2]))
    exact ⟨unit_conv ct (hB.cos _ wx1 (by rwa [wx2])) (by norm_num), unit_conv st (hB.sin _ wx1 (by rwa [wx2])) (by norm_num)⟩
  · rw [if_neg hd]
    have ct := lib_is (e := 57 / 10 ^ 8) (v := th) C abs_cos_le_one h.2 (hT.cosf x h.1 x1)
    have st := lib_is (e := 57 / 10 ^ 8) (v := th) S abs_sin_le_one h.2 (hT.sinf x h.1 x1)
    exact ⟨⟨ct.weaken (by norm_num), hB.cosf x h.1 x1⟩, st.weaken (by norm_num), hB.sinf x h.1 x1⟩

/-- The angle of a cell in the code. -/
def angle (d : Line Flt) (i : ℤ) : Flt := d.thetaRes * TlsFp.ofInt .binary32 i + d.thetaMin

/-- C139, the table: the initialisation of a detector with any sizes succeeds and clears the counters; the angles are within 2^-20 of the exact ones, the normals have components within
2^-20 of those of the exact directions and unit length up to 2^-18. -/
theorem C139_init {T : Trig} (hT : Accurate T) (hB : Bounded T) (maxSize : ℕ) (d : Line Flt) {a b : ℤ} (h : LineSizes maxSize a b) (rhoRes : Flt) :
    ∃ d', lineInitSizes T maxSize d a b rhoRes = .ok d' ∧ (d'.thetaNum, d'.rhoNum) = (a, b) ∧ (d'.rhoMin.val = 0 ∧ d'.rhoRes = rhoRes) ∧ ∀ i, (0 ≤ i ∧ i < a) →
      Approx (angle d' i) (π * i / a) (57 / 10 ^ 8) ∧
      (∃ n, d'.lut.get i = .ok n ∧ NearCircle n (π * i / a) (1 / 2 ^ 20) ∧ |n.1.val ^ 2 + n.2.val ^ 2 - 1| ≤ 1 / 2 ^ 18) ∧
      d'.getHoughSpectrum i = .ok 0 ∧ ∀ r, (0 ≤ r ∧ r < b) → d'.getHoughTransform i r = .ok 0 := by
  obtain ⟨d', h1, h2, h3, h4, -, h5⟩ := lineInit_ok T maxSize d h (narrow (FunctionsFp.d 0 1)) (narrow (FunctionsFp.d 0 1)) (narrow (mPi / TlsFp.ofInt .binary64 a)) rhoRes
  simp only [Prod.mk.injEq] at h3 h4
  refine ⟨d', h1, by rw [h3.1, h3.2], ⟨by rw [h4.2.1]; exact zero_lit.2, h4.2.2.2⟩, fun i hi => ?_⟩
  obtain ⟨ha, hb, h6, -⟩ := h
  have p1 : a ≤ a * b := le_mul_of_one_le_right ha.le hb
  have q1 := pi_gt_d2
  have q2 := pi_lt_d2
  have ra := res_is (mPi_approx.weaken (by norm_num)) (by linarith) (by linarith) ha (by omega)
  have xa := (angle_is (by linarith) (by linarith) (by omega) hi.1 hi.2 ra.1 ra.2 zero_lit.1 zero_lit.2).weaken (show _ ≤ (57 / 10 ^ 8 : ℝ) by norm_num; linarith)
  have hi' : 0 ≤ i ∧ i < d'.thetaNum := by rw [h3.1]; exact hi
  have bound : |π * i / a| ≤ 7 := by
    have x0' : (0 : ℝ) ≤ i := by exact_mod_cast hi.1
    have x1' : (i : ℝ) ≤ a := by exact_mod_cast hi.2.le
    have n0 : (0 : ℝ) < a := by exact_mod_cast ha
    rw [abs_of_nonneg (by positivity), div_le_iff₀ n0]
    exact mul_le_mul (by linarith) x1' x0' (by norm_num)
  have hn := unitf_is hT hB xa bound
  refine ⟨?_, ⟨_, h5 i hi, hn, ?_⟩, (line_get_ok h2 (r := 0) hi').1, fun r hr => (line_get_ok h2 hi').2 (by rw [h3.2]; exact hr)⟩
  · unfold angle
    rw [h4.1, h4.2.2.1]
    exact xa
  · generalize unitf T (narrow (mPi / TlsFp.ofInt .binary64 a) * TlsFp.ofInt .binary32 i + narrow (FunctionsFp.d 0 1)) = n at *
    obtain ⟨⟨⟨-, a1⟩, a2⟩, ⟨-, b1⟩, b2⟩ := hn
    generalize π * i / a = th at *
    have key : ∀ {x u : ℝ}, |x - u| ≤ 1 / 2 ^ 20 → |x| ≤ 1 → |u| ≤ 1 → |x ^ 2 - u ^ 2| ≤ 2 / 2 ^ 20 := by
      intro x u e1 e2 e3
      rw [show x ^ 2 - u ^ 2 = (x - u) * (x + u) by ring, abs_mul]
      calc _ ≤ 1 / 2 ^ 20 * 2 := mul_le_mul e1 ((abs_add_le _ _).trans (by linarith)) (abs_nonneg _) (by norm_num)
        _ = _ := by ring
    have k1 := _root_.abs_le.1 (key a1 a2 (abs_cos_le_one _))
    have k2 := _root_.abs_le.1 (key b1 b2 (abs_sin_le_one _))
    have e : cos th ^ 2 = 1 - sin th ^ 2 := cos_sq' th
    rw [e] at k1
    rw [_root_.abs_le]
    constructor <;> norm_num at k1 k2 ⊢ <;> linarith [k1.1, k1.2, k2.1, k2.2]

/-- C139, the results: whatever the counters of a detector initialised with sizes (`t`, `s`), the normals found are exactly, bit by bit, those of the table at the angles found, which are
those of cells other than the first, each within 2^-20 of the exact angle, in decreasing order of the spectrum. -/
theorem C139_normals {T : Trig} (hT : Accurate T) (hB : Bounded T) (maxSize : ℕ) (d : Line Flt) {a b : ℤ} (h : LineSizes maxSize a b) (rhoRes : Flt) : ∃ d', lineInitSizes T maxSize d a b rhoRes = .ok d' ∧
    ∀ d'' : Line Flt, (d''.lut, d''.thetaNum, d''.thetaMin, d''.thetaRes) = (d'.lut, d'.thetaNum, d'.thetaMin, d'.thetaRes) → ∀ t s, LineOk d'' t s → LineWindows d'' →
      ∀ (as : List Flt) (ns : List (Flt × Flt)), ∃ (hs : List ℤ) (ang : ℤ → Flt) (nor : ℤ → Flt × Flt),
        findSpectrumAngleMax d'' as = .ok (as ++ hs.map ang) ∧ findNormalMax T d'' ns = .ok (ns ++ hs.map nor) ∧ hs.Nodup ∧ hs.Pairwise (fun i j => s j ≤ s i) ∧
        ∀ i ∈ hs, (0 < i ∧ i < a) ∧ d''.lut.get i = .ok (nor i) ∧ Approx (ang i) (π * i / a) (57 / 10 ^ 8) := by
  obtain ⟨d', h1, h2, h3, h4, -, h5⟩ := lineInit_ok T maxSize d h (narrow (FunctionsFp.d 0 1)) (narrow (FunctionsFp.d 0 1)) (narrow (mPi / TlsFp.ofInt .binary64 a)) rhoRes
  obtain ⟨e', g1, g2, -, g3⟩ := C139_init hT hB maxSize d h rhoRes
  obtain rfl : e' = d' := Except.ok.inj (g1.symm.trans h1)
  refine ⟨e', h1, fun d'' hd t s ok hw as ns => ?_⟩
  simp only [Prod.mk.injEq] at hd h3 h4 g2
  obtain ⟨hs, e, n1, n2, n3⟩ := line_spectrum_ok ok hw
  have ha : ∀ i, d''.thetaMin + d''.thetaRes * TlsFp.ofInt .binary32 i = angle e' i := fun i => by rw [hd.2.2.1, hd.2.2.2, Fp.add_comm]; rfl
  refine ⟨hs, angle e', fun i => unitf T (angle e' i), ?_, ?_, n1, n3, fun i hi => ?_⟩
  · unfold findSpectrumAngleMax
    rw [e, bind_ok, List.map_map]
    simp only [ha]
    rfl
  · unfold findNormalMax
    rw [e, bind_ok, List.map_map]
    simp only [ha]
    rfl
  · have hi' := n2 i hi
    rw [hd.2.1, g2.1] at hi'
    refine ⟨hi', ?_, (g3 i ⟨hi'.1.le, hi'.2⟩).1⟩
    rw [hd.1, h5 i ⟨hi'.1.le, hi'.2⟩]
    unfold angle
    rw [h4.1, h4.2.2.1]

-- four angles: the third normal is close to (0, 1)
example {T : Trig} (hT : Accurate T) (hB : Bounded T) : ∃ d n, lineInitSizes T 100 Line.newf 4 10 (fi 1) = .ok d ∧ d.lut.get 2 = .ok n ∧ |n.1.val| ≤ 1 / 2 ^ 20 ∧ |n.2.val - 1| ≤ 1 / 2 ^ 20 := by
  obtain ⟨d, h1, -, -, h⟩ := C139_init hT hB 100 Line.newf (a := 4) (b := 10) (by unfold LineSizes; norm_num) (fi 1)
  obtain ⟨-, ⟨n, h2, h3, -⟩, -⟩ := h 2 (by norm_num)
  have e : π * (2 : ℤ) / (4 : ℤ) = π / 2 := by push_cast; ring
  rw [e] at h3
  obtain ⟨⟨a, -⟩, b, -⟩ := h3
  have a := a.2
  have b := b.2
  rw [cos_pi_div_two, sub_zero] at a
  rw [sin_pi_div_two] at b
  exact ⟨d, n, h1, h2, a, b⟩

theorem of_bind {α β : Type} {a : Outcome α} {f : α → Outcome β} {b : β} (h : a >>= f = .ok b) : ∃ x, f x = .ok b := by
  cases a with
  | error e => cases h
  | ok x => exact ⟨x, h⟩

/-- `init` does not change the windows. -/
theorem lineInit_windows {T : Trig} {maxSize : ℕ} {d d' : Line Flt} {a b : ℤ} {w x y z : Flt} (h : lineInit T maxSize d a b w x y z = .ok d') :
    (d'.ithetaWin, d'.irhoWin) = (d.ithetaWin, d.irhoWin) := by
  unfold lineInit at h
  obtain ⟨t, h⟩ := of_bind h
  obtain ⟨s, h⟩ := of_bind h
  obtain ⟨l, h⟩ := of_bind h
  obtain ⟨l', h⟩ := of_bind h
  cases h
  rfl

/-- C139, the constructors: a detector that is constructed and initialised looks for maxima among the adjacent cells. -/
theorem C139_windows {T : Trig} (hT : Accurate T) (hB : Bounded T) (maxSize : ℕ) {a b : ℤ} (h : LineSizes maxSize a b) (rhoRes : Flt) :
    ∃ d, lineInitSizes T maxSize Line.newf a b rhoRes = .ok d ∧ d.ithetaWin = 1 ∧ d.irhoWin = 1 := by
  obtain ⟨d, h1, -⟩ := C139_init hT hB maxSize Line.newf h rhoRes
  have := lineInit_windows h1
  simp only [Prod.mk.injEq] at this
  exact ⟨d, h1, this.1, this.2⟩

end Verif.HoughFp
