import Verif.Box.RegistrationProps
import Mathlib.Tactic.NormNum.BigOperators

/-! Property theorems C136 (see properties.jsonl): repeated steps of the box registration. -/
namespace Verif.Box
open Verif Matrix Finset

variable {K : Type} [Field K] [LinearOrder K] [IsStrictOrderedRing K] {D n : ℕ}

/-- The transformations after `k` calls of `computeTransform`, each with the result of the previous one, box_registration.h:152-204; `none`
when one is NaN. -/
def register (inv : Mat K D → Mat K D) (svd : Mat K D → Mat K D × Mat K D) (dims : Point K D) (cloud : Fin n → Point K D) :
    ℕ → Transf K D → Outcome (Option (Transf K D))
  | 0, T => .ok (some T)
  | k + 1, T => do
    let r ← computeTransform inv svd dims cloud T
    match r with
    | none => return none
    | some T' => register inv svd dims cloud k T'

/-- The decomposition is correct for the matrices of the first `k` calls. -/
def SvdAlong (inv : Mat K D → Mat K D) (svd : Mat K D → Mat K D × Mat K D) (dims : Point K D) (cloud : Fin n → Point K D) :
    ℕ → Transf K D → Prop
  | 0, _ => True
  | k + 1, T => (∀ src, modelPoints dims (T.inverse inv) cloud = .ok src → SvdOk svd src cloud) ∧
      ∀ T', computeTransform inv svd dims cloud T = .ok (some T') → SvdAlong inv svd dims cloud k T'

/-- The sum of the squared distances from the cloud to the box moved by `T'` is at most the one for the box moved by `T`: for all points of
the second box there are points of the first as close. -/
def Closer (dims : Point K D) (cloud : Fin n → Point K D) (T' T : Transf K D) : Prop :=
  ∀ q, (∀ i, Surface dims (q i)) → ∃ q', (∀ i, Surface dims (q' i)) ∧ cost T' q' cloud ≤ cost T q cloud

/-- C136, full statement: after any number of steps the transformation is rigid and the box is not farther from the cloud than before. -/
def C136_statement (K : Type) [Field K] [LinearOrder K] [IsStrictOrderedRing K] (D : ℕ) : Prop :=
  ∀ (n : ℕ) (inv : Mat K D → Mat K D) (svd : Mat K D → Mat K D × Mat K D) (dims : Point K D) (cloud : Fin n → Point K D) (T : Transf K D) (k : ℕ),
    0 < n → Sizes dims → Rotation T.linear → (∀ M, Rotation M → inv M * M = 1) → SvdAlong inv svd dims cloud k T →
      ∃ T', register inv svd dims cloud k T = .ok (some T') ∧ Rotation T'.linear ∧ Closer dims cloud T' T

/-- **C136** in the plane. -/
theorem C136_plane_partial : C136_statement K 2 := by
  intro n inv svd dims cloud T k hn hd hT hinv
  induction k generalizing T with
  | zero => exact fun _ => ⟨T, rfl, hT, fun q hq => ⟨q, hq, le_refl _⟩⟩
  | succ k ih =>
    rintro ⟨h1, h2⟩
    obtain ⟨src, hsrc, -, h3⟩ := C79_rigid (by omega) inv svd dims hd cloud T
    obtain ⟨T1, e1, hrot, -⟩ := (h3 (h1 src hsrc)).2 hn
    obtain ⟨T1', e2, -, hclose⟩ := C80_plane n inv svd dims cloud T hn hd hT (hinv _ hT) src hsrc (h1 src hsrc)
    have : T1' = T1 := by
      rw [e1] at e2
      exact (Option.some.inj (Except.ok.inj e2)).symm
    subst this
    obtain ⟨T', e3, hrot', hclose'⟩ := ih T1' hrot (h2 T1' e1)
    refine ⟨T', ?_, hrot', fun q hq => ?_⟩
    · unfold register
      rw [e1]
      exact e3
    · obtain ⟨q1, hq1, hle1⟩ := hclose q hq
      obtain ⟨q2, hq2, hle2⟩ := hclose' q1 hq1
      exact ⟨q2, hq2, hle2.trans hle1⟩

/-- **C136** in any dimension, the part that holds: the transformations are rigid. -/
theorem C136_rigid_partial (hD : 1 < D) (inv : Mat K D → Mat K D) (svd : Mat K D → Mat K D × Mat K D) (dims : Point K D) (cloud : Fin n → Point K D)
    (T : Transf K D) (k : ℕ) (hn : 0 < n) (hd : Sizes dims) (hT : Rotation T.linear) (hs : SvdAlong inv svd dims cloud k T) :
    ∃ T', register inv svd dims cloud k T = .ok (some T') ∧ Rotation T'.linear := by
  induction k generalizing T with
  | zero => exact ⟨T, rfl, hT⟩
  | succ k ih =>
    obtain ⟨h1, h2⟩ := hs
    obtain ⟨src, hsrc, -, h3⟩ := C79_rigid hD inv svd dims hd cloud T
    obtain ⟨T1, e1, hrot, -⟩ := (h3 (h1 src hsrc)).2 hn
    obtain ⟨T', e3, hrot'⟩ := ih T1 hrot (h2 T1 e1)
    refine ⟨T', ?_, hrot'⟩
    unfold register
    rw [e1]
    exact e3

/-- Sixteen points around a box of sizes 100, 100, 20: eight inside, eight outside. -/
def gCloud : Fin 16 → Point ℚ 3 := ![![10, 40, 1], ![10, 40, 1], ![10, 40, 1], ![10, -40, 1], ![-10, 40, 1], ![-10, 40, 1], ![-10, 40, 1], ![-10, -40, 1],
  ![60, 40, 5], ![60, 40, 5], ![60, 40, 5], ![60, -40, 5], ![-60, 40, 5], ![-60, 40, 5], ![-60, 40, 5], ![-60, -40, 5]]
/-- The points associated to them. -/
def gSrc : Fin 16 → Point ℚ 3 := ![![10, 40, 10], ![10, 40, 10], ![10, 40, 10], ![10, -40, 10], ![-10, 40, 10], ![-10, 40, 10], ![-10, 40, 10], ![-10, -40, 10],
  ![50, 40, 5], ![50, 40, 5], ![50, 40, 5], ![50, -40, 5], ![-50, 40, 5], ![-50, 40, 5], ![-50, 40, 5], ![-50, -40, 5]]
def gDims : Point ℚ 3 := ![100, 100, 20]

theorem gModel {inv : Mat ℚ 3 → Mat ℚ 3} (hinv : inv 1 = 1) : modelPoints gDims (Transf.inverse inv ⟨1, 0⟩) gCloud = .ok gSrc := by
  have e : ∀ p, (Transf.inverse inv ⟨1, 0⟩).apply p = p := fun p => by simp [Transf.apply, Transf.inverse, hinv]
  have a : ∀ i, (match associate 3 (ext gDims) (ext (gCloud i)) (fun _ => 0) with
      | .ok p => some fun d : Fin 3 => p d
      | .error _ => none) = some (gSrc i) := by decide +kernel
  have h : ∀ i, (associate 3 (ext gDims) (ext ((Transf.inverse inv ⟨1, 0⟩).apply (gCloud i))) (fun _ => 0)).isOk := fun i => by
    have := a i
    rw [e]
    cases hc : associate 3 (ext gDims) (ext (gCloud i)) (fun _ => 0) with
    | ok p => rfl
    | error _ => rw [hc] at this; cases this
  unfold modelPoints
  rw [if_pos h]
  congr 1
  funext i
  have := a i
  rw [e]
  cases hc : associate 3 (ext gDims) (ext (gCloud i)) (fun _ => 0) with
  | ok p => rw [hc] at this; exact Option.some.inj this
  | error _ => rw [hc] at this; cases this

theorem gScatter : scatter gSrc gCloud = diagonal ![24800, 19200, -80] := by decide +kernel

def gSvd (_ : Mat ℚ 3) : Mat ℚ 3 × Mat ℚ 3 := (1, diagonal ![1, 1, -1])

theorem gSvd_ok : SvdOk gSvd gSrc gCloud := by
  refine ⟨![24800, 19200, 80], by decide +kernel, by unfold Antitone; decide +kernel, by decide +kernel, by decide +kernel, by decide +kernel⟩

/-- **C136** fails in space: one step moves the box away from the cloud. The squared distances from the cloud to the box were 1448 and
become at least 3600. -/
theorem C136_farther_violated (inv : Mat ℚ 3 → Mat ℚ 3) (hinv : inv 1 = 1) :
    Sizes gDims ∧ modelPoints gDims (Transf.inverse inv ⟨1, 0⟩) gCloud = .ok gSrc ∧ SvdOk gSvd gSrc gCloud ∧
    cost ⟨1, 0⟩ gSrc gCloud = 1448 ∧ ∃ T', computeTransform inv gSvd gDims gCloud ⟨1, 0⟩ = .ok (some T') ∧
      ∀ q, (∀ i, Surface gDims (q i)) → 3600 ≤ cost T' q gCloud := by
  refine ⟨by unfold Sizes; decide +kernel, gModel hinv, gSvd_ok, by decide +kernel, _, compute_eq (by omega) (by omega) (gModel hinv), ?_⟩
  intro q hq
  have hT : (⟨(gSvd (scatter gSrc gCloud)).2 * flip (detSign (gSvd (scatter gSrc gCloud)).1 (gSvd (scatter gSrc gCloud)).2) *
      (gSvd (scatter gSrc gCloud)).1ᵀ, mean gCloud - ((gSvd (scatter gSrc gCloud)).2 * flip (detSign (gSvd (scatter gSrc gCloud)).1
        (gSvd (scatter gSrc gCloud)).2) * (gSvd (scatter gSrc gCloud)).1ᵀ) *ᵥ mean gSrc⟩ : Transf ℚ 3) =
      ⟨diagonal ![1, -1, -1], ![0, 40, 21 / 2]⟩ := by
    rw [Transf.mk.injEq]
    exact ⟨by decide +kernel, by decide +kernel⟩
  rw [hT]
  have term : ∀ i, gCloud i 1 = -40 → 900 ≤ (gCloud i - Transf.apply ⟨diagonal ![1, -1, -1], ![0, 40, 21 / 2]⟩ (q i)) ⬝ᵥ
      (gCloud i - Transf.apply ⟨diagonal ![1, -1, -1], ![0, 40, 21 / 2]⟩ (q i)) := by
    intro i hi
    have hy : q i 1 ≤ 50 := by
      have := (hq i).1 1 (by omega)
      rw [ext_lt _ (by omega : 1 < 3), ext_lt _ (by omega : 1 < 3)] at this
      have := (abs_le.1 this).2
      change q i 1 ≤ 100 / 2 at this
      linarith
    have e : (gCloud i - Transf.apply ⟨diagonal ![1, -1, -1], ![0, 40, 21 / 2]⟩ (q i)) 1 = q i 1 - 80 := by
      change gCloud i 1 - ((diagonal ![1, -1, -1] *ᵥ q i) 1 + 40) = _
      rw [mulVec_diagonal, hi]
      change -40 - (-1 * q i 1 + 40) = _
      ring
    have s : (gCloud i - Transf.apply ⟨diagonal ![1, -1, -1], ![0, 40, 21 / 2]⟩ (q i)) 1 *
        (gCloud i - Transf.apply ⟨diagonal ![1, -1, -1], ![0, 40, 21 / 2]⟩ (q i)) 1 ≤
        (gCloud i - Transf.apply ⟨diagonal ![1, -1, -1], ![0, 40, 21 / 2]⟩ (q i)) ⬝ᵥ
          (gCloud i - Transf.apply ⟨diagonal ![1, -1, -1], ![0, 40, 21 / 2]⟩ (q i)) :=
      single_le_sum (f := fun d => (gCloud i - Transf.apply ⟨diagonal ![1, -1, -1], ![0, 40, 21 / 2]⟩ (q i)) d *
        (gCloud i - Transf.apply ⟨diagonal ![1, -1, -1], ![0, 40, 21 / 2]⟩ (q i)) d) (fun d _ => mul_self_nonneg _) (mem_univ 1)
    rw [e] at s
    nlinarith
  have sub := sum_le_sum_of_subset_of_nonneg (s := ({3, 7, 11, 15} : Finset (Fin 16))) (subset_univ _)
    (f := fun i => (gCloud i - Transf.apply ⟨diagonal ![1, -1, -1], ![0, 40, 21 / 2]⟩ (q i)) ⬝ᵥ
      (gCloud i - Transf.apply ⟨diagonal ![1, -1, -1], ![0, 40, 21 / 2]⟩ (q i)))
    fun i _ _ => sum_nonneg fun d _ => mul_self_nonneg _
  have card := card_nsmul_le_sum ({3, 7, 11, 15} : Finset (Fin 16)) (fun i => (gCloud i - Transf.apply ⟨diagonal ![1, -1, -1], ![0, 40, 21 / 2]⟩ (q i)) ⬝ᵥ
      (gCloud i - Transf.apply ⟨diagonal ![1, -1, -1], ![0, 40, 21 / 2]⟩ (q i))) 900 (fun i hi => term i (by revert i; decide +kernel))
  have : (3600 : ℚ) = #({3, 7, 11, 15} : Finset (Fin 16)) • 900 := by decide +kernel
  rw [this]
  exact card.trans sub

/-- The statement of C136 is false in space. -/
theorem C136_violated : ¬ C136_statement ℚ 3 := by
  intro h
  obtain ⟨w1, w2, w3, w4, T', w5, w6⟩ := C136_farther_violated (fun M => Mᵀ) (by simp)
  obtain ⟨T'', h1, -, h3⟩ := h 16 (fun M => Mᵀ) gSvd gDims gCloud ⟨1, 0⟩ 1 (by omega) w1 ⟨by simp, by simp⟩ (fun M hM => hM.1)
    ⟨fun src hsrc => by rw [w2] at hsrc; rw [← Except.ok.inj hsrc]; exact w3, fun _ _ => trivial⟩
  have e : T'' = T' := by
    unfold register at h1
    rw [w5] at h1
    exact (Option.some.inj (Except.ok.inj h1)).symm
  subst e
  obtain ⟨b, -⟩ := associate_best (by omega) w1 (T := ⟨1, 0⟩) ⟨by simp, by simp⟩ (inv := fun M => Mᵀ) (by simp) w2
  obtain ⟨q', hq', hle⟩ := h3 gSrc b
  have := w6 q' hq'
  rw [w4] at hle
  linarith

/-- **C136**, error branch: without points the transformation is NaN from the first step on. -/
theorem C136_empty (hD : 1 < D) (inv : Mat K D → Mat K D) (svd : Mat K D → Mat K D × Mat K D) (dims : Point K D) (hd : Sizes dims) (cloud : Fin 0 → Point K D) (T : Transf K D)
    (k : ℕ) : register inv svd dims cloud (k + 1) T = .ok none := by
  obtain ⟨src, h1, -⟩ := modelPoints_ok (by omega) hd (T.inverse inv) cloud
  have h2 : computeTransform inv svd dims cloud T = .ok none := by
    unfold computeTransform
    rw [h1]
    rfl
  unfold register
  rw [h2]
  rfl

end Verif.Box
