import Verif.Morton.ExactProps

/-! Property theorems C159 (see properties.jsonl): the Morton order of integers, independently of their type, and its self similarity. -/
namespace Verif.Morton
open Verif.NumericTraits

/-- The integers are in the same interval `[2^k c, 2^k (c + 1))`. -/
def Cell (k : ℕ) (x y : ℤ) : Prop := x / 2 ^ k = y / 2 ^ k

/-- The Morton order of vectors of integers (of any size): a coordinate `s` decides that is separated by the intervals of every size that separate any coordinate, and is the first such. -/
def ZLess (dim : ℕ) (x y : ℕ → ℤ) : Prop :=
  ∃ s < dim, x s < y s ∧ (∀ d < dim, ∀ k, Cell k (x s) (y s) → Cell k (x d) (y d)) ∧ ∀ d < s, ∃ k, Cell k (x d) (y d) ∧ ¬ Cell k (x s) (y s)

theorem cell_iff (t : ITy) (k : ℕ) (x y : BitVec t.w) :
    Cell k (t.val x) (t.val y) ↔ Spec.SameCell (if t.signed then min k (t.w - 1) else k) (Spec.bias t x) (Spec.bias t y) := by
  have hx := bias_cast t x
  have hy := bias_cast t y
  have bx := bias_lt t x
  have bY := bias_lt t y
  have hw := pow_w t
  unfold Cell Spec.SameCell
  cases hs : t.signed
  · rw [hs] at hx hy
    simp only [Bool.false_eq_true, if_false, add_zero] at hx hy ⊢
    rw [← hx, ← hy]
    norm_cast
  · rw [hs] at hx hy
    simp only [if_true] at hx hy ⊢
    rcases le_total k (t.w - 1) with h | h
    · rw [min_eq_left h]
      have e : (2 : ℤ) ^ (t.w - 1) = 2 ^ (t.w - 1 - k) * 2 ^ k := by rw [← pow_add]; congr 1; omega
      have key : ∀ z : ℤ, (z + 2 ^ (t.w - 1)) / 2 ^ k = z / 2 ^ k + 2 ^ (t.w - 1 - k) := fun z => by
        rw [e, Int.add_mul_ediv_right _ _ (by positivity)]
      have h1 := key (t.val x)
      have h2 := key (t.val y)
      rw [← hx] at h1
      rw [← hy] at h2
      have : ((Spec.bias t x / 2 ^ k : ℕ) : ℤ) = ((Spec.bias t y / 2 ^ k : ℕ) : ℤ) ↔ t.val x / 2 ^ k = t.val y / 2 ^ k := by
        push_cast
        rw [h1, h2]
        omega
      rw [← this]
      norm_cast
    · rw [min_eq_right h]
      have hP : (2 : ℤ) ^ (t.w - 1) ≤ 2 ^ k := pow_le_pow_right₀ (by norm_num) h
      have key : ∀ (b : ℕ) (z : ℤ), (b : ℤ) = z + 2 ^ (t.w - 1) → b < 2 ^ t.w → (z / 2 ^ k = if b < 2 ^ (t.w - 1) then -1 else 0) ∧ b / 2 ^ (t.w - 1) = if b < 2 ^ (t.w - 1) then 0 else 1 := by
        intro b z hb hlt
        have hb' : ((2 ^ (t.w - 1) : ℕ) : ℤ) = 2 ^ (t.w - 1) := by norm_cast
        have hpos : 0 < 2 ^ (t.w - 1) := by positivity
        rw [hw] at hlt
        split
        · rename_i hc
          have : (b : ℤ) < 2 ^ (t.w - 1) := by exact_mod_cast hc
          refine ⟨?_, Nat.div_eq_of_lt hc⟩
          rw [Int.ediv_eq_iff_of_pos (by positivity)]
          constructor <;> linarith [Int.natCast_nonneg b]
        · rename_i hc
          have h2 : (b : ℤ) < 2 ^ (t.w - 1) * 2 := by exact_mod_cast hlt
          have h3 : (2 : ℤ) ^ (t.w - 1) ≤ b := by exact_mod_cast (not_lt.1 hc)
          refine ⟨Int.ediv_eq_zero_of_lt (by linarith) (by linarith), ?_⟩
          rw [Nat.div_eq_iff hpos]
          omega
      obtain ⟨h1, h2⟩ := key _ _ hx bx
      obtain ⟨h3, h4⟩ := key _ _ hy bY
      rw [h1, h2, h3, h4]
      split_ifs <;> simp

theorem cell_mono (t : ITy) (x y z u : BitVec t.w) :
    (∀ k, Cell k (t.val x) (t.val y) → Cell k (t.val z) (t.val u)) ↔ (Spec.bias t z ^^^ Spec.bias t u).size ≤ (Spec.bias t x ^^^ Spec.bias t y).size := by
  simp only [cell_iff, ← size_xor_le]
  have hle : (Spec.bias t z ^^^ Spec.bias t u).size ≤ t.w := Nat.size_le.2 (Nat.xor_lt_two_pow (bias_lt t z) (bias_lt t u))
  constructor
  · intro h
    have := h (Spec.bias t x ^^^ Spec.bias t y).size
    split_ifs at this
    · by_contra hc
      have := this (by omega)
      omega
    · exact this le_rfl
  · intro h k hk
    omega

/-- C159: on every integer type the comparison of the code is the Morton order of the values. -/
theorem C159_spec (t : ITy) (dim : ℕ) (v w : ℕ → BitVec t.w) (h0 : 0 < dim) (h1 : dim ≤ 2 ^ t.w) :
    mortonCmpInt t dim v w = true ↔ ZLess dim (fun d => t.val (v d)) fun d => t.val (w d) := by
  have key : ∀ s, (s < dim ∧ (∀ d < dim, ∀ k, Cell k (t.val (v s)) (t.val (w s)) → Cell k (t.val (v d)) (t.val (w d))) ∧
      ∀ d < s, ∃ k, Cell k (t.val (v d)) (t.val (w d)) ∧ ¬ Cell k (t.val (v s)) (t.val (w s))) ↔ IsFirstMax (fun d => Spec.bias t (v d) ^^^ Spec.bias t (w d)) (dim - 1) s := by
    intro s
    have e : ∀ d, (∃ k, Cell k (t.val (v d)) (t.val (w d)) ∧ ¬ Cell k (t.val (v s)) (t.val (w s))) ↔
        (Spec.bias t (v d) ^^^ Spec.bias t (w d)).size < (Spec.bias t (v s) ^^^ Spec.bias t (w s)).size := fun d => by
      rw [← not_le, ← cell_mono]
      push Not
      rfl
    simp only [e, cell_mono]
    exact ⟨fun h => ⟨by omega, fun d hd => h.2.1 d (by omega), h.2.2⟩, fun h => ⟨by have := h.le; omega, fun d hd => h.ge_all d (by omega), h.first⟩⟩
  obtain ⟨-, hmax⟩ := cmpLoop_inv t v w (dim - 1) (by omega)
  rw [mortonCmpInt_iff t dim v w h0 h1, Spec.mcode, Spec.mcode]
  constructor
  · intro h
    rw [code_lt_iff h0 (fun d _ => bias_lt t _) (fun d _ => bias_lt t _) hmax, ← val_lt_iff] at h
    obtain ⟨g1, g2, g3⟩ := (key _).2 hmax
    exact ⟨_, g1, h, g2, g3⟩
  · rintro ⟨s, g1, h, g2, g3⟩
    rw [code_lt_iff h0 (fun d _ => bias_lt t _) (fun d _ => bias_lt t _) ((key s).1 ⟨g1, g2, g3⟩), ← val_lt_iff]
    exact h

/-- C159: the type of the coordinates does not matter. -/
theorem C159_types (t t' : ITy) (dim : ℕ) (v w : ℕ → BitVec t.w) (v' w' : ℕ → BitVec t'.w) (h0 : 0 < dim) (h1 : dim ≤ 2 ^ t.w) (h1' : dim ≤ 2 ^ t'.w)
    (hv : ∀ d < dim, t.val (v d) = t'.val (v' d)) (hw : ∀ d < dim, t.val (w d) = t'.val (w' d)) : mortonCmpInt t dim v w = mortonCmpInt t' dim v' w' := by
  rw [Bool.eq_iff_iff, C159_spec t dim v w h0 h1, C159_spec t' dim v' w' h0 h1']
  refine exists_congr fun s => and_congr_right fun hs => ?_
  simp only [hv s hs, hw s hs]
  refine and_congr_right fun _ => and_congr ?_ ?_
  · exact forall_congr' fun d => forall_congr' fun hd => by rw [hv d hd, hw d hd]
  · exact forall_congr' fun d => forall_congr' fun hd => by rw [hv d (by omega), hw d (by omega)]

theorem ediv_child (x e : ℤ) (he : e = 0 ∨ e = 1) (k : ℕ) : (2 * x + e) / 2 ^ (k + 1) = x / 2 ^ k := by
  rw [pow_succ', ← Int.ediv_ediv_of_nonneg (by norm_num : (0 : ℤ) ≤ 2)]
  congr 1
  omega

theorem cell_zero (x y : ℤ) : Cell 0 x y ↔ x = y := by simp [Cell]

theorem cell_self (k : ℕ) (x : ℤ) : Cell k x x := rfl

/-- C159: the cells of half the size are ordered as their parents; those of the same parent by the first coordinate that differs. Together these determine the order. -/
theorem C159_children (t t' : ITy) (dim : ℕ) (v w : ℕ → BitVec t.w) (a b : ℕ → BitVec t'.w) (e f : ℕ → ℤ) (h0 : 0 < dim) (h1 : dim ≤ 2 ^ t.w) (h1' : dim ≤ 2 ^ t'.w)
    (he : ∀ d < dim, e d = 0 ∨ e d = 1) (hf : ∀ d < dim, f d = 0 ∨ f d = 1)
    (hv : ∀ d < dim, t.val (v d) = 2 * t'.val (a d) + e d) (hw : ∀ d < dim, t.val (w d) = 2 * t'.val (b d) + f d) :
    (¬ Spec.SameVec dim a b → mortonCmpInt t dim v w = mortonCmpInt t' dim a b) ∧
    (Spec.SameVec dim a b → (mortonCmpInt t dim v w = true ↔ ∃ s < dim, e s = 0 ∧ f s = 1 ∧ ∀ d < s, e d = f d)) := by
  have hc : ∀ d < dim, ∀ k, Cell (k + 1) (t.val (v d)) (t.val (w d)) ↔ Cell k (t'.val (a d)) (t'.val (b d)) := fun d hd k => by
    unfold Cell
    rw [hv d hd, hw d hd, ediv_child _ _ (he d hd), ediv_child _ _ (hf d hd)]
  constructor
  · intro hne
    rw [Bool.eq_iff_iff, C159_spec t dim v w h0 h1, C159_spec t' dim a b h0 h1']
    have hne' : ∃ d < dim, t'.val (a d) ≠ t'.val (b d) := by
      by_contra hc
      push Not at hc
      exact hne fun d hd => (val_inj t' _ _).1 (hc d hd)
    obtain ⟨d0, hd0, hne0⟩ := hne'
    refine exists_congr fun s => and_congr_right fun hs => ?_
    dsimp only
    have hs' := he s hs
    have hs'' := hf s hs
    have lem : ∀ d < dim, (∃ k, ¬ Cell k (t'.val (a s)) (t'.val (b s))) → ((∀ k, Cell k (t.val (v s)) (t.val (w s)) → Cell k (t.val (v d)) (t.val (w d))) ↔
        ∀ k, Cell k (t'.val (a s)) (t'.val (b s)) → Cell k (t'.val (a d)) (t'.val (b d))) := by
      rintro d hd ⟨k0, hk0⟩
      have hsne : t.val (v s) ≠ t.val (w s) := by
        intro h
        have := (hc s hs k0).1 (by rw [h]; exact cell_self _ _)
        exact hk0 this
      constructor
      · exact fun h k hk => (hc d hd k).1 (h (k + 1) ((hc s hs k).2 hk))
      · intro h k hk
        cases k with
        | zero => exact absurd ((cell_zero _ _).1 hk) hsne
        | succ k => exact (hc d hd k).2 (h k ((hc s hs k).1 hk))
    constructor
    · rintro ⟨g1, g2, g3⟩
      have hab : t'.val (a s) ≠ t'.val (b s) := by
        intro h
        have h2 := g2 d0 hd0 1 ((hc s hs 0).2 ((cell_zero _ _).2 h))
        exact hne0 ((cell_zero _ _).1 ((hc d0 hd0 0).1 h2))
      have hex : ∃ k, ¬ Cell k (t'.val (a s)) (t'.val (b s)) := ⟨0, fun h => hab ((cell_zero _ _).1 h)⟩
      refine ⟨?_, fun d hd => (lem d hd hex).1 (g2 d hd), fun d hd => ?_⟩
      · rw [hv s hs, hw s hs] at g1
        omega
      · obtain ⟨k, hk1, hk2⟩ := g3 d hd
        cases k with
        | zero =>
          refine ⟨0, ?_, fun h => hab ((cell_zero _ _).1 h)⟩
          rw [cell_zero] at hk1 ⊢
          rw [hv d (by omega), hw d (by omega)] at hk1
          have := he d (by omega)
          have := hf d (by omega)
          omega
        | succ k => exact ⟨k, (hc d (by omega) k).1 hk1, fun h => hk2 ((hc s hs k).2 h)⟩
    · rintro ⟨g1, g2, g3⟩
      have hex : ∃ k, ¬ Cell k (t'.val (a s)) (t'.val (b s)) := ⟨0, fun h => g1.ne ((cell_zero _ _).1 h)⟩
      refine ⟨?_, fun d hd => (lem d hd hex).2 (g2 d hd), fun d hd => ?_⟩
      · rw [hv s hs, hw s hs]
        omega
      · obtain ⟨k, hk1, hk2⟩ := g3 d hd
        exact ⟨k + 1, (hc d (by omega) k).2 hk1, fun h => hk2 ((hc s hs k).1 h)⟩
  · intro hsame
    rw [C159_spec t dim v w h0 h1]
    have hab : ∀ d < dim, t'.val (a d) = t'.val (b d) := fun d hd => by rw [hsame d hd]
    refine exists_congr fun s => and_congr_right fun hs => ?_
    dsimp only
    have h2 := he s hs
    have h3 := hf s hs
    have hce : ∀ d < dim, ∀ k, Cell k (t.val (v d)) (t.val (w d)) ↔ (k = 0 → e d = f d) := by
      intro d hd k
      cases k with
      | zero =>
        rw [cell_zero, hv d hd, hw d hd, hab d hd]
        constructor
        · intro h _; linarith
        · intro h; rw [h rfl]
      | succ k =>
        rw [hc d hd, hab d hd]
        exact ⟨fun _ h => absurd h (by omega), fun _ => cell_self _ _⟩
    constructor
    · rintro ⟨g1, -, g3⟩
      rw [hv s hs, hw s hs, hab s hs] at g1
      refine ⟨by omega, by omega, fun d hd => ?_⟩
      obtain ⟨k, hk1, hk2⟩ := g3 d hd
      rw [hce d (by omega)] at hk1
      rw [hce s hs] at hk2
      push Not at hk2
      exact hk1 hk2.1
    · rintro ⟨g1, g2, g3⟩
      refine ⟨by rw [hv s hs, hw s hs, hab s hs]; omega, fun d hd k hk => ?_, fun d hd => ⟨0, (hce d (by omega) 0).2 fun _ => g3 d hd, fun h => ?_⟩⟩
      · rw [hce s hs] at hk
        rw [hce d hd]
        intro hk0
        have := hk hk0
        omega
      · have := (hce s hs 0).1 h rfl
        omega

theorem cell_le {k l : ℕ} (h : k ≤ l) {x y : ℤ} (hc : Cell k x y) : Cell l x y := by
  unfold Cell at *
  have e : (2 : ℤ) ^ l = 2 ^ k * 2 ^ (l - k) := by rw [← pow_add]; congr 1; omega
  rw [e, ← Int.ediv_ediv_of_nonneg (by positivity), ← Int.ediv_ediv_of_nonneg (by positivity), hc]

/-- C159: inside a cell of size `2^j` the order is that of every other cell of this size: moving both vectors by multiples of `2^j` does not change it. -/
theorem C159_translate (t t' : ITy) (dim j : ℕ) (v w : ℕ → BitVec t.w) (v' w' : ℕ → BitVec t'.w) (m : ℕ → ℤ) (h0 : 0 < dim) (h1 : dim ≤ 2 ^ t.w) (h1' : dim ≤ 2 ^ t'.w)
    (hj : ∀ d < dim, Cell j (t.val (v d)) (t.val (w d)))
    (hv : ∀ d < dim, t'.val (v' d) = t.val (v d) + m d * 2 ^ j) (hw : ∀ d < dim, t'.val (w' d) = t.val (w d) + m d * 2 ^ j) : mortonCmpInt t' dim v' w' = mortonCmpInt t dim v w := by
  rw [Bool.eq_iff_iff, C159_spec t dim v w h0 h1, C159_spec t' dim v' w' h0 h1']
  have hc : ∀ d < dim, ∀ k, Cell k (t'.val (v' d)) (t'.val (w' d)) ↔ Cell k (t.val (v d)) (t.val (w d)) := by
    have key : ∀ x y n : ℤ, Cell j x y → ∀ k, Cell k (x + n * 2 ^ j) (y + n * 2 ^ j) ↔ Cell k x y := by
      intro x y n hxy k
      rcases le_total k j with h | h
      · have e : n * (2 : ℤ) ^ j = n * 2 ^ (j - k) * 2 ^ k := by rw [mul_assoc, ← pow_add]; congr 2; omega
        unfold Cell
        rw [e, Int.add_mul_ediv_right _ _ (by positivity), Int.add_mul_ediv_right _ _ (by positivity), add_left_inj]
      · refine ⟨fun _ => cell_le h hxy, fun _ => cell_le h ?_⟩
        unfold Cell at *
        rw [Int.add_mul_ediv_right _ _ (by positivity), Int.add_mul_ediv_right _ _ (by positivity), hxy]
    intro d hd k
    rw [hv d hd, hw d hd]
    exact key _ _ _ (hj d hd) k
  refine exists_congr fun s => and_congr_right fun hs => and_congr ?_ (and_congr ?_ ?_)
  · show t'.val (v' s) < t'.val (w' s) ↔ t.val (v s) < t.val (w s)
    rw [hv s hs, hw s hs, add_lt_add_iff_right]
  · exact forall_congr' fun d => forall_congr' fun hd => forall_congr' fun k => by rw [hc s hs, hc d hd]
  · exact forall_congr' fun d => forall_congr' fun hd => exists_congr fun k => by rw [hc s hs, hc d (by omega)]

theorem cmp_mirror (t : ITy) (dim : ℕ) (v w v' w' : ℕ → BitVec t.w) (h0 : 0 < dim) (h1 : dim ≤ 2 ^ t.w) {c : ℤ} (hcc : c = -1 ∨ c = 2 ^ t.w - 1)
    (hv : ∀ d < dim, t.val (v' d) = c - t.val (v d)) (hw : ∀ d < dim, t.val (w' d) = c - t.val (w d)) : mortonCmpInt t dim v' w' = mortonCmpInt t dim w v := by
  rw [Bool.eq_iff_iff, C159_spec t dim v' w' h0 h1, C159_spec t dim w v h0 h1]
  have hrange : ∀ x : BitVec t.w, t.val x < 2 ^ t.w := fun x => by
    have h2 := bias_cast t x
    have h3 := bias_lt t x
    have h4 : ((Spec.bias t x : ℕ) : ℤ) < 2 ^ t.w := by exact_mod_cast h3
    split_ifs at h2
    · have : (0 : ℤ) < 2 ^ (t.w - 1) := by positivity
      linarith
    · linarith
  have hneg : ∀ x k, (-1 - x : ℤ) / 2 ^ k = -1 - x / 2 ^ k := by
    intro x k
    have hp : (0 : ℤ) < 2 ^ k := by positivity
    rw [Int.ediv_eq_iff_of_pos hp]
    have e1 := Int.emod_add_mul_ediv x (2 ^ k)
    have e2 := Int.emod_nonneg x hp.ne'
    have e3 := Int.emod_lt_of_pos x hp
    constructor <;> nlinarith
  have key : ∀ x y : ℤ, (∀ z ∈ [x, y], z < 2 ^ t.w ∧ (c = -1 ∨ (0 ≤ z ∧ 0 ≤ c - z))) → ∀ k, Cell k (c - x) (c - y) ↔ Cell k y x := by
    intro x y hz k
    have hx := hz x (by simp)
    have hy := hz y (by simp)
    unfold Cell
    rcases le_total k t.w with h | h
    · have : ∃ m : ℤ, c = -1 + m * 2 ^ k := by
        rcases hcc with rfl | rfl
        · exact ⟨0, by ring⟩
        · refine ⟨2 ^ (t.w - k), ?_⟩
          rw [← pow_add, Nat.sub_add_cancel h]
          ring
      obtain ⟨m, hm⟩ := this
      rw [hm, show ∀ z : ℤ, -1 + m * 2 ^ k - z = -1 - z + m * 2 ^ k from fun z => by ring, show ∀ z : ℤ, -1 + m * 2 ^ k - z = -1 - z + m * 2 ^ k from fun z => by ring,
        Int.add_mul_ediv_right _ _ (by positivity), Int.add_mul_ediv_right _ _ (by positivity), hneg, hneg]
      omega
    · rcases hcc with rfl | rfl
      · rw [hneg, hneg]
        omega
      · have hP : (2 : ℤ) ^ t.w ≤ 2 ^ k := pow_le_pow_right₀ (by norm_num) h
        have hw1 : (1 : ℤ) < 2 ^ t.w := by
          have := w_pos t
          exact one_lt_pow₀ (by norm_num) (by omega)
        have hx2 := hx.2.resolve_left (by linarith)
        have hy2 := hy.2.resolve_left (by linarith)
        rw [Int.ediv_eq_zero_of_lt hx2.2 (by linarith), Int.ediv_eq_zero_of_lt hy2.2 (by linarith), Int.ediv_eq_zero_of_lt hx2.1 (by linarith), Int.ediv_eq_zero_of_lt hy2.1 (by linarith)]
  have hc : ∀ d < dim, ∀ k, Cell k (t.val (v' d)) (t.val (w' d)) ↔ Cell k (t.val (w d)) (t.val (v d)) := by
    intro d hd k
    have hside : c = -1 ∨ ∀ x : BitVec t.w, ∀ y : BitVec t.w, t.val y = c - t.val x → 0 ≤ t.val x ∧ 0 ≤ t.val y := by
      rcases hcc with h | h
      · exact Or.inl h
      · right
        intro x y hxy
        have b1 := bias_cast t x
        have b2 := bias_cast t y
        have b3 := hrange x
        have b4 := hrange y
        rw [h] at hxy
        constructor <;> linarith
    rw [hv d hd, hw d hd]
    refine key _ _ (fun z hz => ?_) k
    simp only [List.mem_cons, List.not_mem_nil, or_false] at hz
    rcases hz with rfl | rfl
    · refine ⟨hrange _, hside.imp id fun h => ?_⟩
      have := h _ _ (hv d hd)
      rwa [hv d hd] at this
    · refine ⟨hrange _, hside.imp id fun h => ?_⟩
      have := h _ _ (hw d hd)
      rwa [hw d hd] at this
  refine exists_congr fun s => and_congr_right fun hs => and_congr ?_ (and_congr ?_ ?_)
  · show t.val (v' s) < t.val (w' s) ↔ t.val (w s) < t.val (v s)
    rw [hv s hs, hw s hs]
    omega
  · exact forall_congr' fun d => forall_congr' fun hd => forall_congr' fun k => by rw [hc s hs, hc d hd]
  · exact forall_congr' fun d => forall_congr' fun hd => exists_congr fun k => by rw [hc s hs, hc d (by omega)]

theorem val_not (t : ITy) : ∃ c : ℤ, (c = -1 ∨ c = 2 ^ t.w - 1) ∧ ∀ x : BitVec t.w, t.val (~~~x) = c - t.val x := by
  unfold ITy.val
  cases h : t.signed
  · refine ⟨2 ^ t.w - 1, Or.inr rfl, fun x => ?_⟩
    have h1 := x.isLt
    simp only [Bool.false_eq_true, if_false, BitVec.toNat_not]
    have h2 : ((2 ^ t.w : ℕ) : ℤ) = 2 ^ t.w := by norm_cast
    omega
  · refine ⟨-1, Or.inl rfl, fun x => ?_⟩
    have h3 := BitVec.toInt_eq_toNat_cond x
    have h4 := BitVec.toInt_eq_toNat_cond (~~~x)
    have h1 := x.isLt
    rw [BitVec.toNat_not] at h4
    have h2 : ((2 ^ t.w : ℕ) : ℤ) = 2 ^ t.w := by norm_cast
    have e := pow_w t
    simp only [if_true]
    split_ifs at h3 h4 <;> omega

/-- C159: complementing all the bits (`-1 - x`, or `2^w - 1 - x` without sign) reverses the order. -/
theorem C159_mirror (t : ITy) (dim : ℕ) (v w : ℕ → BitVec t.w) (h0 : 0 < dim) (h1 : dim ≤ 2 ^ t.w) :
    mortonCmpInt t dim (fun d => ~~~ v d) (fun d => ~~~ w d) = mortonCmpInt t dim w v := by
  obtain ⟨c, hc, h⟩ := val_not t
  exact cmp_mirror t dim v w _ _ h0 h1 hc (fun d _ => h _) (fun d _ => h _)

/-- Other translations change the order: (0, 1) is before (1, 0), and (0, 2) is after (1, 1). -/
theorem C159_needed : mortonCmpInt .i32 2 (fun d => if d = 0 then 0#32 else 1#32) (fun d => if d = 0 then 1#32 else 0#32) = true ∧
    mortonCmpInt .i32 2 (fun d => if d = 0 then 0#32 else 2#32) (fun d => if d = 0 then 1#32 else 1#32) = false := by decide +kernel

example : mortonCmpInt .i32 2 (fun d => if d = 0 then BitVec.ofInt 32 (-5) else 12#32) (fun d => if d = 0 then BitVec.ofInt 32 (-3) else 9#32) =
    mortonCmpInt .i8 2 (fun d => if d = 0 then BitVec.ofInt 8 (-5) else 12#8) (fun d => if d = 0 then BitVec.ofInt 8 (-3) else 9#8) := by decide +kernel

end Verif.Morton
