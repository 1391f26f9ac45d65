import Verif.Morton.Interval
import Mathlib.Tactic.NormNum
import Mathlib.Tactic.FinCases

/-! Property theorems C07 to C12 (see properties.jsonl). -/
namespace Verif.Morton
open Verif.NumericTraits Verif.BitManip

/-! ### C07: msb -/

/-- C07: `msb(i1, i2)` iff every set bit of `i1` is below some set bit of `i2` (and `i2` has one). -/
theorem C07_msb (w : ℕ) (i1 i2 : BitVec w) :
    msb i1 i2 = true ↔ ∃ k, i2.toNat.testBit k = true ∧ ∀ j, i1.toNat.testBit j = true → j < k := by
  rw [msb_iff]
  constructor
  · intro h
    refine ⟨i2.toNat.size - 1, testBit_top (by omega), fun j hj => ?_⟩
    by_contra hge
    rw [testBit_above (by omega)] at hj
    exact Bool.noConfusion hj
  · rintro ⟨k, hk, hall⟩
    have h2 : k < i2.toNat.size := Nat.lt_size.2 (Nat.ge_two_pow_of_testBit hk)
    rcases Nat.eq_zero_or_pos i1.toNat.size with h0 | h0
    · omega
    · have := hall _ (testBit_top (n := i1.toNat) (by omega))
      omega

example : msb (0b0101#8) (0b1001#8) = true ∧ msb (0b1000#8) (0b1010#8) = false ∧ msb (0#8) (1#8) = true := by decide

/-! ### C08: mortonCmpInt -/

/-- C08: `mortonCmpInt` compares the interleaved codes. `Dim` is at least 1 and at most `2^w` (the code keeps the
dimension index in a variable of the coordinate type; see `C08_mortonCmpInt_dim_violated`). -/
theorem C08_mortonCmpInt_partial (t : ITy) (dim : ℕ) (v1 v2 : ℕ → BitVec t.w) (h0 : 0 < dim) (h1 : dim ≤ 2 ^ t.w) :
    mortonCmpInt t dim v1 v2 = true ↔ Spec.mcode t dim v1 < Spec.mcode t dim v2 :=
  mortonCmpInt_iff t dim v1 v2 h0 h1

/-- C08, full statement: for every dimension. -/
def C08_statement : Prop :=
  ∀ (t : ITy) (dim : ℕ) (v1 v2 : ℕ → BitVec t.w), 0 < dim →
    (mortonCmpInt t dim v1 v2 = true ↔ Spec.mcode t dim v1 < Spec.mcode t dim v2)

/-- The two vectors of 8-bit coordinates that differ only in coordinate 256. -/
def wrap1 : ℕ → BitVec (ITy.u8).w := fun _ => 0#8
@[inherit_doc wrap1] def wrap2 : ℕ → BitVec (ITy.u8).w := fun d => if d = 256 then 1#8 else 0#8

/-- `lastDim` wraps for 8-bit coordinates. -/
theorem cmpLoop_wrap (v1 v2 : ℕ → BitVec (ITy.u8).w) (n : ℕ) : (cmpLoop .u8 v1 v2 n).1 < 256 := by
  induction n with
  | zero => simp [cmpLoop]
  | succ n ih =>
    simp only [cmpLoop]
    split_ifs
    · exact Nat.mod_lt _ (by decide)
    · exact ih

theorem wrap_not_lt : mortonCmpInt .u8 257 wrap1 wrap2 = false ∧ mortonCmpInt .u8 257 wrap2 wrap1 = false := by
  have e : ∀ n < 256, wrap2 n = wrap1 n := by
    intro n hn; unfold wrap2 wrap1; rw [if_neg (by omega)]
  have h1 := cmpLoop_wrap wrap1 wrap2 256
  have h2 := cmpLoop_wrap wrap2 wrap1 256
  simp only [mortonCmpInt, ITy.lt, show 257 - 1 = 256 by rfl]
  rw [e _ h1, e _ h2]
  simp

/-- For 8-bit coordinates and more than 256 dimensions `lastDim` wraps (morton_sort.h:320, 326): two vectors that differ
only in coordinate 256 are not ordered. -/
theorem C08_mortonCmpInt_dim_violated : ¬ C08_statement := by
  intro h
  have hle : Spec.mcode .u8 257 wrap1 ≤ Spec.mcode .u8 257 wrap2 := by
    apply code_mono (by omega) (fun d _ => bias_lt .u8 _) (fun d _ => bias_lt .u8 _)
    intro d _
    have : Spec.bias .u8 (wrap1 d) = 0 := (by decide : Spec.bias .u8 (0#8) = 0)
    omega
  have hne : Spec.mcode .u8 257 wrap1 < Spec.mcode .u8 257 wrap2 := by
    refine lt_of_le_of_ne hle fun he => ?_
    have := code_inj (fun d _ => bias_lt .u8 _) (fun d _ => bias_lt .u8 _) he 256 (by omega)
    rw [bias_inj] at this
    revert this
    decide
  have hcmp := (h .u8 257 wrap1 wrap2 (by omega)).2 hne
  rw [wrap_not_lt.1] at hcmp
  exact Bool.noConfusion hcmp

/-- Signed coordinates `(-1, 5)` come before `(3, -7)`; the codes confirm it. -/
example : mortonCmpInt .i8 2 (fun d => if d = 0 then BitVec.ofInt 8 (-1) else 5#8)
      (fun d => if d = 0 then 3#8 else BitVec.ofInt 8 (-7)) = true ∧
    Spec.mcode .u8 2 (fun d => if d = 0 then 3#8 else 5#8) = 0b011011 := by decide +kernel

/-! ### C09: strict total order -/

/-- C09: irreflexive, asymmetric, transitive, total on vectors of at least 1 and at most `2^w` coordinates.
Missing: more than `2^w` coordinates, for which totality fails (`C09_dim_violated`). -/
theorem C09_order_partial (t : ITy) (dim : ℕ) (h0 : 0 < dim) (h1 : dim ≤ 2 ^ t.w) :
    (∀ v, mortonCmpInt t dim v v = false) ∧
    (∀ v1 v2, mortonCmpInt t dim v1 v2 = true → mortonCmpInt t dim v2 v1 = false) ∧
    (∀ v1 v2 v3, mortonCmpInt t dim v1 v2 = true → mortonCmpInt t dim v2 v3 = true → mortonCmpInt t dim v1 v3 = true) ∧
    (∀ v1 v2, ¬ Spec.SameVec dim v1 v2 → mortonCmpInt t dim v1 v2 = true ∨ mortonCmpInt t dim v2 v1 = true) := by
  have key := fun v1 v2 => mortonCmpInt_iff t dim v1 v2 h0 h1
  refine ⟨fun v => ?_, fun v1 v2 h => ?_, fun v1 v2 v3 h h' => ?_, fun v1 v2 h => ?_⟩
  · rw [Bool.eq_false_iff, ne_eq, key]; omega
  · rw [Bool.eq_false_iff, ne_eq, key]; rw [key] at h; omega
  · rw [key] at *; omega
  · rw [key, key]
    by_contra hc
    apply h
    intro d hd
    exact (bias_inj t _ _).1 (code_inj (fun d _ => bias_lt t _) (fun d _ => bias_lt t _) (show Spec.mcode t dim v1 = Spec.mcode t dim v2 by omega) d hd)

/-- C09, full statement of totality: for every dimension. -/
def C09_statement : Prop :=
  ∀ (t : ITy) (dim : ℕ) (v1 v2 : ℕ → BitVec t.w), 0 < dim → ¬ Spec.SameVec dim v1 v2 →
    mortonCmpInt t dim v1 v2 = true ∨ mortonCmpInt t dim v2 v1 = true

/-- Totality fails for 257 coordinates of 8 bits. -/
theorem C09_dim_violated : ¬ C09_statement := by
  intro h
  have hne : ¬ Spec.SameVec 257 wrap1 wrap2 := fun hs => by
    have := hs 256 (by omega)
    revert this; decide
  have := h .u8 257 wrap1 wrap2 (by omega) hne
  rw [wrap_not_lt.1, wrap_not_lt.2] at this
  simp at this

/-! ### C10: intervalPow2Int -/

/-- Strict reading of the undefined expression `1 << -1`. -/
def strict : Outcome Int := .error (.ub .shift)

/-- C10 for one pair. -/
def C10_at (t : ITy) (i1 i2 : BitVec t.w) : Prop :=
  ∃ r, ∃ k : ℕ, intervalPow2Int strict t i1 i2 = .ok r ∧ r.level = k ∧
    Spec.IsDyadic (minVal t) (t.val i1) (t.val i2) k (t.val r.low) (t.val r.mid) (t.val r.upp)

/-- C10, full statement. -/
def C10_statement : Prop := ∀ (t : ITy) (i1 i2 : BitVec t.w), C10_at t i1 i2

theorem val_eq_bias (t : ITy) (x : BitVec t.w) : t.val x = (Spec.bias t x : ℤ) + minVal t := by
  have := bias_cast t x
  unfold minVal
  split_ifs at * <;> omega

theorem isDyadic_of_good (t : ITy) (x y : BitVec t.w) (r : Pow2Interval t.w) (g : GoodInterval t x y r) :
    Spec.IsDyadic (minVal t) (t.val x) (t.val y) (lev t x y) (t.val r.low) (t.val r.mid) (t.val r.upp) := by
  have hlow := g.low
  have hupp := g.upp
  have hmid := g.mid
  have hx := cell_mem (show Spec.SameCell (lev t x y) (Spec.bias t x) (Spec.bias t x) from rfl)
  have hy := cell_mem (show Spec.SameCell (lev t x y) (Spec.bias t x) (Spec.bias t y) from size_xor_le.1 (le_refl _))
  have hne : t.val x ≠ t.val y ↔ x ≠ y := not_congr (val_inj t x y)
  have hcx := val_eq_bias t x
  have hcy := val_eq_bias t y
  have hcl := val_eq_bias t r.low
  have hcu := val_eq_bias t r.upp
  have hcm := val_eq_bias t r.mid
  have hp : 0 < 2 ^ lev t x y := by positivity
  have ep : (2 : ℤ) ^ lev t x y = ((2 ^ lev t x y : ℕ) : ℤ) := by push_cast; rfl
  have ep' : (2 : ℤ) ^ (lev t x y - 1) = ((2 ^ (lev t x y - 1) : ℕ) : ℤ) := by push_cast; rfl
  have hsplit : x ≠ y → min (t.val x) (t.val y) < t.val r.mid ∧ t.val r.mid ≤ max (t.val x) (t.val y) := by
    intro h
    have hm := hmid h
    rcases lt_trichotomy (Spec.bias t x) (Spec.bias t y) with hlt | heq | hgt
    · have := cell_split hlt
      rw [← show lev t x y = (Spec.bias t x ^^^ Spec.bias t y).size from rfl] at this
      omega
    · exact absurd ((bias_inj t x y).1 heq) h
    · have hs := cell_split hgt
      rw [Nat.xor_comm, ← show lev t x y = (Spec.bias t x ^^^ Spec.bias t y).size from rfl] at hs
      have hc : Spec.bias t x / 2 ^ lev t x y = Spec.bias t y / 2 ^ lev t x y :=
        (size_xor_le.1 (le_refl _) : Spec.SameCell (lev t x y) (Spec.bias t x) (Spec.bias t y))
      rw [← hc] at hs
      omega
  refine ⟨?_, ?_, by omega, by omega, ?_, fun h => ?_, fun h => (hsplit (hne.1 h)).1, fun h => (hsplit (hne.1 h)).2⟩
  · rw [hcl, hlow, ep]
    refine ⟨((Spec.bias t x / 2 ^ lev t x y : ℕ) : ℤ), ?_⟩
    push_cast; ring
  · rw [ep]; omega
  · rintro j hj ⟨c, ⟨q, hq⟩, ⟨hx1, hx2⟩, ⟨hy1, hy2⟩⟩
    have hnc : ¬ Spec.SameCell j (Spec.bias t x) (Spec.bias t y) := by
      rw [← size_xor_le]; simp only [lev] at hj; omega
    apply hnc
    have epj : (2 : ℤ) ^ j = ((2 ^ j : ℕ) : ℤ) := by push_cast; rfl
    have hpj : (0 : ℤ) < 2 ^ j := by positivity
    have e1 : ((Spec.bias t x : ℤ)) / 2 ^ j = q := by
      rw [Int.ediv_eq_iff_of_pos hpj]
      constructor <;> nlinarith
    have e2 : ((Spec.bias t y : ℤ)) / 2 ^ j = q := by
      rw [Int.ediv_eq_iff_of_pos hpj]
      constructor <;> nlinarith
    unfold Spec.SameCell
    have := e1.trans e2.symm
    rw [epj] at this
    exact_mod_cast this
  · rw [ep']; have := hmid (hne.1 h); omega

/-- C10 holds for distinct values that share the top bit and the bits above bit 30, or have opposite signs.
Missing: equal values, 32- and 64-bit values differing in bit 30 or above with the same top bit, unsigned values with
different top bits; on all of these the code is wrong or undefined (theorems below). -/
theorem C10_intervalPow2Int_partial (t : ITy) (i1 i2 : BitVec t.w) (hne : i1 ≠ i2) (hn : Spec.Nice t i1 i2) :
    C10_at t i1 i2 := by
  obtain ⟨r, hr, g⟩ := interval_nice strict t i1 i2 hn (Or.inl hne)
  exact ⟨r, _, hr, g.level, isDyadic_of_good t i1 i2 r g⟩

/-- The two 8- and 16-bit signed types are covered completely, except for equal values. -/
theorem C10_intervalPow2Int_signed_partial (t : ITy) (ht : t = .i8 ∨ t = .i16) (i1 i2 : BitVec t.w) (hne : i1 ≠ i2) :
    C10_at t i1 i2 := by
  apply C10_intervalPow2Int_partial t i1 i2 hne
  by_cases h : t.val i1 < 0 ↔ t.val i2 < 0
  · left
    have hs : t.signed = true := by rcases ht with rfl | rfl <;> rfl
    have hw : min 30 (t.w - 1) = t.w - 1 := by rcases ht with rfl | rfl <;> rfl
    rw [hw]
    have hx := bias_cast t i1
    have hy := bias_cast t i2
    have bx := bias_lt t i1
    have bz := bias_lt t i2
    rw [hs, if_pos rfl] at hx hy
    have ep : (2 : ℤ) ^ (t.w - 1) = ((2 ^ (t.w - 1) : ℕ) : ℤ) := by push_cast; rfl
    rw [ep] at hx hy
    rw [pow_w t] at bx bz
    have hp : 0 < 2 ^ (t.w - 1) := by positivity
    unfold Spec.SameCell
    by_cases h1 : t.val i1 < 0
    · have h2 := h.1 h1
      rw [Nat.div_eq_of_lt (by omega), Nat.div_eq_of_lt (by omega)]
    · have h2 := mt h.2 h1
      rw [Nat.div_eq_of_lt_le (k := 1) (by omega) (by omega), Nat.div_eq_of_lt_le (k := 1) (by omega) (by omega)]
  · right
    exact ⟨by rcases ht with rfl | rfl <;> rfl, h⟩

/-- Equal arguments are undefined behaviour for every type: `1 << -1` (morton_sort.h:118). -/
theorem C10_equal_violated (t : ITy) (i : BitVec t.w) : intervalPow2Int strict t i i = .error (.ub .shift) := by
  have h0 : lev t i i = 0 := (lev_eq_zero t i i).2 rfl
  unfold intervalPow2Int
  simp only [level_eq, h0]
  have := w_pos t
  rw [if_pos (by exact_mod_cast this)]
  simp [shl1, Cxx.int, strict, bind, Except.bind]

/-- 32-bit values first differing in bit 30 overflow: `(1 << 31) - 1` (morton_sort.h:115). -/
theorem C10_level31_violated (t : ITy) (i1 i2 : BitVec t.w) (hw : 31 < t.w) (h : lev t i1 i2 = 31) :
    intervalPow2Int strict t i1 i2 = .error (.ub .overflow) := by
  unfold intervalPow2Int
  simp only [level_eq, h]
  rw [if_pos (by exact_mod_cast hw)]
  simp [shl1, Cxx.int, bind, Except.bind]

/-- 64-bit values of the same sign half that first differ in bit 31 or above shift out of range: `1 << level`. -/
theorem C10_level64_violated (t : ITy) (i1 i2 : BitVec t.w) (h : 32 ≤ lev t i1 i2) (hw : lev t i1 i2 < t.w) :
    intervalPow2Int strict t i1 i2 = .error (.ub .shift) := by
  unfold intervalPow2Int
  simp only [level_eq]
  rw [if_pos (by exact_mod_cast hw)]
  have : shl1 (lev t i1 i2 : ℤ) = .error (.ub .shift) := by
    unfold shl1; rw [if_pos (by omega)]
  simp [this, bind, Except.bind]

/-- Unsigned values with different top bits get `mid = 2^(w-1) - 1` instead of `2^(w-1)` (morton_sort.h:131), so
`mid` does not separate 127 from 128. -/
theorem C10_unsigned_violated : ¬ C10_at .u8 127#8 128#8 := by
  rintro ⟨r, k, hr, -, hd⟩
  have h := hd.below (by decide)
  have e : intervalPow2Int strict .u8 127#8 128#8 = .ok ⟨8, 0#8, 127#8, 255#8⟩ := by decide +kernel
  rw [e] at hr
  have hr' := Except.ok.inj hr
  rw [← hr'] at h
  revert h; decide

/-- C10 is false for the code. -/
theorem C10_violated : ¬ C10_statement := fun h => C10_unsigned_violated (h .u8 127#8 128#8)

example : C10_at .i32 13#32 9#32 := C10_intervalPow2Int_partial .i32 13#32 9#32 (by decide) (Or.inl (by decide +kernel))
example : intervalPow2Int strict .i32 13#32 9#32 = .ok ⟨3, 8#32, 12#32, 15#32⟩ := by decide +kernel
example : intervalPow2Int strict .i32 (BitVec.ofInt 32 (-5)) 7#32 =
    .ok ⟨32, BitVec.ofInt 32 (-2147483648), 0#32, 2147483647#32⟩ := by decide +kernel
/-- `lev = 31` and `32 ≤ lev < 64` do occur. -/
example : lev .i32 0#32 (0x40000000#32) = 31 ∧ lev .i64 0#64 (0x80000000#64) = 32 := by decide +kernel

/-! ### C11: mortonSplitInt -/

/-- C11 for one pair of vectors, `shlNeg` being the meaning of `1 << -1`. -/
def C11_at (shlNeg : Outcome Int) (t : ITy) (dim : ℕ) (v1 v2 : ℕ → BitVec t.w) : Prop :=
  ∃ s, mortonSplitInt shlNeg t dim v1 v2 = .ok s ∧
    Spec.mcode t dim v1 < Spec.mcode t dim s.mid ∧ Spec.mcode t dim s.mid ≤ Spec.mcode t dim v2 ∧
    ∀ d < dim, t.val (s.low d) ≤ t.val (v1 d) ∧ t.val (s.low d) ≤ t.val (v2 d) ∧
      t.val (v1 d) ≤ t.val (s.upp d) ∧ t.val (v2 d) ≤ t.val (s.upp d)

/-- C11, full statement. -/
def C11_statement : Prop :=
  ∀ (t : ITy) (dim : ℕ) (v1 v2 : ℕ → BitVec t.w), 0 < dim → Spec.mcode t dim v1 < Spec.mcode t dim v2 →
    C11_at strict t dim v1 v2

/-- C11 holds when every coordinate pair is supported by `intervalPow2Int` (`Spec.Nice`); pairs of equal
coordinates are allowed provided `1 << -1` yields some value `m`, whatever it is.
Missing: the unsupported pairs, and equal coordinates under the strict reading (undefined behaviour). -/
theorem C11_mortonSplitInt_partial (shlNeg : Outcome Int) (t : ITy) (dim : ℕ) (v1 v2 : ℕ → BitVec t.w) (h0 : 0 < dim)
    (hlt : Spec.mcode t dim v1 < Spec.mcode t dim v2)
    (hn : ∀ d < dim, Spec.Nice t (v1 d) (v2 d) ∧ (v1 d ≠ v2 d ∨ ∃ m, shlNeg = .ok m)) :
    C11_at shlNeg t dim v1 v2 := by
  obtain ⟨s, hs, g⟩ := splitLoop_good shlNeg t v1 v2 (dim - 1) (fun d hd => hn d (by omega))
  refine ⟨s, hs, ?_⟩
  have hsd : s.dimSplit < dim := by have := g.first.le; omega
  have hcell : ∀ d, Spec.SameCell (lev t (v1 d) (v2 d)) (Spec.bias t (v1 d)) (Spec.bias t (v2 d)) :=
    fun d => size_xor_le.1 (le_refl _)
  have hm1 : ∀ d, _ := fun d => cell_mem (show Spec.SameCell (lev t (v1 d) (v2 d)) (Spec.bias t (v1 d)) (Spec.bias t (v1 d)) from rfl)
  have hm2 : ∀ d, _ := fun d => cell_mem (hcell d)
  have hlt' : Spec.bias t (v1 s.dimSplit) < Spec.bias t (v2 s.dimSplit) :=
    (code_lt_iff h0 (fun d _ => bias_lt t _) (fun d _ => bias_lt t _) g.first).1 hlt
  have hne : v1 s.dimSplit ≠ v2 s.dimSplit := fun h => by rw [h] at hlt'; omega
  have hmid := g.midSplit hne
  obtain ⟨hs1, hs2⟩ := cell_split hlt'
  change Spec.bias t (v1 s.dimSplit) < Spec.bias t (v1 s.dimSplit) / 2 ^ lev t (v1 s.dimSplit) (v2 s.dimSplit) *
    2 ^ lev t (v1 s.dimSplit) (v2 s.dimSplit) + 2 ^ (lev t (v1 s.dimSplit) (v2 s.dimSplit) - 1) at hs1
  change Spec.bias t (v1 s.dimSplit) / 2 ^ lev t (v1 s.dimSplit) (v2 s.dimSplit) *
    2 ^ lev t (v1 s.dimSplit) (v2 s.dimSplit) + 2 ^ (lev t (v1 s.dimSplit) (v2 s.dimSplit) - 1) ≤ _ at hs2
  have hk0 : lev t (v1 s.dimSplit) (v2 s.dimSplit) ≠ 0 := fun h => hne ((lev_eq_zero t _ _).1 h)
  refine ⟨?_, ?_, ?_⟩
  · -- v1 before mid
    have hcells : ∀ d < dim, Spec.SameCell (lev t (v1 d) (v2 d)) (Spec.bias t (v1 d)) (Spec.bias t (s.mid d)) := by
      intro d hd
      unfold Spec.SameCell
      have hp : 0 < 2 ^ lev t (v1 d) (v2 d) := by positivity
      symm
      by_cases hds : d = s.dimSplit
      · rw [hds, hmid]
        have hlt2 : 2 ^ (lev t (v1 s.dimSplit) (v2 s.dimSplit) - 1) < 2 ^ lev t (v1 s.dimSplit) (v2 s.dimSplit) :=
          Nat.pow_lt_pow_right (by omega) (by omega)
        rw [Nat.mul_comm, Nat.mul_add_div (by positivity), Nat.div_eq_of_lt hlt2, Nat.add_zero]
      · rw [g.mid d (by omega) hds, g.low d (by omega), Nat.mul_div_cancel _ hp]
    have hsz : (Spec.bias t (v1 s.dimSplit) ^^^ Spec.bias t (s.mid s.dimSplit)).size =
        (Spec.bias t (v1 s.dimSplit) ^^^ Spec.bias t (v2 s.dimSplit)).size := by
      apply le_antisymm (size_xor_le.2 (hcells _ hsd))
      by_contra hc
      rw [not_le] at hc
      -- then mid and v1 would share a cell of half the size
      have hc' : Spec.SameCell (lev t (v1 s.dimSplit) (v2 s.dimSplit) - 1) (Spec.bias t (v1 s.dimSplit)) (Spec.bias t (s.mid s.dimSplit)) := by
        rw [← size_xor_le]; change _ < lev t _ _ at hc; omega
      have hmm := cell_mem hc'.symm
      rw [hmid] at hmm
      set k := lev t (v1 s.dimSplit) (v2 s.dimSplit) with hk
      have hp2 : 2 ^ k = 2 * 2 ^ (k - 1) := by rw [← pow_succ']; congr 1; omega
      have hdiv : (Spec.bias t (v1 s.dimSplit) / 2 ^ k * 2 ^ k + 2 ^ (k - 1)) / 2 ^ (k - 1) * 2 ^ (k - 1) =
          Spec.bias t (v1 s.dimSplit) / 2 ^ k * 2 ^ k + 2 ^ (k - 1) := by
        apply Nat.div_mul_cancel
        refine ⟨Spec.bias t (v1 s.dimSplit) / 2 ^ k * 2 + 1, ?_⟩
        have e : ∀ q p h : ℕ, p = 2 * h → q * p + h = h * (q * 2 + 1) := by rintro q p h rfl; ring
        exact e _ _ _ hp2
      rw [hdiv] at hmm
      omega
    have hfm : IsFirstMax (fun d => Spec.bias t (v1 d) ^^^ Spec.bias t (s.mid d)) (dim - 1) s.dimSplit := by
      refine ⟨g.first.le, fun d hd => ?_, fun d hd => ?_⟩
      · have h1 := size_xor_le.2 (hcells d (by omega))
        have h2 := g.first.ge_all d hd
        simp only [lev] at h1 h2 ⊢; omega
      · have h1 := size_xor_le.2 (hcells d (by omega))
        have h2 := g.first.first d hd
        simp only [lev] at h1 h2 ⊢; omega
    unfold Spec.mcode
    rw [code_lt_iff h0 (fun d _ => bias_lt t _) (fun d _ => bias_lt t _) hfm, hmid]
    exact hs1
  · -- mid not after v2
    apply code_mono h0 (fun d _ => bias_lt t _) (fun d _ => bias_lt t _)
    intro d hd
    by_cases hds : d = s.dimSplit
    · rw [hds, hmid]; exact hs2
    · rw [g.mid d (by omega) hds, g.low d (by omega)]
      exact (hm2 d).1
  · intro d hd
    simp only [val_le_iff]
    rw [g.low d (by omega), g.upp d (by omega)]
    have h1 := hm1 d
    have h2 := hm2 d
    omega

/-- Any equal pair of coordinates makes the split undefined under the strict reading. -/
theorem C11_equal_violated : ¬ C11_statement := by
  intro h
  obtain ⟨s, hs, -⟩ := h .i32 2 (fun d => if d = 0 then 1#32 else 5#32) (fun d => if d = 0 then 2#32 else 5#32) (by omega)
    (by decide +kernel)
  have e : mortonSplitInt strict .i32 2 (fun d => if d = 0 then 1#32 else 5#32) (fun d => if d = 0 then 2#32 else 5#32) =
      .error (.ub .shift) := by rfl
  rw [e] at hs
  cases hs

/-- Even without undefined behaviour the split of unsigned values is wrong: for `v1 = (127)`, `v2 = (128)` of type
`uint8_t` the middle vector equals `v1`. -/
theorem C11_unsigned_violated (shlNeg : Outcome Int) : ¬ C11_at shlNeg .u8 1 (fun _ => 127#8) (fun _ => 128#8) := by
  rintro ⟨s, hs, h1, -⟩
  have e : mortonSplitInt shlNeg .u8 1 (fun _ => 127#8) (fun _ => 128#8) =
      .ok ⟨0, 8, upd (fun _ => 0#8) 0 0#8, upd (fun _ => 0#8) 0 127#8, upd (fun _ => 0#8) 0 255#8⟩ := rfl
  rw [e] at hs
  rw [← Except.ok.inj hs] at h1
  revert h1; decide +kernel

example : C11_at strict .i32 2 (fun d => if d = 0 then 1#32 else 9#32) (fun d => if d = 0 then 7#32 else 30#32) :=
  C11_mortonSplitInt_partial strict .i32 2 _ _ (by omega) (by decide +kernel) (by
    intro d hd
    have : d = 0 ∨ d = 1 := by omega
    rcases this with rfl | rfl
    · exact ⟨Or.inl (by decide +kernel), Or.inl (by decide)⟩
    · exact ⟨Or.inl (by decide +kernel), Or.inl (by decide)⟩)

/-! ### C12: mortonDistanceInt -/

/-- `mortonDistanceInt` is the level of the smallest dyadic cell containing both vectors. -/
theorem C12_distance_cell (t : ITy) (dim : ℕ) (a b : ℕ → BitVec t.w) :
    IsLeast {L : ℤ | 0 ≤ L ∧ ∀ d < dim, Spec.SameCell L.toNat (Spec.bias t (a d)) (Spec.bias t (b d))}
      (mortonDistanceInt t dim a b) := by
  refine ⟨(distLoop_le t a b dim _).1 (le_refl _), fun k hk => (distLoop_le t a b dim k).2 hk⟩

/-- C12: symmetry, identity of indiscernibles, ultrametric inequality and compatibility with the order of
`mortonCmpInt` (stated with the negated comparison, i.e. `a ≤ b ≤ c` in Morton order). -/
theorem C12_ultrametric (t : ITy) (dim : ℕ) (h0 : 0 < dim) (a b c : ℕ → BitVec t.w) :
    mortonDistanceInt t dim a b = mortonDistanceInt t dim b a ∧
    (mortonDistanceInt t dim a b = 0 ↔ Spec.SameVec dim a b) ∧
    mortonDistanceInt t dim a c ≤ max (mortonDistanceInt t dim a b) (mortonDistanceInt t dim b c) ∧
    (Spec.mcode t dim a ≤ Spec.mcode t dim b → Spec.mcode t dim b ≤ Spec.mcode t dim c →
      mortonDistanceInt t dim a b ≤ mortonDistanceInt t dim a c ∧
      mortonDistanceInt t dim b c ≤ mortonDistanceInt t dim a c) := by
  unfold mortonDistanceInt
  have key := fun x y => (distLoop_le t x y dim _).1 (le_refl (distLoop t x y dim))
  refine ⟨?_, ?_, ?_, ?_⟩
  · apply le_antisymm
    · rw [distLoop_le]; exact ⟨(key b a).1, fun d hd => ((key b a).2 d hd).symm⟩
    · rw [distLoop_le]; exact ⟨(key a b).1, fun d hd => ((key a b).2 d hd).symm⟩
  · have e : distLoop t a b dim = 0 ↔ distLoop t a b dim ≤ 0 := by
      have := distLoop_nonneg t a b dim; omega
    rw [e, distLoop_le]
    constructor
    · rintro ⟨-, h⟩ d hd
      have := h d hd
      simp only [Spec.SameCell, Int.toNat_zero, pow_zero, Nat.div_one] at this
      exact (bias_inj t _ _).1 this
    · intro h
      exact ⟨le_refl _, fun d hd => by rw [h d hd]; rfl⟩
  · rw [distLoop_le]
    refine ⟨le_trans (key a b).1 (le_max_left _ _), fun d hd => ?_⟩
    have h1 := sameCell_mono (Int.toNat_le_toNat (le_max_left (distLoop t a b dim) (distLoop t b c dim))) ((key a b).2 d hd)
    have h2 := sameCell_mono (Int.toNat_le_toNat (le_max_right (distLoop t a b dim) (distLoop t b c dim))) ((key b c).2 d hd)
    exact h1.trans h2
  · intro hab hbc
    have hac := (code_sameCell (w := t.w) (fun d _ => bias_lt t (a d)) (fun d _ => bias_lt t (c d)) _).2 (key a c).2
    set K := (distLoop t a c dim).toNat * dim
    have h1 : Spec.mcode t dim a / 2 ^ K ≤ Spec.mcode t dim b / 2 ^ K := Nat.div_le_div_right hab
    have h2 : Spec.mcode t dim b / 2 ^ K ≤ Spec.mcode t dim c / 2 ^ K := Nat.div_le_div_right hbc
    have h3 : Spec.mcode t dim a / 2 ^ K = Spec.mcode t dim c / 2 ^ K := hac
    constructor
    · rw [distLoop_le]
      refine ⟨(key a c).1, ?_⟩
      apply (code_sameCell (w := t.w) (fun d _ => bias_lt t (a d)) (fun d _ => bias_lt t (b d)) _).1
      show Spec.mcode t dim a / 2 ^ K = Spec.mcode t dim b / 2 ^ K
      omega
    · rw [distLoop_le]
      refine ⟨(key a c).1, ?_⟩
      apply (code_sameCell (w := t.w) (fun d _ => bias_lt t (b d)) (fun d _ => bias_lt t (c d)) _).1
      show Spec.mcode t dim b / 2 ^ K = Spec.mcode t dim c / 2 ^ K
      omega

/-- C12, order compatibility in terms of the comparison function of the code. -/
theorem C12_order (t : ITy) (dim : ℕ) (h0 : 0 < dim) (h1 : dim ≤ 2 ^ t.w) (a b c : ℕ → BitVec t.w)
    (hab : mortonCmpInt t dim b a = false) (hbc : mortonCmpInt t dim c b = false) :
    mortonDistanceInt t dim a b ≤ mortonDistanceInt t dim a c ∧
    mortonDistanceInt t dim b c ≤ mortonDistanceInt t dim a c := by
  rw [Bool.eq_false_iff, ne_eq, mortonCmpInt_iff t dim _ _ h0 h1] at hab hbc
  exact (C12_ultrametric t dim h0 a b c).2.2.2 (by omega) (by omega)

example : mortonDistanceInt .i32 2 (fun d => if d = 0 then 1#32 else 9#32) (fun d => if d = 0 then 7#32 else 30#32) = 5 := by
  decide +kernel

end Verif.Morton
