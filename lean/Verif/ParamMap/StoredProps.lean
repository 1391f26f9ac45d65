import Verif.ParamMap.StoredModel
import Verif.ParamMap.Props
import Verif.Text.Props
import Mathlib.Tactic.NormNum
import Mathlib.Tactic.Linarith
import Mathlib.Tactic.Positivity
import Mathlib.Tactic.FieldSimp
import Mathlib.Algebra.Order.Round

/-! Property theorems C177 (see properties.jsonl): a stored default is read back. -/
namespace Verif.ParamMap
open Verif

/-- The first `getParam` of a missing parameter with the default `x` gives `x`, and so does every later one, whatever its default is. -/
def Returns {Value : Type} (parse : Str → Option Value) (print : Value → Str) (x : Value) : Prop :=
  ∀ t k v, find t k = none → ∃ t', getParam parse print t k v x = (t', x, false) ∧ ∀ v' d, getParam parse print t' k v' d = (t', x, true)

/-- The function chooses a nearest integer. -/
def Near (near : ℚ → ℤ) : Prop := ∀ y, |y - near y| ≤ 1 / 2

/-- The number written for `x`. -/
def written (near : ℚ → ℤ) (x : ℚ) : ℚ := ((six near x).1 : ℚ) * (10 : ℚ) ^ (six near x).2

/-- C177, full statement. -/
def C177_statement : Prop :=
  (∀ s : Str, Returns some id s) ∧ (∀ i : ℤ, -2147483648 ≤ i → i ≤ 2147483647 → Returns lexInt Text.intStr i) ∧
    ∀ near rd, Near near → (∀ x, rd (rd x) = rd x) → ∀ x, rd x = x → Returns (parseNum rd) (printNum near) x

theorem second {Value : Type} {parse : Str → Option Value} {print : Value → Str} {t : Table} {k : Str} {x y : Value} (h : parse (print x) = some y) (v' d : Value) :
    getParam parse print (setParam print t k x) k v' d = (setParam print t k x, y, true) := by
  simp [getParam, setParam, find_assign, h]

theorem returns_of {Value : Type} {parse : Str → Option Value} {print : Value → Str} {x : Value} (h : parse (print x) = some x) : Returns parse print x := by
  intro t k v hf
  exact ⟨setParam print t k x, by simp [getParam, hf], fun v' d => second h v' d⟩

theorem returns_iff {Value : Type} {parse : Str → Option Value} {print : Value → Str} {x y : Value} (h : parse (print x) = some y) : Returns parse print x ↔ y = x := by
  constructor
  · intro hr
    obtain ⟨t', h1, h2⟩ := hr [] [] x rfl
    have e : t' = setParam print [] [] x := by
      have : getParam parse print [] [] x x = (setParam print [] [] x, x, false) := rfl
      rw [this] at h1
      exact (Prod.mk.inj h1).1.symm
    have h3 := h2 x x
    rw [e, second h x x] at h3
    exact (Prod.mk.inj (Prod.mk.inj h3).2).1
  · rintro rfl
    exact returns_of h

/-- **C177** for strings. -/
theorem C177_string (s : Str) : Returns some id s := returns_of rfl

theorem isDigit_of {c : Char} (h : Text.IsDigit c) : c.isDigit = true := by
  obtain ⟨h1, h2⟩ := h
  unfold Char.isDigit
  simp only [Bool.and_eq_true, decide_eq_true_eq]
  constructor
  · show 48 ≤ c.val.toNat
    exact h1
  · show c.val.toNat ≤ 57
    exact h2

theorem readNat_natStr (n : ℕ) : readNat (Text.natStr n) = some n := by
  obtain ⟨h1, h2, h3⟩ := Text.natStr_spec n
  unfold readNat
  rw [if_pos ⟨h3, List.all_eq_true.2 fun c hc => isDigit_of (h2 c hc)⟩]
  exact congrArg some h1

theorem readInt_natStr (n : ℕ) : readInt (Text.natStr n) = some (n : ℤ) := by
  obtain ⟨-, h2, h3⟩ := Text.natStr_spec n
  have e : readInt (Text.natStr n) = (readNat (Text.natStr n)).map fun n => (n : ℤ) := by
    generalize hs : Text.natStr n = s at h2 h3 ⊢
    unfold readInt
    split
    · exact absurd (h2 '-' (by simp)) (by unfold Text.IsDigit; decide)
    · exact absurd (h2 '+' (by simp)) (by unfold Text.IsDigit; decide)
    · rfl
  rw [e, readNat_natStr]
  rfl

theorem readInt_intStr (i : ℤ) : readInt (Text.intStr i) = some i := by
  unfold Text.intStr
  by_cases h : i < 0
  · rw [if_pos h]
    show ((readNat (Text.natStr i.natAbs)).map fun n => -(n : ℤ)) = _
    rw [readNat_natStr]
    show some (-((i.natAbs : ℕ) : ℤ)) = some i
    congr 1
    omega
  · rw [if_neg h, readInt_natStr]
    congr 1
    omega

/-- **C177** for `int`. -/
theorem C177_int (i : ℤ) (h1 : -2147483648 ≤ i) (h2 : i ≤ 2147483647) : Returns lexInt Text.intStr i := by
  refine returns_of ?_
  unfold lexInt
  rw [readInt_intStr]
  show (if _ then _ else _) = _
  rw [if_pos ⟨h1, h2⟩]

theorem takeWhile_e {a b : Str} (h : 'e' ∉ a) : (a ++ 'e' :: b).takeWhile (fun c => c != 'e') = a ∧ (a ++ 'e' :: b).dropWhile (fun c => c != 'e') = 'e' :: b := by
  induction a with
  | nil => exact ⟨rfl, rfl⟩
  | cons c a ih =>
    rw [List.mem_cons, not_or] at h
    have hc : (c != 'e') = true := by simpa [bne_iff_ne] using Ne.symm h.1
    obtain ⟨h1, h2⟩ := ih h.2
    simp only [List.cons_append, List.takeWhile_cons, List.dropWhile_cons, hc, if_true]
    exact ⟨by rw [h1], h2⟩

theorem parse_print (near : ℚ → ℤ) (rd : ℚ → ℚ) (x : ℚ) : parseNum rd (printNum near x) = some (rd (written near x)) := by
  have he : 'e' ∉ Text.intStr (six near x).1 := Text.notMem_intStr (by unfold Text.IsDigit; decide) (by decide)
  unfold parseNum printNum
  rw [(takeWhile_e he).1, (takeWhile_e he).2, readInt_intStr]
  show ((readInt (Text.intStr (six near x).2)).bind fun q => some (rd (((six near x).1 : ℚ) * (10 : ℚ) ^ q))) = _
  rw [readInt_intStr]
  rfl

/-- C177 for floating point numbers, exactly: a default is read back if and only if the six digits determine it. -/
theorem C177_iff (near : ℚ → ℤ) (rd : ℚ → ℚ) (x : ℚ) : Returns (parseNum rd) (printNum near) x ↔ rd (written near x) = x :=
  returns_iff (parse_print near rd x)

/-- The scale of the last of the six digits. -/
theorem scale {x : ℚ} (hx : 0 < x) : 100000 * (10 : ℚ) ^ (Int.log 10 x - 5) ≤ x ∧ x < 1000000 * (10 : ℚ) ^ (Int.log 10 x - 5) := by
  have h1 := Int.zpow_log_le_self (b := 10) (r := x) (by norm_num) hx
  have h2 := Int.lt_zpow_succ_log_self (b := 10) (by norm_num) x
  have e1 : ((10 : ℕ) : ℚ) ^ Int.log 10 x = 100000 * (10 : ℚ) ^ (Int.log 10 x - 5) := by
    rw [zpow_sub₀ (by norm_num)]; push_cast; norm_num; ring
  have e2 : ((10 : ℕ) : ℚ) ^ (Int.log 10 x + 1) = 1000000 * (10 : ℚ) ^ (Int.log 10 x - 5) := by
    rw [zpow_sub₀ (by norm_num), zpow_add₀ (by norm_num)]; push_cast; norm_num; ring
  rw [e1] at h1
  rw [e2] at h2
  exact ⟨h1, h2⟩

theorem written_pos (near : ℚ → ℤ) {x : ℚ} (hx : 0 < x) : written near x = (near (x / (10 : ℚ) ^ (Int.log 10 x - 5)) : ℚ) * (10 : ℚ) ^ (Int.log 10 x - 5) := by
  unfold written six
  rw [if_neg hx.ne', if_neg (not_lt.2 hx.le)]
  rfl

theorem written_neg (near : ℚ → ℤ) {x : ℚ} (hx : x < 0) : written near x = -written near (-x) := by
  rw [written_pos near (by linarith : 0 < -x)]
  unfold written six
  rw [if_neg hx.ne, if_pos hx]
  unfold sixPos
  push_cast
  ring

theorem written_zero (near : ℚ → ℤ) : written near 0 = 0 := by simp [written, six]

theorem written_error_pos {near : ℚ → ℤ} (hn : Near near) {x : ℚ} (hx : 0 < x) : |written near x - x| ≤ x / 200000 := by
  obtain ⟨h1, -⟩ := scale hx
  rw [written_pos near hx]
  set T : ℚ := (10 : ℚ) ^ (Int.log 10 x - 5)
  have hT : 0 < T := zpow_pos (by norm_num) _
  have h2 := hn (x / T)
  have e : (near (x / T) : ℚ) * T - x = -(x / T - near (x / T)) * T := by field_simp; ring
  rw [e, abs_mul, abs_neg, abs_of_pos hT]
  nlinarith

/-- **C177** (partial): the later calls give the number nearest to one that differs from the default by at most 1/200000 of it. Missing: that it is the default, see `C177_iff`, `C177_violated`. -/
theorem C177_error_partial {near : ℚ → ℤ} (hn : Near near) (rd : ℚ → ℚ) (x : ℚ) (t : Table) (k : Str) (v : ℚ) (hf : find t k = none) :
    ∃ t' d, getParam (parseNum rd) (printNum near) t k v x = (t', x, false) ∧ |d - x| ≤ |x| / 200000 ∧ ∀ v' e, getParam (parseNum rd) (printNum near) t' k v' e = (t', rd d, true) := by
  refine ⟨setParam (printNum near) t k x, written near x, by simp [getParam, hf], ?_, fun v' e => second (parse_print near rd x) v' e⟩
  rcases lt_trichotomy x 0 with h | rfl | h
  · have := written_error_pos hn (by linarith : 0 < -x)
    rw [written_neg near h, abs_of_neg h, show -written near (-x) - x = -(written near (-x) - -x) by ring, abs_neg]
    exact this
  · rw [written_zero]; simp
  · rw [abs_of_pos h]; exact written_error_pos hn h

theorem written_decimal_pos {near : ℚ → ℤ} (hn : Near near) {m : ℕ} {e : ℤ} (hm0 : 0 < m) (hm : m < 1000000) {x : ℚ} (hx : |x - (m : ℚ) * (10 : ℚ) ^ e| ≤ (m : ℚ) * (10 : ℚ) ^ e / 2 ^ 24) :
    written near x = (m : ℚ) * (10 : ℚ) ^ e := by
  have hm0' : (0 : ℚ) < m := by exact_mod_cast hm0
  have hm' : (m : ℚ) ≤ 999999 := by exact_mod_cast Nat.lt_succ_iff.1 hm
  have hE : (0 : ℚ) < (10 : ℚ) ^ e := zpow_pos (by norm_num) _
  have hd : 0 < (m : ℚ) * (10 : ℚ) ^ e := mul_pos hm0' hE
  obtain ⟨hx1, hx2⟩ := abs_le.1 hx
  have hxp : 0 < x := by
    have : (m : ℚ) * (10 : ℚ) ^ e / 2 ^ 24 < (m : ℚ) * (10 : ℚ) ^ e := div_lt_self hd (by norm_num)
    linarith
  obtain ⟨s1, s2⟩ := scale hxp
  rw [written_pos near hxp]
  generalize Int.log 10 x - 5 = q at s1 s2 ⊢
  have hT : (0 : ℚ) < (10 : ℚ) ^ q := zpow_pos (by norm_num) _
  have hq : q ≤ e := by
    by_contra hlt
    have h1 : (10 : ℚ) ^ e ≤ (10 : ℚ) ^ (q - 1) := zpow_le_zpow_right₀ (by norm_num) (by omega)
    have h2 : (10 : ℚ) ^ (q - 1) = (10 : ℚ) ^ q / 10 := by rw [zpow_sub₀ (by norm_num)]; norm_num
    rw [h2] at h1
    have h3 : (m : ℚ) * (10 : ℚ) ^ e ≤ 999999 * ((10 : ℚ) ^ q / 10) := by
      calc (m : ℚ) * (10 : ℚ) ^ e ≤ 999999 * (10 : ℚ) ^ e := by nlinarith
        _ ≤ _ := by nlinarith
    have h4 : (m : ℚ) * (10 : ℚ) ^ e / 2 ^ 24 ≤ 999999 * ((10 : ℚ) ^ q / 10) / 2 ^ 24 := by
      exact div_le_div_of_nonneg_right h3 (by norm_num)
    norm_num at h4 h3 s1 hx2
    linarith
  obtain ⟨n, rfl⟩ : ∃ n : ℕ, e = q + n := ⟨(e - q).toNat, by omega⟩
  have e1 : (m : ℚ) * (10 : ℚ) ^ (q + (n : ℤ)) = ((m * 10 ^ n : ℕ) : ℚ) * (10 : ℚ) ^ q := by
    rw [zpow_add₀ (by norm_num), zpow_natCast]; push_cast; ring
  rw [e1] at hx1 hx2 hd ⊢
  generalize m * 10 ^ n = M at hx1 hx2 hd ⊢
  set T : ℚ := (10 : ℚ) ^ q
  have h5 := abs_le.1 (hn (x / T))
  have hMT : (M : ℚ) * T < 1100000 * T := by
    have : (M : ℚ) * T / 2 ^ 24 ≤ (M : ℚ) * T / 16 := div_le_div_of_nonneg_left hd.le (by norm_num) (by norm_num)
    linarith
  have h6 : (M : ℚ) < 1100000 := lt_of_mul_lt_mul_right hMT hT.le
  have h7 : |x / T - M| ≤ 1 / 10 := by
    have : x / T - M = (x - M * T) / T := by field_simp
    rw [this, abs_div, abs_of_pos hT, div_le_iff₀ hT, abs_le]
    have h8 : (M : ℚ) * T / 2 ^ 24 ≤ 1 / 10 * T := by
      rw [div_le_iff₀ (by norm_num)]
      nlinarith
    constructor <;> linarith
  obtain ⟨h9, h10⟩ := abs_le.1 h7
  have h11 : (near (x / T) : ℚ) < (M : ℚ) + 1 := by linarith [h5.1]
  have h12 : (M : ℚ) - 1 < (near (x / T) : ℚ) := by linarith [h5.2]
  have h13 : near (x / T) < (M : ℤ) + 1 := by exact_mod_cast h11
  have h14 : (M : ℤ) - 1 < near (x / T) := by exact_mod_cast h12
  have h15 : near (x / T) = (M : ℤ) := by omega
  rw [h15]
  push_cast
  rfl

/-- **C177** (partial): a default that is the floating point number of a decimal number of at most six digits (the rounding being exact to 2^-24, as for `float` and `double`) is read back. -/
theorem C177_decimal_partial {near : ℚ → ℤ} (hn : Near near) (rd : ℚ → ℚ) (m : ℤ) (e : ℤ) (hm : |m| < 1000000)
    (hr : |rd ((m : ℚ) * (10 : ℚ) ^ e) - (m : ℚ) * (10 : ℚ) ^ e| ≤ |(m : ℚ) * (10 : ℚ) ^ e| / 2 ^ 24) :
    Returns (parseNum rd) (printNum near) (rd ((m : ℚ) * (10 : ℚ) ^ e)) := by
  rw [C177_iff]
  congr 1
  have hE : (0 : ℚ) < (10 : ℚ) ^ e := zpow_pos (by norm_num) _
  rcases lt_trichotomy m 0 with h | rfl | h
  · obtain ⟨n, rfl⟩ : ∃ n : ℕ, m = -(n : ℤ) := ⟨m.natAbs, by omega⟩
    have hn0 : 0 < n := by omega
    have hn1 : n < 1000000 := by rw [abs_neg, abs_of_nonneg (by omega)] at hm; omega
    have hn2 : (0 : ℚ) < n := by exact_mod_cast hn0
    generalize rd _ = x at hr ⊢
    push_cast at hr ⊢
    rw [neg_mul, abs_neg, abs_of_pos (mul_pos hn2 hE)] at hr
    have hr' : |-x - (n : ℚ) * (10 : ℚ) ^ e| ≤ (n : ℚ) * (10 : ℚ) ^ e / 2 ^ 24 := by
      rw [show -x - (n : ℚ) * (10 : ℚ) ^ e = -(x - -((n : ℚ) * (10 : ℚ) ^ e)) by ring, abs_neg]; exact hr
    have hx : x < 0 := by
      have := (abs_le.1 hr').1
      have h2 : (n : ℚ) * (10 : ℚ) ^ e / 2 ^ 24 < (n : ℚ) * (10 : ℚ) ^ e := div_lt_self (mul_pos hn2 hE) (by norm_num)
      linarith
    rw [written_neg near hx, written_decimal_pos hn hn0 hn1 hr']
    ring
  · simp only [Int.cast_zero, zero_mul, sub_zero, abs_zero, zero_div] at hr ⊢
    rw [abs_nonpos_iff.1 hr, written_zero]
  · obtain ⟨n, rfl⟩ : ∃ n : ℕ, m = (n : ℤ) := ⟨m.toNat, by omega⟩
    have hn0 : 0 < n := by omega
    have hn1 : n < 1000000 := by rw [abs_of_nonneg (by omega)] at hm; omega
    have hn2 : (0 : ℚ) < n := by exact_mod_cast hn0
    push_cast at hr ⊢
    rw [abs_of_pos (mul_pos hn2 hE)] at hr
    exact written_decimal_pos hn hn0 hn1 hr

/-- C177: of all the numbers that are written as the same text at most one is read back. -/
theorem C177_one_per_text (near : ℚ → ℤ) (rd : ℚ → ℚ) {x y : ℚ} (h : written near x = written near y) (hx : Returns (parseNum rd) (printNum near) x) (hy : Returns (parseNum rd) (printNum near) y) : x = y := by
  rw [C177_iff] at hx hy
  rw [← hx, ← hy, h]

theorem written_near_one {near : ℚ → ℤ} (hn : Near near) {x : ℚ} (h1 : 1 ≤ x) (h2 : x < 1 + 1 / 250000) : written near x = 1 := by
  have hl : Int.log 10 x = 0 := by
    have : Nat.floor x = 1 := by
      rw [Nat.floor_eq_iff (by linarith)]
      constructor <;> norm_num <;> linarith
    rw [Int.log_of_one_le_right 10 h1, this]
    simp
  rw [written_pos near (by linarith), hl]
  have hT : (10 : ℚ) ^ ((0 : ℤ) - 5) = 1 / 100000 := by norm_num [zpow_neg]
  rw [hT]
  have h5 := abs_le.1 (hn (x / (1 / 100000)))
  have e : x / (1 / 100000) = x * 100000 := by ring
  rw [e] at h5 ⊢
  have h11 : (near (x * 100000) : ℚ) < (100000 : ℚ) + 1 := by linarith [h5.1]
  have h12 : (100000 : ℚ) - 1 < (near (x * 100000) : ℚ) := by linarith [h5.2]
  have h13 : near (x * 100000) < (100000 : ℤ) + 1 := by exact_mod_cast h11
  have h14 : (100000 : ℤ) - 1 < near (x * 100000) := by exact_mod_cast h12
  have h15 : near (x * 100000) = 100000 := by omega
  rw [h15]
  norm_num

/-- C177 is false for every number greater than 1 and less than 1.000004, in every floating point format that has the number 1: it is read back as 1. -/
theorem C177_interval_violated {near : ℚ → ℤ} (hn : Near near) {rd : ℚ → ℚ} (h0 : rd 1 = 1) {x : ℚ} (h1 : 1 < x) (h2 : x < 1 + 1 / 250000) : ¬ Returns (parseNum rd) (printNum near) x := by
  rw [C177_iff, written_near_one hn h1.le h2, h0]
  exact h1.ne

theorem near_round : Near fun y => round y := fun y => abs_sub_round y

/-- The rounding of `double` between 1 and 2: to multiples of 2^-52. -/
def rdUnit (x : ℚ) : ℚ := (round (x * 2 ^ 52) : ℚ) / 2 ^ 52

/-- The statement of C177 is false: the `double` 1 + 2^-52 is read back as 1. -/
theorem C177_violated : ¬ C177_statement := by
  intro h
  have hi : ∀ k : ℤ, rdUnit ((k : ℚ) / 2 ^ 52) = (k : ℚ) / 2 ^ 52 := fun k => by
    unfold rdUnit
    rw [div_mul_cancel₀ _ (by norm_num), round_intCast]
  have hx : rdUnit (1 + 1 / 2 ^ 52) = 1 + 1 / 2 ^ 52 := by
    have := hi (2 ^ 52 + 1)
    norm_num at this ⊢
    exact this
  have h1 : rdUnit 1 = 1 := by
    have := hi (2 ^ 52)
    norm_num at this ⊢
    exact this
  exact C177_interval_violated near_round h1 (by norm_num) (by norm_num) (h.2.2 (fun y => round y) rdUnit near_round (fun x => hi _) (1 + 1 / 2 ^ 52) hx)

-- the parameter `k` with the default -12; 0.125 and 1/3 as they are written
example : (getParam lexInt Text.intStr [] ['k'] 0 (-12)).1 = [(['k'], ['-', '1', '2'])] ∧ lexInt ['-', '1', '2'] = some (-12) ∧ lexInt ['+', '7'] = some 7 ∧ lexInt ['2', '1', '4', '7', '4', '8', '3', '6', '4', '8'] = none ∧
    lexInt ['1', '.', '5'] = none ∧ lexInt [] = none := by decide +kernel
example : Returns (parseNum rdUnit) (printNum fun y => round y) (rdUnit ((125 : ℤ) * (10 : ℚ) ^ (-3 : ℤ))) :=
  C177_decimal_partial near_round rdUnit 125 (-3) (by norm_num) (by
    have : rdUnit ((125 : ℤ) * (10 : ℚ) ^ (-3 : ℤ)) = 1 / 8 := by
      have e : ((125 : ℤ) : ℚ) * (10 : ℚ) ^ (-3 : ℤ) = 1 / 8 := by norm_num [zpow_neg]
      rw [e]
      unfold rdUnit
      rw [show (1 / 8 : ℚ) * 2 ^ 52 = ((2 ^ 49 : ℤ) : ℚ) by norm_num, round_intCast]
      norm_num
    rw [this]
    norm_num [zpow_neg])

end Verif.ParamMap
