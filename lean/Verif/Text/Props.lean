import Verif.Text.Model
import Mathlib.Data.List.Basic
import Mathlib.Data.List.Induction
import Mathlib.Data.Nat.Log
import Mathlib.Tactic.Ring
import Mathlib.Tactic.Linarith

/-!
C94: the text of the indices, intervals and label sets determines them. C95: the text of a heap shows its levels.
-/
namespace Verif.Text
open Verif

/-- The value of a sequence of decimal digits. -/
def decimal (s : Str) : Nat := s.foldl (fun v c => 10 * v + (c.toNat - 48)) 0

/-- A decimal digit. -/
def IsDigit (c : Char) : Prop := 48 ≤ c.toNat ∧ c.toNat ≤ 57

theorem ofNat_toNat {n : Nat} (h : n < 10) : (Char.ofNat (48 + n)).toNat = 48 + n := by
  have : ∀ n : Fin 10, (Char.ofNat (48 + n)).toNat = 48 + n := by decide
  exact this ⟨n, h⟩

theorem digits_spec : ∀ (fuel n : Nat), n < fuel → decimal (digits fuel n) = n ∧ (∀ c ∈ digits fuel n, IsDigit c) ∧ digits fuel n ≠ [] := by
  intro fuel
  induction fuel with
  | zero => intro n h; omega
  | succ fuel ih =>
    intro n h
    unfold digits
    split
    · rename_i hn
      refine ⟨?_, ?_, by simp⟩
      · simp only [decimal, List.foldl_cons, List.foldl_nil, ofNat_toNat hn]
        omega
      · intro c hc
        rw [List.mem_singleton] at hc
        rw [hc, IsDigit, ofNat_toNat hn]
        omega
    · rename_i hn
      have hm : n % 10 < 10 := Nat.mod_lt _ (by decide)
      obtain ⟨h1, h2, -⟩ := ih (n / 10) (by omega)
      refine ⟨?_, ?_, by simp⟩
      · unfold decimal at h1 ⊢
        rw [List.foldl_append, h1]
        simp only [List.foldl_cons, List.foldl_nil, ofNat_toNat hm]
        omega
      · intro c hc
        rcases List.mem_append.1 hc with hc | hc
        · exact h2 c hc
        · rw [List.mem_singleton] at hc
          rw [hc, IsDigit, ofNat_toNat hm]
          omega

theorem natStr_spec (n : Nat) : decimal (natStr n) = n ∧ (∀ c ∈ natStr n, IsDigit c) ∧ natStr n ≠ [] := digits_spec (n + 1) n (by omega)

/-- The characters of an integer: digits and the sign. -/
theorem intStr_mem {i : Int} {c : Char} (h : c ∈ intStr i) : IsDigit c ∨ c = '-' := by
  unfold intStr at h
  split at h
  · rcases List.mem_cons.1 h with h | h
    · exact .inr h
    · exact .inl ((natStr_spec _).2.1 c h)
  · exact .inl ((natStr_spec _).2.1 c h)

theorem intStr_ne_nil (i : Int) : intStr i ≠ [] := by
  unfold intStr
  split
  · simp
  · exact (natStr_spec _).2.2

theorem intStr_inj {i j : Int} (h : intStr i = intStr j) : i = j := by
  have hd : ∀ n : Nat, ∀ s : Str, natStr n ≠ '-' :: s := by
    intro n s e
    have := (natStr_spec n).2.1 '-' (by rw [e]; simp)
    exact absurd this (by unfold IsDigit; decide)
  have hn : ∀ m n : Nat, natStr m = natStr n → m = n := fun m n e => by
    have := congrArg decimal e
    rwa [(natStr_spec m).1, (natStr_spec n).1] at this
  unfold intStr at h
  split at h <;> split at h
  · have := hn _ _ (List.cons.inj h).2
    omega
  · exact absurd h.symm (hd _ _)
  · exact absurd h (hd _ _)
  · have := hn _ _ h
    omega

/-- The text up to a separator is determined. -/
theorem split_inj {a b s t : Str} {c : Char} (ha : c ∉ a) (hb : c ∉ b) (h : a ++ c :: s = b ++ c :: t) : a = b ∧ s = t := by
  induction a generalizing b with
  | nil =>
    cases b with
    | nil => exact ⟨rfl, (List.cons.inj h).2⟩
    | cons y b =>
      have := (List.cons.inj h).1
      exact absurd (by rw [this]; simp) hb
  | cons x a ih =>
    cases b with
    | nil =>
      have := (List.cons.inj h).1
      exact absurd (by rw [← this]; simp) ha
    | cons y b =>
      obtain ⟨h1, h2⟩ := List.cons.inj h
      obtain ⟨h3, h4⟩ := ih (fun hc => ha (List.mem_cons_of_mem _ hc)) (fun hc => hb (List.mem_cons_of_mem _ hc)) h2
      exact ⟨by rw [h1, h3], h4⟩

theorem notMem_intStr {i : Int} {c : Char} (h : ¬ IsDigit c) (h' : c ≠ '-') : c ∉ intStr i := fun hc => (intStr_mem hc).elim h h'

/-- Items with a separator whose first character `c` is not in the items, and the closing character. -/
def joined (c : Char) (sep : Str) (e : Char) : List Str → Str
  | [] => [e]
  | [a] => a ++ [e]
  | a :: b :: l => a ++ c :: (sep ++ joined c sep e (b :: l))

theorem joined_inj {c e : Char} {sep : Str} : ∀ {l m : List Str}, (∀ a ∈ l, c ∉ a ∧ e ∉ a ∧ a ≠ []) → (∀ a ∈ m, c ∉ a ∧ e ∉ a ∧ a ≠ []) → c ≠ e →
    joined c sep e l = joined c sep e m → l = m := by
  intro l
  induction l with
  | nil =>
    intro m hl hm hce h
    match m with
    | [] => rfl
    | [a] =>
      obtain ⟨x, a', rfl⟩ := List.exists_cons_of_ne_nil (hm a (by simp)).2.2
      simp [joined] at h
    | a :: b :: m =>
      obtain ⟨x, a', rfl⟩ := List.exists_cons_of_ne_nil (hm a (by simp)).2.2
      simp [joined] at h
  | cons a l ih =>
    intro m hl hm hce h
    have ha := hl a (by simp)
    match m with
    | [] =>
      obtain ⟨x, a', rfl⟩ := List.exists_cons_of_ne_nil ha.2.2
      cases l <;> simp [joined] at h
    | [b] =>
      have hb := hm b (by simp)
      cases l with
      | nil =>
        have := (split_inj ha.2.1 hb.2.1 h).1
        rw [this]
      | cons x l =>
        have : c ∈ b ++ [e] := by
          rw [show b ++ [e] = joined c sep e [b] from rfl, ← h]
          simp [joined]
        simp at this
        exact absurd this (by simp [hb.1, hce])
    | b :: y :: m =>
      have hb := hm b (by simp)
      cases l with
      | nil =>
        have : c ∈ a ++ [e] := by
          rw [show a ++ [e] = joined c sep e [a] from rfl, h]
          simp [joined]
        simp at this
        exact absurd this (by simp [ha.1, hce])
      | cons x l =>
        obtain ⟨h1, h2⟩ := split_inj ha.1 hb.1 h
        have h3 := List.append_cancel_left h2
        rw [h1, ih (fun z hz => hl z (List.mem_cons_of_mem _ hz)) (fun z hz => hm z (List.mem_cons_of_mem _ hz)) hce h3]

theorem outIdxLoop_eq (len : Nat) : ∀ (d : Nat) (l : List Int), d + l.length = len → outIdxLoop len d l ++ [']'] = joined ',' [] ']' (l.map intStr)
  | _, [], _ => rfl
  | d, [x], h => by
    simp only [List.length_singleton] at h
    simp only [outIdxLoop, if_neg (by omega : ¬ d < len - 1), List.map, joined, List.append_nil, List.nil_append]
  | d, x :: y :: l, h => by
    simp only [List.length_cons] at h
    have := outIdxLoop_eq len (d + 1) (y :: l) (by simp only [List.length_cons]; omega)
    rw [outIdxLoop, if_pos (by omega)]
    change _ = intStr x ++ ',' :: ([] ++ joined ',' [] ']' ((y :: l).map intStr))
    rw [← this]
    simp

/-- C94: the text of an array of indices determines it. -/
theorem C94_outIdx (a b : List Int) (h : outIdx a = outIdx b) : a = b := by
  unfold outIdx at h
  rw [outIdxLoop_eq _ 0 a (by omega), outIdxLoop_eq _ 0 b (by omega)] at h
  have ok : ∀ l : List Int, ∀ s ∈ l.map intStr, ',' ∉ s ∧ ']' ∉ s ∧ s ≠ [] := by
    intro l s hs
    obtain ⟨i, -, rfl⟩ := List.mem_map.1 hs
    exact ⟨notMem_intStr (by unfold IsDigit; decide) (by decide), notMem_intStr (by unfold IsDigit; decide) (by decide), intStr_ne_nil i⟩
  have := joined_inj (ok a) (ok b) (by decide) (List.cons.inj h).2
  exact List.map_injective_iff.2 (fun i j => intStr_inj) this

/-- The text of a coordinate of an interval. -/
def rangeStr (p : Int × Int) : Str := intStr p.1 ++ ':' :: intStr p.2

theorem rangeStr_inj {p q : Int × Int} (h : rangeStr p = rangeStr q) : p = q := by
  obtain ⟨h1, h2⟩ := split_inj (notMem_intStr (by unfold IsDigit; decide) (by decide)) (notMem_intStr (by unfold IsDigit; decide) (by decide)) h
  exact Prod.ext (intStr_inj h1) (intStr_inj h2)

theorem intervalLoop_eq (len : Nat) : ∀ (d : Nat) (l : List (Int × Int)), d + l.length = len → intervalLoop len d l ++ [']'] = joined ',' [] ']' (l.map rangeStr)
  | _, [], _ => rfl
  | d, [(x, x')], h => by
    simp only [List.length_singleton] at h
    simp [intervalLoop, if_neg (by omega : ¬ d < len - 1), joined, rangeStr]
  | d, (x, x') :: y :: l, h => by
    simp only [List.length_cons] at h
    have := intervalLoop_eq len (d + 1) (y :: l) (by simp only [List.length_cons]; omega)
    rw [intervalLoop, if_pos (by omega)]
    change _ = rangeStr (x, x') ++ ',' :: ([] ++ joined ',' [] ']' ((y :: l).map rangeStr))
    rw [← this]
    simp [rangeStr]

theorem max_spec : ∀ {iv : Interval.Interval} {ms : List Int}, Interval.max iv = .ok ms → ms = iv.map (fun a => a.min + a.dim - 1)
  | [], ms, h => by
    cases h
    rfl
  | a :: iv, ms, h => by
    unfold Interval.max at h
    cases h1 : Cxx.int (a.min + a.dim) with
    | error e => rw [h1] at h; cases h
    | ok t =>
      rw [h1] at h
      cases h2 : Cxx.int (t - 1) with
      | error e => simp only [bind, Except.bind, h2] at h; cases h
      | ok m =>
        cases h3 : Interval.max iv with
        | error e => simp only [bind, Except.bind, h2, h3] at h; cases h
        | ok ms' =>
          simp only [bind, Except.bind, h2, h3, pure, Except.pure] at h
          cases h
          have e1 : t = a.min + a.dim := by
            unfold Cxx.int at h1
            split at h1 <;> cases h1
            rfl
          have e2 : m = t - 1 := by
            unfold Cxx.int at h2
            split at h2 <;> cases h2
            rfl
          rw [max_spec h3, e2, e1]
          rfl

/-- The full statement for the intervals: the text exists and determines the interval. -/
def C94_statement : Prop := ∀ iv jv : Interval.Interval, (∀ a ∈ iv ++ jv, -2 ^ 31 ≤ a.min ∧ a.min < 2 ^ 31 ∧ 0 ≤ a.dim ∧ a.min + a.dim - 1 < 2 ^ 31) → iv.length = jv.length →
  ∃ s t, intervalPrint iv = .ok s ∧ intervalPrint jv = .ok t ∧ (s = t → iv = jv)

/-- C94, partial: the text of an interval, when it is defined, determines the interval; it is defined when the limits are at most the largest `int` but one (and above the smallest).
Missing: intervals at the ends of the range of `int`. -/
theorem C94_interval_partial (iv jv : Interval.Interval) : (∀ s, intervalPrint iv = .ok s → intervalPrint jv = .ok s → iv = jv) ∧
    ((∀ a ∈ iv, -2 ^ 31 < a.min + a.dim ∧ a.min + a.dim < 2 ^ 31) → ∃ s, intervalPrint iv = .ok s) := by
  constructor
  · intro s h1 h2
    unfold intervalPrint at h1 h2
    cases g1 : Interval.max iv with
    | error e => rw [g1] at h1; cases h1
    | ok ms =>
      cases g2 : Interval.max jv with
      | error e => rw [g2] at h2; cases h2
      | ok ns =>
        rw [g1] at h1
        rw [g2] at h2
        have e := (Except.ok.inj h1).trans (Except.ok.inj h2).symm
        have l1 := max_spec g1
        have l2 := max_spec g2
        have zip : ∀ iv : Interval.Interval, List.zip (iv.map Interval.Axis.min) (iv.map fun a => a.min + a.dim - 1) = iv.map fun a => (a.min, a.min + a.dim - 1) := by
          intro iv
          rw [List.zip_map']
        rw [l1, l2, zip, zip, intervalLoop_eq _ 0 _ (by simp), intervalLoop_eq _ 0 _ (by simp)] at e
        have ok : ∀ l : List (Int × Int), ∀ s ∈ l.map rangeStr, ',' ∉ s ∧ ']' ∉ s ∧ s ≠ [] := by
          intro l s hs
          obtain ⟨p, -, rfl⟩ := List.mem_map.1 hs
          unfold rangeStr
          refine ⟨?_, ?_, by simp⟩
          · simp only [List.mem_append, List.mem_cons, not_or]
            exact ⟨notMem_intStr (by unfold IsDigit; decide) (by decide), by decide, notMem_intStr (by unfold IsDigit; decide) (by decide)⟩
          · simp only [List.mem_append, List.mem_cons, not_or]
            exact ⟨notMem_intStr (by unfold IsDigit; decide) (by decide), by decide, notMem_intStr (by unfold IsDigit; decide) (by decide)⟩
        have h3 := joined_inj (ok _) (ok _) (by decide) (List.cons.inj e).2
        have h4 := List.map_injective_iff.2 (fun p q => rangeStr_inj) h3
        have inj : Function.Injective (fun a : Interval.Axis => (a.min, a.min + a.dim - 1)) := ?_
        · exact List.map_injective_iff.2 inj h4
        rintro ⟨a, b⟩ ⟨a', b'⟩ hab
        have p1 : a = a' := congrArg Prod.fst hab
        have p2 : a + b - 1 = a' + b' - 1 := congrArg Prod.snd hab
        rw [p1] at p2 ⊢
        congr
        omega
  · intro h
    have : ∃ ms, Interval.max iv = .ok ms := by
      induction iv with
      | nil => exact ⟨[], rfl⟩
      | cons a iv ih =>
        obtain ⟨ms, hms⟩ := ih fun b hb => h b (List.mem_cons_of_mem _ hb)
        have ha := h a (by simp)
        refine ⟨(a.min + a.dim - 1) :: ms, ?_⟩
        unfold Interval.max
        have i1 : Cxx.int (a.min + a.dim) = .ok (a.min + a.dim) := by
          unfold Cxx.int
          rw [if_pos (by omega)]
        have i2 : Cxx.int (a.min + a.dim - 1) = .ok (a.min + a.dim - 1) := by
          unfold Cxx.int
          rw [if_pos (by omega)]
        simp only [i1, i2, hms, bind, Except.bind, pure, Except.pure]
    obtain ⟨ms, hms⟩ := this
    unfold intervalPrint
    rw [hms]
    exact ⟨_, rfl⟩

/-- C94 fails at the end of the range: the interval of the largest `int` cannot be printed: the sum overflows. -/
theorem C94_interval_violated : intervalPrint [⟨2147483647, 1⟩] = .error (.ub .overflow) := by decide +kernel

theorem C94_violated : ¬ C94_statement := by
  intro h
  obtain ⟨s, t, h1, -⟩ := h [⟨2147483647, 1⟩] [⟨2147483647, 1⟩] (by decide) rfl
  rw [C94_interval_violated] at h1
  cases h1

theorem labelLoop_eq : ∀ l : List Int, labelLoop true l ++ ['}'] = joined ',' [' '] '}' (l.map intStr)
  | [] => rfl
  | [x] => by simp [labelLoop, joined]
  | x :: y :: l => by
    have h := labelLoop_eq (y :: l)
    have e : ∀ s : Str, labelLoop false (y :: l) ++ s = ',' :: ' ' :: (labelLoop true (y :: l) ++ s) := fun s => by simp [labelLoop]
    rw [labelLoop]
    change _ = intStr x ++ ',' :: ([' '] ++ joined ',' [' '] '}' ((y :: l).map intStr))
    rw [← h]
    simp [e]

/-- C94: the text of a set of labels determines it. -/
theorem C94_labels (a b : LabelSet.LabelSet) (h : labelPrint a = labelPrint b) : a = b := by
  unfold labelPrint at h
  rw [labelLoop_eq, labelLoop_eq] at h
  have ok : ∀ l : List Int, ∀ s ∈ l.map intStr, ',' ∉ s ∧ '}' ∉ s ∧ s ≠ [] := by
    intro l s hs
    obtain ⟨i, -, rfl⟩ := List.mem_map.1 hs
    exact ⟨notMem_intStr (by unfold IsDigit; decide) (by decide), notMem_intStr (by unfold IsDigit; decide) (by decide), intStr_ne_nil i⟩
  have h1 := joined_inj (ok _) (ok _) (by decide) (List.cons.inj h).2
  have h2 := List.map_injective_iff.2 (fun i j => intStr_inj) h1
  cases a
  cases b
  congr

example : outIdx [3, -12, 0] = "[3,-12,0]".toList ∧ labelPrint ⟨[-1, 20, 305]⟩ = "{-1, 20, 305}".toList ∧ intervalPrint [⟨2, 3⟩, ⟨-1, 0⟩] = .ok "[2:4,-1:-2]".toList := by
  decide +kernel

/-! ### C95 -/

theorem level_eq (i : Nat) : Heap.level i = Nat.log 2 (i + 1) := by
  induction i using Nat.strongRecOn with
  | ind i ih =>
    rw [Heap.level]
    split
    · rename_i h
      have hp : Heap.parent i = (i - 1) / 2 := by
        unfold Heap.parent
        rw [Nat.shiftRight_eq_div_pow]
      rw [hp, ih _ (by omega), Nat.log_of_one_lt_of_le (by omega : 1 < 2) (by omega : 2 ≤ i + 1)]
      congr 2
      omega
    · rename_i h
      have : i = 0 := by omega
      rw [this]
      simp

/-- The indices of level `l` of a complete binary tree. -/
def inLevel (l i : Nat) : Bool := 2 ^ l - 1 ≤ i && i < 2 ^ (l + 1) - 1

theorem inLevel_iff {l i : Nat} : inLevel l i = true ↔ l = Nat.log 2 (i + 1) := by
  have h1 : 0 < 2 ^ l := by positivity
  have h2 : 2 ^ (l + 1) = 2 * 2 ^ l := by ring
  have := Nat.log_eq_iff (b := 2) (m := l) (n := i + 1) (.inr ⟨by omega, by omega⟩)
  simp only [inLevel, Bool.and_eq_true, decide_eq_true_eq]
  rw [eq_comm, this]
  omega

/-- What the text of a heap should be: a line for each level of the tree with the elements of the level and their indices. -/
def heapText {α : Type} (sh : α → Str) (data : List α) : Str :=
  ((List.range (Nat.log 2 data.length + 1)).flatMap fun l =>
    "\nlevel ".toList ++ natStr l ++ ": ".toList ++ (data.zipIdx.filter fun p => inLevel l p.2).flatMap fun p => sh p.1 ++ " [".toList ++ natStr p.2 ++ "], ".toList) ++ ['\n']

theorem heapLoop_append {α : Type} (sh : α → Str) : ∀ (xs ys : List α) (i : Nat),
    heapLoop sh (Nat.log 2 i) i (xs ++ ys) = heapLoop sh (Nat.log 2 i) i xs ++ heapLoop sh (Nat.log 2 (i + xs.length)) (i + xs.length) ys
  | [], ys, i => by simp [heapLoop]
  | x :: xs, ys, i => by
    have ih := heapLoop_append sh xs ys (i + 1)
    have hm : Nat.log 2 i ≤ Nat.log 2 (i + 1) := Nat.log_mono_right (by omega)
    have hl : i + (x :: xs).length = i + 1 + xs.length := by simp only [List.length_cons]; omega
    rw [List.cons_append, heapLoop, heapLoop, level_eq, hl]
    split
    · rw [ih]
      simp
    · rw [show Nat.log 2 i = Nat.log 2 (i + 1) by omega, ih]
      simp

section
attribute [local irreducible] levelHead elemStr

/-- The line of level `l`. -/
def levelLine {α : Type} (sh : α → Str) (data : List α) (l : Nat) : Str :=
  levelHead l ++ (data.zipIdx.filter fun p => inLevel l p.2).flatMap fun p => elemStr sh p.1 p.2

theorem levelLine_snoc {α : Type} (sh : α → Str) (xs : List α) (x : α) (l : Nat) : levelLine sh (xs ++ [x]) l =
    levelLine sh xs l ++ if l = Nat.log 2 (xs.length + 1) then elemStr sh x xs.length else [] := by
  unfold levelLine
  rw [List.zipIdx_append, List.filter_append, List.flatMap_append, List.append_assoc]
  congr 2
  by_cases h : l = Nat.log 2 (xs.length + 1)
  · rw [if_pos h]
    have := inLevel_iff.2 h
    simp [this]
  · rw [if_neg h]
    have : inLevel l xs.length = false := by
      rw [← Bool.not_eq_true, inLevel_iff]
      exact h
    simp [this]

theorem heap_lines {α : Type} (sh : α → Str) (data : List α) : levelHead 0 ++ heapLoop sh 0 0 data = (List.range (Nat.log 2 data.length + 1)).flatMap (levelLine sh data) := by
  induction data using List.reverseRecOn with
  | nil => simp [heapLoop, levelLine]
  | append_singleton xs x ih =>
    have h0 := heapLoop_append sh xs [x] 0
    rw [Nat.log_zero_right, Nat.zero_add] at h0
    rw [h0, ← List.append_assoc, ih, List.length_append, List.length_singleton, heapLoop, heapLoop, heapLoop, level_eq]
    have hm : Nat.log 2 xs.length ≤ Nat.log 2 (xs.length + 1) := Nat.log_mono_right (by omega)
    have low : (List.range (Nat.log 2 (xs.length + 1))).flatMap (levelLine sh (xs ++ [x])) = (List.range (Nat.log 2 (xs.length + 1))).flatMap (levelLine sh xs) := by
      rw [List.flatMap_def, List.flatMap_def]
      congr 1
      apply List.map_congr_left
      intro l hl
      rw [List.mem_range] at hl
      rw [levelLine_snoc, if_neg (by omega), List.append_nil]
    rw [List.range_succ (n := Nat.log 2 (xs.length + 1)), List.flatMap_append, low, List.flatMap_singleton, levelLine_snoc, if_pos rfl]
    split
    · rename_i h
      have h1 : Nat.log 2 (xs.length + 1) = Nat.log 2 xs.length + 1 := by
        have : Nat.log 2 (xs.length + 1) ≤ Nat.log 2 xs.length + 1 := by
          have h2 := Nat.lt_pow_succ_log_self (b := 2) (by omega) xs.length
          calc Nat.log 2 (xs.length + 1) ≤ Nat.log 2 (2 ^ (Nat.log 2 xs.length + 1)) := Nat.log_mono_right h2
            _ = _ := Nat.log_pow (by omega) _
        omega
      have none : (xs.zipIdx.filter fun p => inLevel (Nat.log 2 xs.length + 1) p.2) = [] := by
        rw [List.filter_eq_nil_iff]
        intro p hp hl
        have h2 := inLevel_iff.1 hl
        have h3 : p.2 < xs.length := by
          have := List.snd_lt_of_mem_zipIdx hp
          omega
        have : Nat.log 2 (p.2 + 1) ≤ Nat.log 2 xs.length := Nat.log_mono_right (by omega)
        omega
      rw [h1, show levelLine sh xs (Nat.log 2 xs.length + 1) = levelHead (Nat.log 2 xs.length + 1) by rw [levelLine, none]; simp]
      simp
    · rename_i h
      have h1 : Nat.log 2 (xs.length + 1) = Nat.log 2 xs.length := by omega
      rw [h1, List.range_succ, List.flatMap_append, List.flatMap_singleton]
      simp

end

/-- C95: the text of a heap, for every heap and every output of the elements: the levels in order, each with its elements. -/
theorem C95_heap {α : Type} (sh : α → Str) (data : List α) : heapPrint sh data = heapText sh data := by
  have h1 : heapPrint sh data = (List.range (Nat.log 2 data.length + 1)).flatMap (levelLine sh data) ++ ['\n'] := by
    rw [← heap_lines, List.append_assoc, heapPrint]
  have h2 : ∀ l, levelLine sh data l = "\nlevel ".toList ++ natStr l ++ ": ".toList ++ (data.zipIdx.filter fun p => inLevel l p.2).flatMap fun p => sh p.1 ++ " [".toList ++ natStr p.2 ++ "], ".toList := by
    intro l
    unfold levelLine levelHead elemStr
    simp only [List.append_assoc]
  rw [h1, heapText, funext h2]

example : heapPrint intStr [5, 9, -7, 6] = "\nlevel 0: 5 [0], \nlevel 1: 9 [1], -7 [2], \nlevel 2: 6 [3], \n".toList ∧ heapPrint intStr [] = "\nlevel 0: \n".toList := by
  constructor
  · rw [C95_heap]
    decide +kernel
  · decide +kernel

end Verif.Text
