import Verif.Io.Model
import Mathlib.Data.List.Count
import Mathlib.Data.List.Sort
import Mathlib.Data.Int.Notation
import Mathlib.Order.Defs.LinearOrder

/-! Property theorems C66 and C84 (see properties.jsonl). -/
namespace Verif.Io
open Verif

/-- What `std::sort` guarantees for strings, compared lexicographically by byte. -/
def SortSpec (srt : List Str → List Str) : Prop := ∀ l, (srt l).Perm l ∧ (srt l).Pairwise fun a b => ¬ b < a

/-- Specification: the number of regular files with the given path. -/
def regularCount (items : List Item) (path : Str) : ℕ := items.countP fun i => decide (i = .entry path (some true))

/-- No exception is thrown in the visit of the directory. -/
def NoFail (items : List Item) : Prop := ∀ i ∈ items, ∃ path b, i = .entry path (some b)

theorem loop_ok {items : List Item} (h : NoFail items) (files : List Str) :
    ∃ out, loop items files = (out, .ok ()) ∧ ∀ path, out.count path = files.count path + regularCount items path := by
  induction items generalizing files with
  | nil => exact ⟨files, rfl, fun path => by simp [regularCount]⟩
  | cons i items ih =>
    obtain ⟨path, b, rfl⟩ := h i (by simp)
    obtain ⟨out, e, hc⟩ := ih (fun j hj => h j (by simp [hj])) (if b then files ++ [path] else files)
    refine ⟨out, e, fun q => ?_⟩
    rw [hc]
    unfold regularCount
    rw [List.countP_cons]
    cases b with
    | false => simp
    | true =>
      simp only [if_true, List.count_append, List.count_singleton]
      by_cases hq : path = q
      · subst hq
        simp
        omega
      · simp [hq]

/-- C66: without exceptions, the vector has the previous strings and the path of each regular file, with multiplicity, and nothing else, in increasing order. -/
theorem C66_listing {srt : List Str → List Str} (hs : SortSpec srt) {items : List Item} (h : NoFail items) (files : List Str) :
    ∃ out, getDirectoryFiles srt (some items) files = (out, .ok ()) ∧ (∀ path, out.count path = files.count path + regularCount items path) ∧ out.Pairwise (fun a b => ¬ b < a) := by
  obtain ⟨out, e, hc⟩ := loop_ok h files
  refine ⟨srt out, ?_, fun path => ?_, (hs out).2⟩
  · unfold getDirectoryFiles
    dsimp only
    rw [e]
  · rw [← hc, (hs out).1.count_eq]

/-- C66: with an exception, the vector has the previous strings, in the previous order, and then the regular files visited before, not sorted; the exception reaches the caller. -/
theorem C66_exception {srt : List Str → List Str} {items : List Item} {i : Item} (hi : i = .fail ∨ ∃ path, i = .entry path none) (h : NoFail items) (rest : List Item) (files : List Str) :
    getDirectoryFiles srt none files = (files, .error .throw) ∧
    ∃ new, getDirectoryFiles srt (some (items ++ i :: rest)) files = (files ++ new, .error .throw) ∧ ∀ path, new.count path = regularCount items path := by
  refine ⟨rfl, ?_⟩
  have key : ∀ files, ∃ new, loop (items ++ i :: rest) files = (files ++ new, .error .throw) ∧ ∀ path, new.count path = regularCount items path := by
    clear files
    induction items with
    | nil =>
      intro files
      refine ⟨[], ?_, fun path => by simp [regularCount]⟩
      rw [List.append_nil]
      rcases hi with rfl | ⟨path, rfl⟩ <;> rfl
    | cons j items ih =>
      intro files
      obtain ⟨path, b, rfl⟩ := h j (by simp)
      obtain ⟨new, e, hc⟩ := ih (fun j hj => h j (by simp [hj])) (if b then files ++ [path] else files)
      cases b with
      | false =>
        refine ⟨new, e, fun q => ?_⟩
        rw [hc]
        simp [regularCount]
      | true =>
        refine ⟨path :: new, ?_, fun q => ?_⟩
        · show loop (items ++ i :: rest) (files ++ [path]) = _
          simpa using e
        · rw [List.count_cons, hc]
          simp only [regularCount, List.countP_cons]
          by_cases hq : path = q
          · simp [hq]
          · simp [hq]
  obtain ⟨new, e, hc⟩ := key files
  refine ⟨new, ?_, hc⟩
  unfold getDirectoryFiles
  dsimp only
  rw [e]

-- two regular files and a directory, added to a vector with a string
example : getDirectoryFiles (fun l => l.insertionSort fun a b => ¬ b < a) (some [.entry [98] (some true), .entry [100] (some false), .entry [97] (some true)]) [[99, 1]] =
    ([[97], [98], [99, 1]], .ok ()) := by decide +kernel

/-! C84 -/

/-- The fields are in the ranges of the C standard, and the year has four digits. -/
def Valid (t : Tm) : Prop := t.year + 1900 ≤ 9999 ∧ t.mon ≤ 11 ∧ 1 ≤ t.mday ∧ t.mday ≤ 31 ∧ t.hour ≤ 23 ∧ t.min ≤ 59 ∧ t.sec ≤ 60

/-- Chronological order of broken-down times. -/
def Before (s t : Tm) : Prop :=
  s.year < t.year ∨ s.year = t.year ∧ (s.mon < t.mon ∨ s.mon = t.mon ∧ (s.mday < t.mday ∨ s.mday = t.mday ∧ (s.hour < t.hour ∨ s.hour = t.hour ∧
    (s.min < t.min ∨ s.min = t.min ∧ s.sec < t.sec))))

theorem digit_lt {a b : ℕ} : digit a < digit b ↔ a % 10 < b % 10 := by
  unfold digit
  rw [UInt8.lt_iff_toNat_lt, UInt8.toNat_ofNat', UInt8.toNat_ofNat']
  omega

theorem digit_inj {a b : ℕ} : digit a = digit b ↔ a % 10 = b % 10 := by
  unfold digit
  rw [← UInt8.toNat_inj, UInt8.toNat_ofNat', UInt8.toNat_ofNat']
  omega

/-- Lexicographic order of strings that begin with strings of the same length. -/
theorem append_lt {a b c d : Str} (h : a.length = b.length) : a ++ c < b ++ d ↔ a < b ∨ a = b ∧ c < d := by
  induction a generalizing b with
  | nil =>
    have : b = [] := List.length_eq_zero_iff.1 h.symm
    subst this
    simp
  | cons x a ih =>
    cases b with
    | nil => simp at h
    | cons y b =>
      simp only [List.cons_append, List.cons_lt_cons_iff, ih (by simpa using h), List.cons.injEq]
      tauto

theorem two_append {m n : ℕ} {c d : Str} : two m ++ c < two n ++ d ↔ two m < two n ∨ two m = two n ∧ c < d := append_lt rfl

theorem two_lt {m n : ℕ} (hm : m < 100) (hn : n < 100) : two m < two n ↔ m < n := by
  simp only [two, List.cons_lt_cons_iff, digit_lt, digit_inj]
  simp only [List.not_lt_nil, and_false, or_false]
  omega

theorem two_inj {m n : ℕ} (hm : m < 100) (hn : n < 100) : two m = two n ↔ m = n := by
  simp only [two, List.cons.injEq, digit_inj, and_true]
  omega

theorem two_lt_year {m n : ℕ} (hm : m < 10000) (hn : n < 10000) : (two (m / 100) < two (n / 100) ∨ two (m / 100) = two (n / 100) ∧ two m < two n ↔ m < n) ∧
    (two (m / 100) = two (n / 100) ∧ two m = two n ↔ m = n) := by
  rw [two_lt (by omega) (by omega), two_inj (by omega) (by omega)]
  simp only [two, List.cons_lt_cons_iff, digit_lt, digit_inj, List.cons.injEq, and_true]
  simp only [List.not_lt_nil, and_false, or_false]
  omega

/-- C84: with a given prefix and suffix, the strings generated for valid times have the same length and lexicographic order is the chronological order; they are equal only for times that agree to the second. -/
theorem C84_order {localtime : ℤ → Option Tm} {n1 n2 : ℤ} {t1 t2 : Tm} (h1 : localtime n1 = some t1) (h2 : localtime n2 = some t2) (v1 : Valid t1) (v2 : Valid t2) (pre post : Str) :
    ∃ s1 s2, generateStampedString localtime n1 pre post = .ok s1 ∧ generateStampedString localtime n2 pre post = .ok s2 ∧
      s1.length = pre.length + 16 + post.length ∧ s2.length = s1.length ∧ (s1 < s2 ↔ Before t1 t2) ∧ (s1 = s2 ↔ t1 = t2) := by
  unfold generateStampedString
  rw [h1, h2]
  refine ⟨_, _, rfl, rfl, ?_, ?_, ?_, ?_⟩
  · simp [putTime, two]; omega
  · simp [putTime, two]
  · obtain ⟨a1, a2, -, a3, a4, a5, a6⟩ := v1
    obtain ⟨b1, b2, -, b3, b4, b5, b6⟩ := v2
    obtain ⟨y1, y2⟩ := two_lt_year (m := t1.year + 1900) (n := t2.year + 1900) (by omega) (by omega)
    rw [List.append_assoc, List.append_assoc, append_lt rfl]
    simp only [List.lt_irrefl, false_or, true_and]
    rw [append_lt (by simp [putTime, two])]
    simp only [List.lt_irrefl, and_false, or_false]
    simp only [putTime, List.append_assoc]
    have hsep : ∀ c d : Str, [95] ++ c < [95] ++ d ↔ c < d := fun c d => by rw [append_lt rfl]; simp
    simp only [two_append, hsep]
    rw [two_lt (m := t1.mon + 1) (n := t2.mon + 1) (by omega) (by omega), two_inj (m := t1.mon + 1) (n := t2.mon + 1) (by omega) (by omega), two_lt (m := t1.mday) (n := t2.mday) (by omega) (by omega),
      two_inj (m := t1.mday) (n := t2.mday) (by omega) (by omega), two_lt (m := t1.hour) (n := t2.hour) (by omega) (by omega), two_inj (m := t1.hour) (n := t2.hour) (by omega) (by omega),
      two_lt (m := t1.min) (n := t2.min) (by omega) (by omega), two_inj (m := t1.min) (n := t2.min) (by omega) (by omega), two_lt (m := t1.sec) (n := t2.sec) (by omega) (by omega)]
    have e : ∀ X : Prop, (two ((t1.year + 1900) / 100) < two ((t2.year + 1900) / 100) ∨ two ((t1.year + 1900) / 100) = two ((t2.year + 1900) / 100) ∧
        (two (t1.year + 1900) < two (t2.year + 1900) ∨ two (t1.year + 1900) = two (t2.year + 1900) ∧ X)) ↔
        (t1.year + 1900 < t2.year + 1900 ∨ t1.year + 1900 = t2.year + 1900 ∧ X) := by
      intro X
      rw [← y1, ← y2]
      tauto
    rw [e]
    unfold Before
    simp only [Nat.add_lt_add_iff_right, Nat.add_right_cancel_iff]
  · obtain ⟨a1, a2, -, a3, a4, a5, a6⟩ := v1
    obtain ⟨b1, b2, -, b3, b4, b5, b6⟩ := v2
    constructor
    · intro h
      have h := List.append_cancel_left (List.append_cancel_right h)
      obtain ⟨y1, y2⟩ := two_lt_year (m := t1.year + 1900) (n := t2.year + 1900) (by omega) (by omega)
      simp only [putTime, two, List.cons_append, List.nil_append, List.cons.injEq, digit_inj, and_true] at h
      obtain ⟨y1, m1, d1, h1, i1, s1⟩ := t1
      obtain ⟨y2, m2, d2, h2, i2, s2⟩ := t2
      simp only at *
      congr 1 <;> omega
    · intro h
      rw [h]

/-- If `std::localtime` fails the null pointer is dereferenced. -/
theorem C84_null {localtime : ℤ → Option Tm} {now : ℤ} (h : localtime now = none) (pre post : Str) :
    generateStampedString localtime now pre post = .error (.ub .outOfBounds) := by
  unfold generateStampedString
  rw [h]

-- "a20240229_1205_09.b"
example : generateStampedString (fun _ => some ⟨124, 1, 29, 12, 5, 9⟩) 0 [97] [46, 98] = .ok [97, 50, 48, 50, 52, 48, 50, 50, 57, 95, 49, 50, 48, 53, 95, 48, 57, 46, 98] := by decide +kernel

end Verif.Io
