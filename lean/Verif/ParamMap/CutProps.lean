import Verif.ParamMap.File

/-! Property theorems C103, exact form (see properties.jsonl): what is read from a parameter file that was cut off. -/
namespace Verif.ParamMap

theorem write_cons (p : Str × Str) (t : Table) : write (p :: t) = (p.1 ++ [' '] ++ p.2 ++ ['\n']) ++ write t := by
  unfold write
  rw [List.flatMap_cons]

/-- A text cut before its end consists of whole lines and of a part of the next one. -/
theorem write_cut (t : Table) (n : ℕ) (hn : n < (write t).length) : ∃ a p b m, t = a ++ p :: b ∧ m ≤ p.1.length + 1 + p.2.length ∧ n = (write a).length + m ∧
    (write t).take n = write a ++ (p.1 ++ [' '] ++ p.2).take m := by
  induction t generalizing n with
  | nil => simp [write] at hn
  | cons p t ih =>
    have hl : (p.1 ++ [' '] ++ p.2 ++ ['\n']).length = p.1.length + 1 + p.2.length + 1 := by simp; omega
    by_cases h : n ≤ p.1.length + 1 + p.2.length
    · refine ⟨[], p, t, n, rfl, h, by simp [write], ?_⟩
      rw [write_cons, List.take_append_of_le_length (by omega), List.take_append_of_le_length (by simp; omega)]
      rfl
    · rw [write_cons, List.length_append, hl] at hn
      obtain ⟨a, q, b, m, e1, e2, e3, e4⟩ := ih (n - (p.1.length + 1 + p.2.length + 1)) (by omega)
      refine ⟨p :: a, q, b, m, by rw [e1]; rfl, e2, ?_, ?_⟩
      · rw [write_cons, List.length_append, hl]; omega
      · rw [write_cons, write_cons, List.take_append, hl, e4, List.take_of_length_le (by omega)]
        simp only [List.append_assoc]

theorem lines_word (s : Str) (h : '\n' ∉ s) : Spec.lines s = [s] := by
  induction s with
  | nil => rfl
  | cons c s ih =>
    unfold Spec.lines
    rw [if_neg (fun e => h (by simp [e])), ih (fun e => h (by simp [e]))]

theorem lines_cut (ls : List Str) (s : Str) (h : ∀ l ∈ ls, '\n' ∉ l) (hs : '\n' ∉ s) : Spec.lines ((ls.flatMap fun l => l ++ ['\n']) ++ s) = ls ++ [s] := by
  induction ls with
  | nil => exact lines_word s hs
  | cons l ls ih =>
    rw [List.flatMap_cons, List.append_assoc, List.append_assoc, List.singleton_append, lines_append _ _ (h l (by simp)), ih (fun l hl => h l (by simp [hl]))]
    rfl

theorem line_newline (p : Str × Str) (h1 : Spec.Word p.1) (h2 : Spec.Word p.2) : '\n' ∉ p.1 ++ [' '] ++ p.2 := by
  intro hc
  simp only [List.append_assoc, List.mem_append, List.mem_singleton] at hc
  rcases hc with hc | hc | hc
  · exact h1.2 _ hc newline_space
  · cases hc
  · exact h2.2 _ hc newline_space

/-- Reading whole lines and a last one without its end. -/
theorem read_cut (a : Table) (s : Str) (h : Writable a) (h0 : ∀ p ∈ a, '\x00' ∉ p.1 ∧ '\x00' ∉ p.2) (hl : ∀ p ∈ a, p.1.length + p.2.length ≤ 1998) (hs : '\n' ∉ s) (hsl : s.length ≤ 1999) :
    read [] (write a ++ s) = readLine a s := by
  have hn : ∀ l ∈ a.map (fun p => p.1 ++ [' '] ++ p.2), '\n' ∉ l := by
    intro l hl'
    obtain ⟨p, hp, rfl⟩ := List.mem_map.1 hl'
    exact line_newline p (h.2 p hp).1 (h.2 p hp).2.1
  have hlen : ∀ l ∈ a.map (fun p => p.1 ++ [' '] ++ p.2), l.length ≤ 1999 := by
    intro l hl'
    obtain ⟨p, hp, rfl⟩ := List.mem_map.1 hl'
    have := hl p hp
    simp only [List.length_append, List.length_cons, List.length_nil]
    omega
  have key : ∀ s : Str, '\n' ∉ s → s.length ≤ 1999 → read [] (write a ++ s) = readLine ((a.map fun p => p.1 ++ [' '] ++ p.2).foldl readLine []) s := by
    intro s hs hsl
    rw [write_eq, read_lines _ [] _ [] (by rw [lines_cut _ s hn hs, List.append_nil]) _ (by simp), List.foldl_append, List.foldl_cons, List.foldl_nil]
    intro l hl'
    rcases List.mem_append.1 hl' with hl' | hl'
    · exact hlen l hl'
    · rw [List.mem_singleton.1 hl']; exact hsl
  have e := key [] (by simp) (by simp)
  rw [List.append_nil, C43_roundtrip_partial a h h0 hl, readLine_nil] at e
  rw [key s hs hsl, ← e]

/-- A line without a second word changes nothing. -/
theorem readLine_word (a : Table) (s : Str) (h : ∀ c ∈ s, ¬ Spec.Space c) (h0 : '\x00' ∉ s) : readLine a s = a ∧ readLine a (s ++ [' ']) = a := by
  have none_of : ∀ l : Str, '\x00' ∉ l → (∀ k v, ¬ Spec.Two l k v) → readLine a l = a := by
    intro l hl hk
    have : parseLine l = none := by
      cases e : parseLine l with
      | none => rfl
      | some q => exact absurd ((parseLine_iff l q.1 q.2 hl).1 e) (hk _ _)
    unfold readLine
    rw [this]
  refine ⟨none_of s h0 ?_, none_of _ (by simp [h0]) ?_⟩
  · rintro k v ⟨s1, s2, rest, e, -, -, h2, hne, -⟩
    obtain ⟨c, r, rfl⟩ := List.exists_cons_of_ne_nil hne
    exact h c (by rw [e]; simp) (h2 c (by simp))
  · rintro k v ⟨s1, s2, rest, e, -, -, h2, hne, hv, -⟩
    obtain ⟨c, r, rfl⟩ := List.exists_cons_of_ne_nil hne
    have hc := h2 c (by simp)
    have e' : s ++ [' '] = (s1 ++ k) ++ c :: (r ++ v ++ rest) := by rw [e]; simp
    rcases List.append_eq_append_iff.1 e' with ⟨x, hx1, hx2⟩ | ⟨x, hx1, hx2⟩
    · have hlen := congrArg List.length hx2
      have hpos : 0 < v.length := List.length_pos_of_ne_nil hv.1
      simp only [List.length_append, List.length_cons, List.length_nil] at hlen
      omega
    · cases x with
      | nil =>
        have hlen := congrArg List.length hx2
        have hpos : 0 < v.length := List.length_pos_of_ne_nil hv.1
        simp only [List.length_append, List.length_cons, List.length_nil] at hlen
        omega
      | cons d x =>
        have : c = d := by simp at hx2; exact hx2.1
        exact h d (by rw [hx1]; simp) (this ▸ hc)

/-- What a part of the line of a parameter gives, param_map.cpp:40-47: nothing, or the parameter with the beginning of its value. -/
def cutEntry (p : Str × Str) (m : ℕ) : Table := if m ≤ p.1.length + 1 then [] else [(p.1, p.2.take (m - p.1.length - 1))]

theorem readLine_cut (a : Table) (p : Str × Str) (m : ℕ) (hp : Spec.Word p.1 ∧ Spec.Word p.2 ∧ p.1.head? ≠ some '#') (h0 : '\x00' ∉ p.1 ∧ '\x00' ∉ p.2) (ha : ∀ q ∈ a, q.1 < p.1) :
    readLine a ((p.1 ++ [' '] ++ p.2).take m) = a ++ cutEntry p m := by
  obtain ⟨w1, w2, w3⟩ := hp
  unfold cutEntry
  by_cases h1 : m ≤ p.1.length
  · rw [if_pos (by omega), List.append_nil, List.append_assoc, List.take_append_of_le_length h1]
    exact (readLine_word a _ (fun c hc => w1.2 c (List.mem_of_mem_take hc)) (fun hc => h0.1 (List.mem_of_mem_take hc))).1
  · by_cases h2 : m = p.1.length + 1
    · rw [if_pos (by omega), List.append_nil, List.take_append_of_le_length (by simp; omega), List.take_of_length_le (by simp; omega)]
      exact (readLine_word a _ w1.2 h0.1).2
    · rw [if_neg (by omega)]
      have e : (p.1 ++ [' '] ++ p.2).take m = p.1 ++ [' '] ++ p.2.take (m - p.1.length - 1) := by
        rw [List.take_append, List.take_of_length_le (by simp; omega)]
        congr 2
        simp; omega
      have w : Spec.Word (p.2.take (m - p.1.length - 1)) := by
        refine ⟨fun hc => ?_, fun c hc => w2.2 c (List.mem_of_mem_take hc)⟩
        rcases List.take_eq_nil_iff.1 hc with hc | hc
        · omega
        · exact w2.1 hc
      have hz : '\x00' ∉ p.2.take (m - p.1.length - 1) := fun hc => h0.2 (List.mem_of_mem_take hc)
      rw [e]
      have hpl : parseLine (p.1 ++ [' '] ++ p.2.take (m - p.1.length - 1)) = some (p.1, p.2.take (m - p.1.length - 1)) := by
        rw [parseLine_iff]
        · exact ⟨[], [' '], [], by simp, by simp, w1, by simp [Spec.Space], by simp, w, by simp⟩
        · simp [h0.1, hz]
      unfold readLine
      rw [hpl]
      simp only
      have : (p.1.isEmpty || p.1.head? == some '#') = false := by simp [w1.1, w3]
      rw [this]
      simp only [Bool.false_eq_true, if_false]
      exact assign_last a _ _ ha

/-- C103, exact behaviour: when the space ends inside the text, the result is true and reading gives the parameters whose lines are complete, and after them at most one more, with a value that is only
the beginning of the right one. -/
theorem C103_cut (t : Table) (file : Option Str) (space : ℕ) (h : Writable t) (h0 : ∀ p ∈ t, '\x00' ∉ p.1 ∧ '\x00' ∉ p.2) (hl : ∀ p ∈ t, p.1.length + p.2.length ≤ 1998)
    (hs : space < (write t).length) : (writeFile t file true space).2 = true ∧ ∃ a p b m, t = a ++ p :: b ∧ space = (write a).length + m ∧ m ≤ p.1.length + 1 + p.2.length ∧
      readFile [] (writeFile t file true space).1 = (a ++ (if m ≤ p.1.length + 1 then [] else [(p.1, p.2.take (m - p.1.length - 1))]), true) := by
  refine ⟨rfl, ?_⟩
  obtain ⟨a, p, b, m, rfl, hm, hn, e⟩ := write_cut t space hs
  refine ⟨a, p, b, m, rfl, hn, hm, ?_⟩
  show (read [] ((write (a ++ p :: b)).take space), true) = _
  have hp := h.2 p (by simp)
  have hpl := hl p (by simp)
  have hsort := List.pairwise_append.1 h.1
  rw [e, read_cut a _ ⟨hsort.1, fun q hq => h.2 q (by simp [hq])⟩ (fun q hq => h0 q (by simp [hq])) (fun q hq => hl q (by simp [hq]))
    (fun hc => line_newline p hp.1 hp.2.1 (List.mem_of_mem_take hc)) (by simp; omega), readLine_cut a p m hp (h0 p (by simp)) (fun q hq => hsort.2.2 q hq p (by simp))]
  rfl

/-- C103, exact condition: the table is read back exactly when there is room for all the text but its last character. -/
theorem C103_iff (t : Table) (file : Option Str) (space : ℕ) (h : Writable t) (h0 : ∀ p ∈ t, '\x00' ∉ p.1 ∧ '\x00' ∉ p.2) (hl : ∀ p ∈ t, p.1.length + p.2.length ≤ 1998) :
    readFile [] (writeFile t file true space).1 = (t, true) ↔ (write t).length ≤ space + 1 := by
  by_cases hs : (write t).length ≤ space
  · exact ⟨fun _ => by omega, fun _ => (C103_file_partial t file true space h h0 hl hs).2.1 rfl⟩
  · obtain ⟨-, a, p, b, m, rfl, hn, hm, e⟩ := C103_cut t file space h h0 hl (by omega)
    rw [e]
    have hw : (write (a ++ p :: b)).length = (write a).length + (p.1.length + 1 + p.2.length + 1) + (write b).length := by
      unfold write
      simp only [List.flatMap_append, List.flatMap_cons, List.length_append, List.length_cons, List.length_nil]
      omega
    have hp2 : 0 < p.2.length := List.length_pos_of_ne_nil (h.2 p (by simp)).2.1.1
    have hb : (write b).length = 0 ↔ b = [] := by
      cases b with
      | nil => simp [write]
      | cons q b => simp [write_cons]
    rw [Prod.mk.injEq, eq_self, and_true, List.append_cancel_left_eq, hw]
    split_ifs with hc
    · exact ⟨fun hc => absurd hc (by simp), fun hc => by omega⟩
    · rw [List.cons.injEq, eq_comm (a := []), ← hb]
      constructor
      · rintro ⟨h1, h2⟩
        have := congrArg (fun q : Str × Str => q.2.length) h1
        simp only [List.length_take] at this
        omega
      · intro hle
        refine ⟨?_, by omega⟩
        rw [List.take_of_length_le (by omega)]

/-- Example: with room for 7 characters `write` reports success, and the value 1000 of `b` is read as 1. -/
example : readFile [] (writeFile [(['a'], ['1']), (['b'], ['1', '0', '0', '0'])] none true 7).1 = ([(['a'], ['1']), (['b'], ['1'])], true) := by decide +kernel

end Verif.ParamMap
