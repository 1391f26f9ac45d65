import Verif.ParamMap.TildeProps
import Mathlib.Data.List.Sort

/-! Property theorem C146 (see properties.jsonl): reading several parameter texts. -/
namespace Verif.ParamMap
open Verif

theorem table_ext {t u : Table} (ht : Sorted t) (hu : Sorted u) (h : ∀ k v, find t k = some v ↔ find u k = some v) : t = u := by
  haveI : Std.Irrefl fun p q : Str × Str => p.1 < q.1 := ⟨fun p => lt_irrefl p.1⟩
  haveI : Std.Antisymm fun p q : Str × Str => p.1 < q.1 := ⟨fun p q h1 h2 => absurd h1 (lt_asymm h2)⟩
  refine List.Pairwise.eq_of_mem_iff ht hu ?_
  rintro ⟨k, v⟩
  exact ⟨fun hm => mem_of_find ((h k v).1 (find_mem ht hm)), fun hm => mem_of_find ((h k v).2 (find_mem hu hm))⟩

/-- The lines that are read. -/
def readLines (text : Str) : List Str := (Spec.lines text).takeWhile fun l => decide (l.length ≤ 1999)

theorem read_eq (t : Table) (text : Str) : read t text = (readLines text).foldl readLine t :=
  read_lines text t (readLines text) ((Spec.lines text).dropWhile fun l => decide (l.length ≤ 1999)) List.takeWhile_append_dropWhile.symm
    (by
      intro l hl
      have := List.all_takeWhile (p := fun l : Str => decide (l.length ≤ 1999)) (l := Spec.lines text)
      simpa using List.all_eq_true.1 this l hl)
    (by
      intro l hl
      have := List.head?_dropWhile_not (fun l : Str => decide (l.length ≤ 1999)) (Spec.lines text)
      rw [Option.mem_def.1 hl] at this
      simpa using this)

theorem lines_cons (c : Char) (cs : Str) : Spec.lines (c :: cs) = if c = '\n' then [] :: Spec.lines cs else
    match Spec.lines cs with
    | [] => [[c]]
    | l :: ls => (c :: l) :: ls := rfl

theorem lines_join (a b : Str) : Spec.lines (a ++ '\n' :: b) = Spec.lines a ++ Spec.lines b := by
  induction a with
  | nil => simp [Spec.lines]
  | cons c cs ih =>
    rw [List.cons_append, lines_cons, lines_cons, ih]
    by_cases hc : c = '\n'
    · rw [if_pos hc, if_pos hc]; rfl
    · rw [if_neg hc, if_neg hc]
      cases hl : Spec.lines cs with
      | nil => exact absurd hl (lines_ne_nil cs)
      | cons l ls => rfl

theorem takeWhile_all : ∀ {l : List Str}, (∀ x ∈ l, x.length ≤ 1999) → l.takeWhile (fun l => decide (l.length ≤ 1999)) = l
  | [], _ => rfl
  | x :: xs, h => by
    rw [List.takeWhile_cons_of_pos (by simpa using h x (by simp)), takeWhile_all fun y hy => h y (by simp [hy])]

/-- C146, texts one after the other: reading two texts is reading their concatenation with a line break, if the lines of the first are not too long. -/
theorem C146_concat (t : Table) (a b : Str) (ha : ∀ l ∈ Spec.lines a, l.length ≤ 1999) : read t (a ++ '\n' :: b) = read (read t a) b := by
  rw [read_eq, read_eq, read_eq, ← List.foldl_append]
  congr 1
  unfold readLines
  rw [lines_join, List.takeWhile_append_of_pos (fun l hl => by simpa using ha l hl)]
  congr 1
  exact (takeWhile_all ha).symm

/-- What a line assigns. -/
def assignment (l : Str) : Option (Str × Str) := (parseLine l).bind fun p => if p.1.isEmpty || p.1.head? == some '#' then none else some p

theorem readLine_eq (t : Table) (l : Str) : readLine t l = match assignment l with
    | some p => assign t p.1 p.2
    | none => t := by
  unfold readLine assignment
  cases parseLine l with
  | none => rfl
  | some p =>
    simp only [Option.bind_some]
    by_cases hc : (p.1.isEmpty || p.1.head? == some '#') = true
    · rw [if_pos hc, if_pos hc]
    · rw [if_neg hc, if_neg hc]

/-- Value of `k` after the lines, as a computation from the last one. -/
def lastOf (ls : List Str) (k : Str) : Option Str := ls.reverse.findSome? fun l => (assignment l).bind fun p => if p.1 = k then some p.2 else none

theorem find_readLines (ls : List Str) (t : Table) (k : Str) : find (ls.foldl readLine t) k = (lastOf ls k).or (find t k) := by
  induction ls using List.reverseRecOn with
  | nil => rfl
  | append_singleton ls l ih =>
    rw [List.foldl_append, List.foldl_cons, List.foldl_nil, readLine_eq]
    unfold lastOf at ih ⊢
    rw [List.reverse_append, List.reverse_singleton, List.singleton_append, List.findSome?_cons]
    cases assignment l with
    | none => exact ih
    | some p =>
      simp only [Option.bind_some, find_assign]
      by_cases hk : k = p.1
      · rw [if_pos hk, if_pos hk.symm]; rfl
      · rw [if_neg hk, if_neg (Ne.symm hk)]; exact ih

/-- C146, the same text again: a second reading changes nothing, whatever the text (null characters and overlong lines included). -/
theorem C146_again (t : Table) (ht : Sorted t) (a : Str) : read (read t a) a = read t a := by
  refine table_ext (C42_sorted _ _ (C42_sorted _ _ ht)) (C42_sorted _ _ ht) fun k v => ?_
  rw [read_eq, read_eq, find_readLines, find_readLines]
  cases lastOf (readLines a) k <;> simp

/-- C146, the order of the texts: texts that assign no common name can be read in any order. -/
theorem C146_swap (t : Table) (ht : Sorted t) (a b : Str) (h0 : '\x00' ∉ a) (h1 : '\x00' ∉ b)
    (h : ∀ l ∈ Spec.lines a, ∀ l' ∈ Spec.lines b, ∀ k v v', ¬ (Spec.Assigns l k v ∧ Spec.Assigns l' k v')) :
    read (read t a) b = read (read t b) a := by
  have key : ∀ (c : Str) (k v : Str), '\x00' ∉ c → lastOf (readLines c) k = some v → ∃ l ∈ Spec.lines c, Spec.Assigns l k v := by
    intro c k v hc hs
    unfold lastOf at hs
    obtain ⟨l, hl, hv⟩ := List.exists_of_findSome?_eq_some hs
    have hl' : l ∈ Spec.lines c := (List.takeWhile_prefix _).subset (List.mem_reverse.1 hl)
    refine ⟨l, hl', ?_⟩
    unfold assignment at hv
    cases hp : parseLine l with
    | none => rw [hp] at hv; cases hv
    | some p =>
      rw [hp, Option.bind_some] at hv
      by_cases hc' : (p.1.isEmpty || p.1.head? == some '#') = true
      · rw [if_pos hc'] at hv; cases hv
      · rw [if_neg hc', Option.bind_some] at hv
        split_ifs at hv with hk
        subst hk
        rw [Option.some.injEq] at hv
        subst hv
        refine ⟨(parseLine_iff l _ _ (fun hm => hc (mem_lines c l hl' _ hm))).1 hp, fun hh => hc' ?_⟩
        rw [hh]; simp
  refine table_ext (C42_sorted _ _ (C42_sorted _ _ ht)) (C42_sorted _ _ (C42_sorted _ _ ht)) fun k v => ?_
  rw [read_eq, read_eq, read_eq, read_eq, find_readLines, find_readLines, find_readLines, find_readLines]
  cases ha : lastOf (readLines a) k with
  | none => cases lastOf (readLines b) k <;> simp
  | some x =>
    cases hb : lastOf (readLines b) k with
    | none => simp
    | some y =>
      obtain ⟨l, hl, hla⟩ := key a k x h0 ha
      obtain ⟨l', hl', hlb⟩ := key b k y h1 hb
      exact absurd ⟨hla, hlb⟩ (h l hl l' hl' k x y)

example : read [] "a 1\nb 2\n# a 3\na 4".toList = [("a".toList, "4".toList), ("b".toList, "2".toList)] ∧
    read (read [] "a 1\nb 2".toList) "# a 3\na 4".toList = [("a".toList, "4".toList), ("b".toList, "2".toList)] ∧
    read (read [] "# a 3\na 4".toList) "a 1\nb 2".toList = [("a".toList, "1".toList), ("b".toList, "2".toList)] := by decide +kernel

/-- With an overlong line in the first text the concatenation loses the second text. -/
example : read (read [] (List.replicate 2000 'x')) "a 1".toList = [("a".toList, "1".toList)] ∧
    read [] (List.replicate 2000 'x' ++ '\n' :: "a 1".toList) = [] := by decide +kernel

end Verif.ParamMap
