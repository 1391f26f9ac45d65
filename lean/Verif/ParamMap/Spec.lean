import Mathlib.Data.Nat.Notation
import Mathlib.Data.List.Basic

/-! Specification of parameter texts: lines, assignments, command line options, delimited words. -/
namespace Verif.ParamMap.Spec

/-- White space of the "C" locale. -/
def Space (c : Char) : Prop := c ∈ [' ', '\t', '\n', '\x0b', '\x0c', '\x0d']

/-- The lines of a text (the last one is not terminated, possibly empty). -/
def lines : List Char → List (List Char)
  | [] => [[]]
  | c :: cs =>
    if c = '\n' then [] :: lines cs
    else
      match lines cs with
      | [] => [[c]]
      | l :: ls => (c :: l) :: ls

/-- A non-empty word without spaces. -/
def Word (w : List Char) : Prop := w ≠ [] ∧ ∀ c ∈ w, ¬ Space c

/-- The first two words of the line are `k` and `v`. -/
def Two (line k v : List Char) : Prop :=
  ∃ s1 s2 rest, line = s1 ++ k ++ s2 ++ v ++ rest ∧ (∀ c ∈ s1, Space c) ∧ Word k ∧ (∀ c ∈ s2, Space c) ∧ s2 ≠ [] ∧ Word v ∧
    (∀ c ∈ rest.head?, Space c)

/-- The line assigns `v` to `k`: it is no comment. -/
def Assigns (line k v : List Char) : Prop := Two line k v ∧ k.head? ≠ some '#'

/-- Value of `k` after the lines: the last assignment, or the old value without any assignment. -/
def Final (ls : List (List Char)) (old : List Char → Option (List Char)) (k v : List Char) : Prop :=
  (∃ i l, ls[i]? = some l ∧ Assigns l k v ∧ ∀ (j : ℕ) (l' : List Char), i < j → ls[j]? = some l' → ∀ v', ¬ Assigns l' k v') ∨
    ((∀ l ∈ ls, ∀ v', ¬ Assigns l k v') ∧ old k = some v)

/-- A letter of the "C" locale. -/
def Letter (c : Char) : Prop := ('A' ≤ c ∧ c ≤ 'Z') ∨ ('a' ≤ c ∧ c ≤ 'z')

/-- The argument is the option of the given name. -/
def OptionOf (s name : List Char) : Prop := s = '-' :: name ∧ ∃ c ∈ name.head?, Letter c

/-- The argument is an option. -/
def IsOption (s : List Char) : Prop := ∃ name, OptionOf s name

/-- Argument `i` sets `k` to `v`. -/
def ArgSets (argv : List (List Char)) (i : ℕ) (k v : List Char) : Prop :=
  0 < i ∧ (∃ s, argv[i]? = some s ∧ OptionOf s k) ∧ argv[i + 1]? = some v ∧ ¬ IsOption v

/-- Value of `k` after the command line. -/
def ArgFinal (argv : List (List Char)) (old : List Char → Option (List Char)) (k v : List Char) : Prop :=
  (∃ i, ArgSets argv i k v ∧ ∀ j, i < j → ∀ v', ¬ ArgSets argv j k v') ∨ ((∀ i v', ¬ ArgSets argv i k v') ∧ old k = some v)

/-- `ts` are the maximal non-empty words of `s` without delimiters: `s` is words separated by non-empty runs of delimiters,
with possible delimiters at the ends. -/
inductive Tokens (delim : List Char) : List Char → List (List Char) → Prop
  /-- only delimiters -/
  | none (d : List Char) : (∀ c ∈ d, c ∈ delim) → Tokens delim d []
  /-- delimiters, a word, and the end -/
  | last (d w : List Char) : (∀ c ∈ d, c ∈ delim) → w ≠ [] → (∀ c ∈ w, c ∉ delim) → Tokens delim (d ++ w) [w]
  /-- delimiters, a word, a delimiter and the rest -/
  | more (d w : List Char) (c : Char) (s : List Char) (ts : List (List Char)) : (∀ c ∈ d, c ∈ delim) → w ≠ [] →
    (∀ c ∈ w, c ∉ delim) → c ∈ delim → Tokens delim (c :: s) ts → Tokens delim (d ++ w ++ c :: s) (w :: ts)

end Verif.ParamMap.Spec
