import Verif.ParamMap.Lemmas

/-! Property theorems C42 to C47, C68, C69 (see properties.jsonl). -/
namespace Verif.ParamMap
open Verif

/-! ### C42: parameter files -/

/-- C42: for every text without null characters whose lines have at most 1999 characters. -/
theorem C42_read (t : Table) (text : Str) (h0 : '\x00' ∉ text) (hl : ∀ l ∈ Spec.lines text, l.length ≤ 1999) (k v : Str) :
    find (read t text) k = some v ↔ Spec.Final (Spec.lines text) (find t) k v := by
  rw [read_lines text t (Spec.lines text) [] (by simp) hl (by simp)]
  exact find_foldl t _ (fun l hl h => h0 (mem_lines text l hl _ h)) k v

/-- C42: the table stays a table (strictly increasing names), whatever the text. -/
theorem C42_sorted (t : Table) (text : Str) (ht : Sorted t) : Sorted (read t text) := by
  have one : ∀ t l, Sorted t → Sorted (readLine t l) := by
    intro t l h
    unfold readLine
    split
    · split
      · exact h
      · exact assign_sorted _ _ _ h
    · exact h
  have gen : ∀ (ls : List Str) t, Sorted t → Sorted (ls.foldl readLine t) := by
    intro ls
    induction ls with
    | nil => intro t h; exact h
    | cons l ls ih => intro t h; exact ih _ (one t l h)
  have := read_lines text t ((Spec.lines text).takeWhile fun l => decide (l.length ≤ 1999))
    ((Spec.lines text).dropWhile fun l => decide (l.length ≤ 1999)) List.takeWhile_append_dropWhile.symm
    (by
      intro l hl
      have := List.all_takeWhile (p := fun l : Str => decide (l.length ≤ 1999)) (l := Spec.lines text)
      simpa using List.all_eq_true.1 this l hl)
    (by
      intro l hl
      have := List.head?_dropWhile_not (fun l : Str => decide (l.length ≤ 1999)) (Spec.lines text)
      rw [Option.mem_def.1 hl] at this
      simpa using this)
  rw [this]
  exact gen _ t ht

/-- Beyond C42: a line of 2000 characters or more ends the reading, the assignments after it are lost. -/
theorem C42_overlong (t : Table) (text : Str) (pre : List Str) (long : Str) (post : List Str) (h0 : '\x00' ∉ text)
    (hs : Spec.lines text = pre ++ long :: post) (hpre : ∀ l ∈ pre, l.length ≤ 1999) (hlong : 2000 ≤ long.length) (k v : Str) :
    find (read t text) k = some v ↔ Spec.Final pre (find t) k v := by
  rw [read_lines text t pre (long :: post) hs hpre (by simp; omega)]
  exact find_foldl t _ (fun l hl h => h0 (mem_lines text l (by rw [hs]; simp [hl]) _ h)) k v

/-- `readFile`: a file that cannot be opened changes nothing and is reported. -/
theorem C42_file (t : Table) (c : Option Str) : (readFile t c).2 = c.isSome ∧ (c = none → (readFile t c).1 = t) ∧
    ∀ s, c = some s → (readFile t c).1 = read t s := by
  cases c <;> simp [readFile]

/-- Two assignments to `a`, one comment, one incomplete line, spaces around. -/
def exText : Str := ['a', ' ', '1', '\n', '#', 'b', ' ', '2', '\n', 'c', '\n', ' ', 'a', '\t', '3', ' ', '4', '\n', 'd', ' ', '5']

example : read [(['a'], ['0']), (['z'], ['9'])] exText = [(['a'], ['3']), (['d'], ['5']), (['z'], ['9'])] := by decide +kernel

example : Spec.Assigns [' ', 'a', '\t', '3', ' ', '4'] ['a'] ['3'] :=
  ⟨⟨[' '], ['\t'], [' ', '4'], rfl, by simp [Spec.Space], by simp [Spec.Word, Spec.Space], by simp [Spec.Space], by simp,
    by simp [Spec.Word, Spec.Space], by simp [Spec.Space]⟩, by simp⟩

/-! ### C43: write and read -/

/-- The names and values of the table are words, no name starts a comment. -/
def Writable (t : Table) : Prop := Sorted t ∧ ∀ p ∈ t, Spec.Word p.1 ∧ Spec.Word p.2 ∧ p.1.head? ≠ some '#'

/-- C43, full statement. -/
def C43_statement : Prop := ∀ t, Writable t → read [] (write t) = t

theorem write_eq (t : Table) : write t = (t.map fun p => p.1 ++ [' '] ++ p.2).flatMap fun l => l ++ ['\n'] := by
  unfold write
  rw [List.flatMap_map]

theorem newline_space : Spec.Space '\n' := by simp [Spec.Space]

/-- C43 restricted to tables without null characters whose lines have at most 1999 characters. Missing: longer ones, see
`C43_violated`. -/
theorem C43_roundtrip_partial (t : Table) (h : Writable t) (h0 : ∀ p ∈ t, '\x00' ∉ p.1 ∧ '\x00' ∉ p.2)
    (hl : ∀ p ∈ t, p.1.length + p.2.length ≤ 1998) : read [] (write t) = t := by
  obtain ⟨hs, hw⟩ := h
  have hn : ∀ l ∈ t.map (fun p => p.1 ++ [' '] ++ p.2), '\n' ∉ l := by
    intro l hl' hc
    obtain ⟨p, hp, rfl⟩ := List.mem_map.1 hl'
    obtain ⟨h1, h2, -⟩ := hw p hp
    simp only [List.append_assoc, List.mem_append, List.mem_singleton] at hc
    rcases hc with hc | hc | hc
    · exact h1.2 _ hc newline_space
    · cases hc
    · exact h2.2 _ hc newline_space
  rw [write_eq, read_lines _ [] _ [] (by rw [lines_flatMap _ hn, List.append_nil]) _ (by simp)]
  · rw [List.foldl_append, List.foldl_cons, List.foldl_nil, readLine_nil]
    have gen : ∀ (b a : Table), Sorted (a ++ b) → (∀ p ∈ b, Spec.Word p.1 ∧ Spec.Word p.2 ∧ p.1.head? ≠ some '#') →
        (∀ p ∈ b, '\x00' ∉ p.1 ∧ '\x00' ∉ p.2) →
        (b.map fun p => p.1 ++ [' '] ++ p.2).foldl readLine a = a ++ b := by
      intro b
      induction b with
      | nil => intro a _ _ _; simp
      | cons p b ih =>
        intro a ha hw h0
        have e : readLine a (p.1 ++ [' '] ++ p.2) = a ++ [p] := by
          obtain ⟨w1, w2, w3⟩ := hw p (by simp)
          have hp : parseLine (p.1 ++ [' '] ++ p.2) = some (p.1, p.2) := by
            rw [parseLine_iff]
            · exact ⟨[], [' '], [], by simp, by simp, w1, by simp [Spec.Space], by simp, w2, by simp⟩
            · obtain ⟨z1, z2⟩ := h0 p (by simp)
              simp [z1, z2]
          unfold readLine
          rw [hp]
          simp only
          have : (p.1.isEmpty || p.1.head? == some '#') = false := by simp [w1.1, w3]
          rw [this]
          simp only [Bool.false_eq_true, if_false]
          rw [assign_last]
          intro q hq
          exact (List.pairwise_append.1 ha).2.2 q hq p (by simp)
        rw [List.map_cons, List.foldl_cons, e, ih (a ++ [p]) (by simpa using ha) (fun q hq => hw q (by simp [hq]))
          (fun q hq => h0 q (by simp [hq]))]
        simp
    simpa using gen t [] (by simpa using hs) hw h0
  · intro l hl'
    rcases List.mem_append.1 hl' with hl' | hl'
    · obtain ⟨p, hp, rfl⟩ := List.mem_map.1 hl'
      have := hl p hp
      simp only [List.length_append, List.length_cons, List.length_nil]
      omega
    · simp at hl'; subst hl'; simp

/-- A table with one long parameter is not read back. -/
theorem C43_long (k v : Str) (hk : Spec.Word k) (hv : Spec.Word v) (hl : 1999 ≤ k.length + v.length) : read [] (write [(k, v)]) = [] := by
  have hn : ∀ l ∈ [k ++ [' '] ++ v], '\n' ∉ l := by
    intro l hl hc
    rw [List.mem_singleton] at hl
    subst hl
    simp only [List.append_assoc, List.mem_append, List.mem_singleton] at hc
    rcases hc with hc | hc | hc
    · exact hk.2 _ hc newline_space
    · cases hc
    · exact hv.2 _ hc newline_space
  have e : Spec.lines (write [(k, v)]) = [] ++ [k ++ [' '] ++ v, []] := by
    rw [write_eq]
    exact lines_flatMap _ hn
  rw [read_lines _ [] [] _ e (by simp)]
  · rfl
  · intro l hl'
    rw [List.head?_cons, Option.mem_def, Option.some.injEq] at hl'
    subst hl'
    simp only [List.length_append, List.length_cons, List.length_nil]
    omega

/-- The code violates C43 for long values: a parameter of 2000 characters is not read back. -/
theorem C43_violated : ¬ C43_statement := by
  intro h
  obtain ⟨v, hv, hl⟩ : ∃ v : Str, Spec.Word v ∧ v.length = 2000 := by
    refine ⟨List.replicate 2000 'x', ⟨fun e => ?_, fun c hc => ?_⟩, List.length_replicate⟩
    · have := congrArg List.length e
      rw [List.length_replicate] at this
      cases this
    · rw [List.eq_of_mem_replicate hc]
      simp [Spec.Space]
  have hk : Spec.Word ['a'] := ⟨by simp, by simp [Spec.Space]⟩
  have := h [(['a'], v)] ⟨by simp [Sorted], by
    intro p hp
    rw [List.mem_singleton] at hp
    subst hp
    exact ⟨hk, hv, by simp⟩⟩
  rw [C43_long _ _ hk hv (by simp [hl])] at this
  cases this

example : write [(['a'], ['1', '2']), (['b'], ['3'])] = ['a', ' ', '1', '2', '\n', 'b', ' ', '3', '\n'] ∧
    read [] (write [(['a'], ['1', '2']), (['b'], ['3'])]) = [(['a'], ['1', '2']), (['b'], ['3'])] := by decide +kernel

/-! ### C68: commented output is ignored -/

theorem readLine_comment (t : Table) (l : Str) (h : l.head? = some '#') : readLine t l = t := by
  cases l with
  | nil => cases h
  | cons c cs =>
    have hc : c = '#' := by simpa using h
    subst hc
    unfold readLine
    cases hp : parseLine ('#' :: cs) with
    | none => rfl
    | some p =>
      obtain ⟨a, b⟩ := p
      have ha : a.head? = some '#' := by
        unfold parseLine at hp
        have e : ('#' :: cs).takeWhile (fun c => c != '\x00') = '#' :: cs.takeWhile (fun c => c != '\x00') := rfl
        simp only [e] at hp
        cases hw : word ('#' :: cs.takeWhile (fun c => c != '\x00')) with
        | none => rw [hw] at hp; cases hp
        | some q =>
          obtain ⟨w, r⟩ := q
          rw [hw] at hp
          simp only [Option.bind_eq_bind, Option.bind_some] at hp
          cases hr : word r with
          | none => rw [hr] at hp; cases hp
          | some q =>
            rw [hr] at hp
            obtain ⟨rfl, -⟩ := Prod.mk.inj (Option.some.inj hp)
            obtain ⟨s1, hs, h1, ⟨h2, -⟩, -⟩ := (word_iff _ _ _).1 hw
            cases s1 with
            | nil =>
              cases w with
              | nil => exact absurd rfl h2
              | cons d ds => obtain ⟨rfl, -⟩ := List.cons.inj hs; rfl
            | cons d ds =>
              obtain ⟨rfl, -⟩ := List.cons.inj hs
              have := h1 '#' (by simp)
              simp [Spec.Space] at this
      simp [ha]

/-- C68: what `write(out, linePrefix)` writes with a prefix starting with '#' changes nothing when read. -/
theorem C68_prefix (t u : Table) (p : Str) (hp : p.head? = some '#') (hn : '\n' ∉ p)
    (hu : ∀ q ∈ u, '\n' ∉ q.1 ∧ '\n' ∉ q.2) : read t (writePrefix u p) = t := by
  have e : writePrefix u p = (u.map fun q => p ++ q.1 ++ [' '] ++ q.2).flatMap fun l => l ++ ['\n'] := by
    unfold writePrefix
    rw [List.flatMap_map]
  have hl : Spec.lines (writePrefix u p) = (u.map fun q => p ++ q.1 ++ [' '] ++ q.2) ++ [[]] := by
    rw [e, lines_flatMap]
    intro l hl
    obtain ⟨q, hq, rfl⟩ := List.mem_map.1 hl
    obtain ⟨h1, h2⟩ := hu q hq
    simp [hn, h1, h2]
  have key : ∀ (ls : List Str), (∀ l ∈ ls, l = [] ∨ l.head? = some '#') → ls.foldl readLine t = t := by
    intro ls
    induction ls with
    | nil => intro _; rfl
    | cons l ls ih =>
      intro h
      have : readLine t l = t := by
        rcases h l (by simp) with rfl | h
        · rfl
        · exact readLine_comment t l h
      rw [List.foldl_cons, this]
      exact ih fun l hl => h l (by simp [hl])
  rw [read_lines (writePrefix u p) t ((Spec.lines (writePrefix u p)).takeWhile fun l => decide (l.length ≤ 1999))
    ((Spec.lines (writePrefix u p)).dropWhile fun l => decide (l.length ≤ 1999)) List.takeWhile_append_dropWhile.symm
    (by
      intro l hl
      have := List.all_takeWhile (p := fun l : Str => decide (l.length ≤ 1999)) (l := Spec.lines (writePrefix u p))
      simpa using List.all_eq_true.1 this l hl)
    (by
      intro l hl
      have := List.head?_dropWhile_not (fun l : Str => decide (l.length ≤ 1999)) (Spec.lines (writePrefix u p))
      rw [Option.mem_def.1 hl] at this
      simpa using this)]
  apply key
  intro l hl'
  have := (List.takeWhile_prefix _).subset hl'
  rw [hl] at this
  rcases List.mem_append.1 this with h | h
  · right
    obtain ⟨q, -, rfl⟩ := List.mem_map.1 h
    cases p with
    | nil => cases hp
    | cons c cs => simpa using hp
  · left; simpa using h

example : writePrefix [(['a'], ['1'])] ['#', ' '] = ['#', ' ', 'a', ' ', '1', '\n'] ∧
    read [(['a'], ['0'])] (writePrefix [(['a'], ['1'])] ['#', ' ']) = [(['a'], ['0'])] := by decide +kernel

/-! ### C44: command line -/

/-- C44, full statement (strict standard behaviour of `isalpha`). -/
def C44_statement : Prop := ∀ (t : Table) (argv : List Str), ∃ t', readArgs strict t argv = .ok t' ∧
  ∀ k v, find t' k = some v ↔ Spec.ArgFinal argv (find t) k v

/-- C44 when `isalpha` answers false for the bytes above 127 that occur in the arguments (in particular when there are
none, whatever `isalpha` does with them). No argument beyond the last is read: such a read is an error in the model.
Missing: with the standard semantics of `isalpha` those bytes are undefined behaviour, see `C44_violated`. -/
theorem C44_readArgs_partial (hi : Char → Outcome Bool) (t : Table) (argv : List Str)
    (hhi : ∀ s ∈ argv, ∀ c ∈ s, 128 ≤ c.toNat → hi c = .ok false) : ∃ t', readArgs hi t argv = .ok t' ∧
      ∀ k v, find t' k = some v ↔ Spec.ArgFinal argv (find t) k v := by
  obtain ⟨t', h1, h2⟩ := readArgsFrom_spec hi argv hhi _ t 1 (by omega) rfl
  refine ⟨t', h1, fun k v => ?_⟩
  rw [h2]
  unfold Spec.ArgFinal
  constructor
  · rintro (⟨j, -, h, hl⟩ | ⟨hn, ho⟩)
    · exact Or.inl ⟨j, h, hl⟩
    · exact Or.inr ⟨fun i v' h => hn i h.1 v' h, ho⟩
  · rintro (⟨j, h, hl⟩ | ⟨hn, ho⟩)
    · exact Or.inl ⟨j, h.1, h, hl⟩
    · exact Or.inr ⟨fun j _ v' => hn j v', ho⟩

/-- C44: negative numbers are no options. -/
theorem C44_negative_number (d : Char) (r : Str) (h : d.isDigit = true ∨ d = '.') : ¬ Spec.IsOption ('-' :: d :: r) := by
  rintro ⟨name, h1, c, h2, h3⟩
  obtain ⟨-, rfl⟩ := List.cons.inj h1
  simp only [List.head?_cons, Option.mem_def, Option.some.injEq] at h2
  subst h2
  rcases h with h | rfl
  · simp only [Char.isDigit, Bool.and_eq_true, decide_eq_true_eq] at h
    rcases h3 with ⟨h3, -⟩ | ⟨h3, -⟩
    · have := UInt32.le_trans (show (65 : UInt32) ≤ _ from h3) h.2
      exact absurd this (by decide)
    · have := UInt32.le_trans (show (97 : UInt32) ≤ _ from h3) h.2
      exact absurd this (by decide)
  · revert h3; unfold Spec.Letter; decide

/-- The code violates C44: `isalpha` of a byte above 127. -/
theorem C44_violated : ¬ C44_statement := by
  intro h
  obtain ⟨t', h1, -⟩ := h [] [['p'], ['-', Char.ofNat 0xC3], ['x']]
  have : readArgs strict [] [['p'], ['-', Char.ofNat 0xC3], ['x']] = .error (.ub .outOfBounds) := by decide +kernel
  rw [this] at h1
  cases h1

example : readArgs strict [(['z'], ['9'])] [['p'], ['-', 'a'], ['1'], ['-', 'b'], ['-', 'a'], ['-', '7'], ['q'], ['-', 'c']] =
    .ok [(['a'], ['-', '7']), (['z'], ['9'])] := by decide +kernel

/-! ### C45: getParam and setParam -/

variable {Value : Type}

/-- C45, full statement: `r` is the result of `getParam`. -/
def C45_statement : Prop :=
  ∀ (Value : Type) (parse : Str → Option Value) (print : Value → Str) (t : Table) (k : Str) (value def_ : Value),
    (∀ s x, find t k = some s → parse s = some x → getParam parse print t k value def_ = (t, x, true)) ∧
    ((find t k = none ∨ ∃ s, find t k = some s ∧ parse s = none) →
      ∃ t', getParam parse print t k value def_ = (t', def_, false) ∧ find t' k = some (print def_) ∧ ∀ q, q ≠ k → find t' q = find t q)

/-- C45 without the parameters that exist and cannot be converted. -/
theorem C45_getParam_partial (parse : Str → Option Value) (print : Value → Str) (t : Table) (k : Str) (value def_ : Value) :
    (∀ s x, find t k = some s → parse s = some x → getParam parse print t k value def_ = (t, x, true)) ∧
    (find t k = none →
      ∃ t', getParam parse print t k value def_ = (t', def_, false) ∧ find t' k = some (print def_) ∧ ∀ q, q ≠ k → find t' q = find t q) := by
  constructor
  · intro s x h1 h2
    simp [getParam, h1, h2]
  · intro h
    refine ⟨setParam print t k def_, by simp [getParam, h], ?_, ?_⟩
    · simp [setParam, find_assign]
    · intro q hq; simp [setParam, find_assign, hq]

/-- What happens instead with a parameter that cannot be converted: the reference is left as it is, the result is true. -/
theorem C45_badCast (parse : Str → Option Value) (print : Value → Str) (t : Table) (k s : Str) (value def_ : Value)
    (h : find t k = some s) (hp : parse s = none) : getParam parse print t k value def_ = (t, value, true) := by
  simp [getParam, h, hp]

/-- C45: a parameter that was set is returned by the next `getParam`, the others are unaffected. -/
theorem C45_set_get (parse : Str → Option Value) (print : Value → Str) (hpp : ∀ x, parse (print x) = some x) (t : Table) (k : Str)
    (x value def_ : Value) : getParam parse print (setParam print t k x) k value def_ = (setParam print t k x, x, true) ∧
      (∀ q, q ≠ k → find (setParam print t k x) q = find t q) ∧ (Sorted t → Sorted (setParam print t k x)) := by
  refine ⟨?_, ?_, assign_sorted t k _⟩
  · simp [getParam, setParam, find_assign, hpp]
  · intro q hq; simp [setParam, find_assign, hq]

/-- A conversion for the examples: decimal digits. -/
def parseDigit : Str → Option ℕ
  | [c] => if c.isDigit then some (c.toNat - 48) else none
  | _ => none

/-- The code violates C45. -/
theorem C45_violated : ¬ C45_statement := by
  intro h
  obtain ⟨t', h1, -⟩ := (h ℕ parseDigit (fun _ => ['0']) [(['k'], ['x'])] ['k'] 7 5).2 (Or.inr ⟨['x'], rfl, rfl⟩)
  have h2 : (getParam parseDigit (fun _ => ['0']) [(['k'], ['x'])] ['k'] 7 5) = ([(['k'], ['x'])], 7, true) := rfl
  rw [h2] at h1
  have := (Prod.mk.inj (Prod.mk.inj h1).2).2
  cases this

example : getParam parseDigit (fun _ => ['0']) [(['k'], ['3'])] ['k'] 7 5 = ([(['k'], ['3'])], 3, true) := by decide

/-! ### C46, C69: containers -/

/-- C46: `ts` are the tokens of the parameter, or of the default string when it is missing. -/
theorem C46_container (parse : Str → Option Value) (t : Table) (k : Str) (range : List Value) (defaultString : Str)
    (def_ : Value) (delim : Str) (h0 : '\x00' ∉ delim) (ts : List Str) (hts : Spec.Tokens delim ((find t k).getD defaultString) ts) :
    ∃ t' out, getParamContainer parse t k range defaultString def_ delim = (t', out, (find t k).isSome) ∧
      out.length = range.length ∧
      (∀ (i : ℕ) v, out[i]? = some v →
        ((∀ j : ℕ, j ≤ i → ∃ s x, ts[j]? = some s ∧ parse s = some x) → ∃ s, ts[i]? = some s ∧ parse s = some v) ∧
        (¬ (∀ j : ℕ, j ≤ i → ∃ s x, ts[j]? = some s ∧ parse s = some x) → v = def_)) ∧
      find t' k = some ((find t k).getD defaultString) ∧ ∀ q, q ≠ k → find t' q = find t q := by
  have htok : tokens delim ((find t k).getD defaultString) = ts := by
    have e : (delim.takeWhile fun c => c != '\x00') = delim := by
      apply takeWhile_self
      intro c hc
      simp only [bne_iff_ne, ne_eq]
      rintro rfl
      exact h0 hc
    have := tokensFrom_spec delim ((find t k).getD defaultString) [] (by simp)
    unfold tokens
    rw [e]
    exact Spec.Tokens.unique (by simpa using this) hts
  have hfill : ∀ (ts : List Str) (range : List Value), (∀ v ∈ range, v = def_) →
      (fillLoop parse def_ ts range).length = range.length ∧
      ∀ (i : ℕ) v, (fillLoop parse def_ ts range)[i]? = some v →
        ((∀ j : ℕ, j ≤ i → ∃ s x, ts[j]? = some s ∧ parse s = some x) → ∃ s, ts[i]? = some s ∧ parse s = some v) ∧
        (¬ (∀ j : ℕ, j ≤ i → ∃ s x, ts[j]? = some s ∧ parse s = some x) → v = def_) := by
    intro ts
    induction ts with
    | nil =>
      intro range
      induction range with
      | nil => intro _; simp [fillLoop]
      | cons a as ih =>
        intro h
        obtain ⟨h1, h2⟩ := ih (fun v hv => h v (by simp [hv]))
        refine ⟨by simp [fillLoop, h1], fun i v hv => ⟨fun hj => ?_, fun _ => ?_⟩⟩
        · obtain ⟨s, x, hs, -⟩ := hj 0 (Nat.zero_le _)
          cases hs
        · cases i with
          | zero => simpa [fillLoop, eq_comm] using hv
          | succ i =>
            refine (h2 i v (by simpa [fillLoop] using hv)).2 ?_
            intro hj
            obtain ⟨s, x, hs, -⟩ := hj 0 (Nat.zero_le _)
            cases hs
    | cons s ss ih =>
      intro range
      cases range with
      | nil => intro _; simp [fillLoop]
      | cons a as =>
        intro h
        unfold fillLoop
        cases hp : parse s with
        | none =>
          refine ⟨rfl, fun i v hv => ⟨fun hj => ?_, fun _ => ?_⟩⟩
          · obtain ⟨s', x, hs, hx⟩ := hj 0 (Nat.zero_le _)
            simp only [List.getElem?_cons_zero, Option.some.injEq] at hs
            subst hs
            rw [hp] at hx
            cases hx
          · exact h v (List.mem_of_getElem? hv)
        | some x =>
          simp only
          obtain ⟨h1, h2⟩ := ih as (fun v hv => h v (by simp [hv]))
          refine ⟨by simp [h1], fun i v hv => ?_⟩
          cases i with
          | zero =>
            simp only [List.getElem?_cons_zero, Option.some.injEq] at hv
            subst hv
            refine ⟨fun _ => ⟨s, rfl, hp⟩, fun hn => absurd ?_ hn⟩
            intro j hj
            obtain rfl : j = 0 := by omega
            exact ⟨s, _, rfl, hp⟩
          | succ i =>
            rw [List.getElem?_cons_succ] at hv
            obtain ⟨a1, a2⟩ := h2 i v hv
            constructor
            · intro hj
              rw [List.getElem?_cons_succ]
              apply a1
              intro j hji
              have := hj (j + 1) (by omega)
              simpa using this
            · intro hn
              apply a2
              intro hj
              apply hn
              intro j hji
              cases j with
              | zero => exact ⟨s, x, rfl, hp⟩
              | succ j => simpa using hj j (by omega)
  have hmap : ∀ v ∈ range.map (fun _ => def_), v = def_ := by simp
  unfold getParamContainer fillWithTokens
  cases hf : find t k with
  | some s =>
    rw [hf] at htok
    simp only [Option.getD_some] at htok
    obtain ⟨h1, h2⟩ := hfill ts _ hmap
    refine ⟨_, _, rfl, ?_, ?_, by simp [hf], fun _ _ => rfl⟩
    · rw [htok, h1]; simp
    · rw [htok]; exact h2
  | none =>
    rw [hf] at htok
    simp only [Option.getD_none] at htok
    obtain ⟨h1, h2⟩ := hfill ts _ hmap
    refine ⟨_, _, rfl, ?_, ?_, by simp [find_assign], fun q hq => by simp [find_assign, hq]⟩
    · rw [htok, h1]; simp
    · rw [htok]; exact h2

/-- Every string has tokens (and only one list of them, `Spec.Tokens.unique`). -/
theorem C46_tokens_exist (delim s : Str) : ∃ ts, Spec.Tokens delim s ts :=
  ⟨_, by simpa using tokensFrom_spec delim s [] (by simp)⟩

/-- C69: the inserter gets the values of the longest convertible prefix of the tokens; a missing parameter is set to the empty
string and nothing is inserted. -/
theorem C69_inserter (parse : Str → Option Value) (t : Table) (k delim : Str) (h0 : '\x00' ∉ delim) :
    (∀ s ts, find t k = some s → Spec.Tokens delim s ts → ∃ out n, getParamContainerInserter parse t k delim = (t, out, true) ∧
      n ≤ ts.length ∧ (ts.take n).map parse = out.map some ∧ ∀ x ∈ ts[n]?, parse x = none) ∧
    (find t k = none → ∃ t', getParamContainerInserter parse t k delim = (t', [], false) ∧ find t' k = some [] ∧
      ∀ q, q ≠ k → find t' q = find t q) := by
  constructor
  · intro s ts hf hts
    have htok : tokens delim s = ts := by
      have e : (delim.takeWhile fun c => c != '\x00') = delim := by
        apply takeWhile_self
        intro c hc
        simp only [bne_iff_ne, ne_eq]
        rintro rfl
        exact h0 hc
      have := tokensFrom_spec delim s [] (by simp)
      unfold tokens
      rw [e]
      exact Spec.Tokens.unique (by simpa using this) hts
    have hl : ∀ ts : List Str, ∃ n, n ≤ ts.length ∧ (ts.take n).map parse = (insertLoop parse ts).map some ∧ ∀ x ∈ ts[n]?, parse x = none := by
      intro ts
      induction ts with
      | nil => exact ⟨0, by simp [insertLoop]⟩
      | cons s ss ih =>
        unfold insertLoop
        cases hp : parse s with
        | none => exact ⟨0, by simp [hp]⟩
        | some x =>
          obtain ⟨n, h1, h2, h3⟩ := ih
          exact ⟨n + 1, by simpa using h1, by simp [hp, h2], by simpa using h3⟩
    obtain ⟨n, h1, h2, h3⟩ := hl ts
    exact ⟨insertLoop parse ts, n, by simp [getParamContainerInserter, hf, htok], h1, h2, h3⟩
  · intro hf
    exact ⟨assign t k [], by simp [getParamContainerInserter, hf], by simp [find_assign], fun q hq => by simp [find_assign, hq]⟩

/-- The delimiters of the default argument. -/
def exDelim : Str := ['[', ']', ',']

example : getParamContainer parseDigit [(['k'], ['[', '1', ',', ',', '2', ',', 'x', ',', '3', ']'])] ['k'] [7, 7, 7, 7] [] 5 exDelim =
    ([(['k'], ['[', '1', ',', ',', '2', ',', 'x', ',', '3', ']'])], [1, 2, 5, 5], true) := by decide

example : (getParamContainerInserter parseDigit [(['k'], ['[', '1', ',', ',', '2', ',', 'x', ',', '3', ']'])] ['k'] exDelim).2 =
    ([1, 2], true) := by decide

/-! ### C47: adaptTildeInPaths -/

/-- C47, full statement: `~/` in front of a value is replaced by the home directory. -/
def C47_statement : Prop := ∀ (home : Str) (t : Table), Sorted t → ∃ t', adaptTildeInPaths (some home) t = .ok t' ∧
  ∀ k, find t' k = (find t k).map fun v =>
    match v with
    | '~' :: '/' :: r => home ++ '/' :: r
    | v => v

/-- C47 restricted to tables where no value starts with a tilde: nothing changes. Missing: everything else. -/
theorem C47_noTilde_partial (home : Str) (t : Table) (h : ∀ p ∈ t, p.2.head? ≠ some '~') : adaptTildeInPaths (some home) t = .ok t := by
  have gen : ∀ (r : Table), (∀ p ∈ r, p.2.head? ≠ some '~') → adaptLoop (some home) t r = .ok t := by
    intro r
    induction r with
    | nil => intro _; rfl
    | cons p r ih =>
      intro h
      obtain ⟨a, b⟩ := p
      have hb : rfindTildeZero b = false := by
        have := h (a, b) (by simp)
        cases b with
        | nil => rfl
        | cons c cs =>
          have hc : c ≠ '~' := by simpa using this
          simp [rfindTildeZero, hc]
      simp only [adaptLoop, hb]
      exact ih fun p hp => h p (by simp [hp])
  exact gen t h

/-- Whenever a value has its only tilde in front, the loop is undefined behaviour: the iterator is incremented after its
element was erased. -/
theorem C47_tilde_violated (home : Option Str) (t : Table) (p : Str × Str) (hp : p ∈ t) (r : Str) (hr : p.2 = '~' :: r)
    (hr' : '~' ∉ r) : ∃ k, adaptTildeInPaths home t = .error (.ub k) := by
  have gen : ∀ (u : Table), p ∈ u → ∃ k, adaptLoop home t u = .error (.ub k) := by
    intro u
    induction u with
    | nil => intro h; cases h
    | cons q u ih =>
      intro h
      obtain ⟨a, b⟩ := q
      unfold adaptLoop
      cases home with
      | none => exact ⟨_, rfl⟩
      | some hm =>
        simp only
        split
        · exact ⟨_, rfl⟩
        · rename_i hb
          rcases List.mem_cons.1 h with rfl | h
          · refine absurd ?_ hb
            have hr : b = '~' :: r := hr
            subst hr
            simp [rfindTildeZero, hr']
          · exact ih h
  exact gen t hp

/-- The code violates C47 by the undefined behaviour above, and also without it: a second tilde prevents the expansion. -/
theorem C47_violated : ¬ C47_statement ∧
    adaptTildeInPaths (some ['/', 'h']) [(['k'], ['~', '/', 'x', '~'])] = .ok [(['k'], ['~', '/', 'x', '~'])] := by
  refine ⟨fun h => ?_, by decide⟩
  obtain ⟨t', h1, -⟩ := h ['/', 'h'] [(['k'], ['~', '/', 'x'])] (by simp [Sorted])
  obtain ⟨k, hk⟩ := C47_tilde_violated (some ['/', 'h']) [(['k'], ['~', '/', 'x'])] (['k'], ['~', '/', 'x']) (by simp) ['/', 'x'] rfl (by decide)
  rw [hk] at h1
  cases h1

example : adaptTildeInPaths (some ['/', 'h']) [(['a'], ['/', 'x']), (['b'], ['y', '~'])] = .ok [(['a'], ['/', 'x']), (['b'], ['y', '~'])] := by
  decide

end Verif.ParamMap
