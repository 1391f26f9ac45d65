import Verif.ParamMap.ConfigModel
import Verif.ParamMap.ArgProps

/-! Property theorems C151 (see properties.jsonl): the command line, the configuration file and the default values of the programs. -/
namespace Verif.ParamMap
open Verif

/-- The command line gives `k` the value `v`: the last option `-k` with a value decides. -/
def OnLine (argv : List Str) (k v : Str) : Prop := ∃ i, Spec.ArgSets argv i k v ∧ ∀ j, i < j → ∀ v', ¬ Spec.ArgSets argv j k v'

/-- The command line does not mention `k`. -/
def NotOnLine (argv : List Str) (k : Str) : Prop := ∀ i v', ¬ Spec.ArgSets argv i k v'

/-- The text of the file gives `k` the value `v`: the last line that assigns it decides. -/
def InText (text k v : Str) : Prop := ∃ i l, (Spec.lines text)[i]? = some l ∧ Spec.Assigns l k v ∧
  ∀ (j : ℕ) (l' : Str), i < j → (Spec.lines text)[j]? = some l' → ∀ v', ¬ Spec.Assigns l' k v'

/-- The text of the file does not mention `k`. -/
def NotInText (text k : Str) : Prop := ∀ l ∈ Spec.lines text, ∀ v', ¬ Spec.Assigns l k v'

/-- The command line has precedence over the file. -/
def LineFirst (argv : List Str) (text k v : Str) : Prop := OnLine argv k v ∨ (NotOnLine argv k ∧ InText text k v)

/-- The file has precedence over the command line. -/
def FileFirst (argv : List Str) (text k v : Str) : Prop := InText text k v ∨ (NotInText text k ∧ OnLine argv k v)

/-- The configuration file is the one of the option `-cfg`; without the option there is no name. -/
def ConfigFile (argv : List Str) (name : Str) : Prop := OnLine argv cfgName name ∨ (NotOnLine argv cfgName ∧ name = [])

/-- The conditions of C42 and C44: no dash before a byte above 127, and a file of lines of at most 1999 bytes without zero bytes; no file has an empty name. A file that cannot be opened
is as good as an empty one. -/
structure Readable (files : Str → Option Str) (argv : List Str) (name text : Str) : Prop where
  args : ∀ i, ¬ BadArg argv i
  noName : files [] = none
  config : ConfigFile argv name
  content : text = (files name).getD []
  zero : '\x00' ∉ text
  short : ∀ l ∈ Spec.lines text, l.length ≤ 1999

/-- What the program gets for the parameter `k` from the values described by `V`: the value, converted, or the default value when there is none. -/
def Gets (t : Table) (V : Str → Str → Prop) : Prop :=
  ∀ k, k ≠ cfgName → (∀ v, find t k = some v ↔ V k v) ∧
    ∀ (Value : Type) (parse : Str → Option Value) (print : Value → Str) (value def_ : Value),
      (∀ v x, V k v → parse v = some x → (getParam parse print t k value def_).2 = (x, true)) ∧
      ((∀ v, ¬ V k v) → (getParam parse print t k value def_).2 = (def_, false))

theorem gets_of {t : Table} {V : Str → Str → Prop} (h : ∀ k, k ≠ cfgName → ∀ v, find t k = some v ↔ V k v) : Gets t V := by
  intro k hk
  refine ⟨h k hk, fun Value parse print value def_ => ⟨fun v x hv hx => ?_, fun hn => ?_⟩⟩
  · rw [((C45_getParam_partial parse print t k value def_).1 v x ((h k hk v).2 hv) hx)]
  · have : find t k = none := by
      cases e : find t k with
      | none => rfl
      | some v => exact absurd ((h k hk v).1 e) (hn v)
    obtain ⟨t', e, -⟩ := (C45_getParam_partial parse print t k value def_).2 this
    rw [e]

/-- C151: in every program the command line has precedence over the configuration file, and the file over the default values. -/
def C151_statement : Prop :=
  ∀ (p : Program) (files : Str → Option Str) (argv : List Str) (name text : Str), Readable files argv name text →
    ∃ t, p.configure files argv = .ok t ∧ Gets t (LineFirst argv text)

theorem onLine_unique {argv : List Str} {k v v' : Str} (h : OnLine argv k v) (h' : OnLine argv k v') : v = v' := by
  obtain ⟨i, hi, li⟩ := h
  obtain ⟨j, hj, lj⟩ := h'
  rcases Nat.lt_trichotomy i j with g | rfl | g
  · exact absurd hj (li j g v')
  · exact Option.some.inj (hi.2.2.1.symm.trans hj.2.2.1)
  · exact absurd hi (lj i g v)

/-- The table before the second reading of the command line. -/
theorem firstPart {files : Str → Option Str} {argv : List Str} {name text : Str} (h : Readable files argv name text) (p : Program) :
    ∃ t, (p.configure files argv = if p.again then readArgs strict t argv else .ok t) ∧ ∀ k, k ≠ cfgName → ∀ v, find t k = some v ↔ FileFirst argv text k v := by
  obtain ⟨t1, e1, h1⟩ := (C44_iff [] argv).1.2 h.args
  have h1' : ∀ k v, find t1 k = some v ↔ OnLine argv k v := by
    intro k v
    rw [h1]
    constructor
    · rintro (g | ⟨-, g⟩)
      · exact g
      · cases g
    · exact Or.inl
  obtain ⟨t2, e2, h2⟩ : ∃ t2, (∃ b, getParam some id t1 cfgName [] [] = (t2, name, b)) ∧ ∀ k, k ≠ cfgName → find t2 k = find t1 k := by
    rcases h.config with hc | ⟨hc, rfl⟩
    · refine ⟨t1, ⟨true, ?_⟩, fun _ _ => rfl⟩
      exact (C45_getParam_partial some id t1 cfgName [] []).1 name name ((h1' _ _).2 hc) rfl
    · have : find t1 cfgName = none := by
        cases e : find t1 cfgName with
        | none => rfl
        | some v =>
          obtain ⟨i, hi, -⟩ := (h1' _ _).1 e
          exact absurd hi (hc i v)
      obtain ⟨t2, g1, -, g2⟩ := (C45_getParam_partial some id t1 cfgName [] []).2 this
      exact ⟨t2, ⟨false, g1⟩, g2⟩
  obtain ⟨b, e2⟩ := e2
  refine ⟨if p.skipsEmpty && name.isEmpty then t2 else (readFile t2 (files name)).1, ?_, fun k hk v => ?_⟩
  · have hbind : ∀ f : Table → Outcome Table, ((Except.ok t1 : Outcome Table) >>= f) = f t1 := fun _ => rfl
    simp only [Program.configure, e1, hbind, e2]
    rfl
  · have key : find (if p.skipsEmpty && name.isEmpty then t2 else (readFile t2 (files name)).1) k = find (read t2 text) k ∨
        (text = [] ∧ find (if p.skipsEmpty && name.isEmpty then t2 else (readFile t2 (files name)).1) k = find t2 k) := by
      split
      · next hs =>
        have : name = [] := by
          rw [Bool.and_eq_true] at hs
          exact List.isEmpty_iff.1 hs.2
        exact Or.inr ⟨by rw [h.content, this, h.noName]; rfl, rfl⟩
      · cases e : files name with
        | none => exact Or.inr ⟨by rw [h.content, e]; rfl, by rw [(C42_file t2 none).2.1 rfl]⟩
        | some s => exact Or.inl (by rw [(C42_file t2 (some s)).2.2 s rfl, h.content, e]; rfl)
    have fin : find (if p.skipsEmpty && name.isEmpty then t2 else (readFile t2 (files name)).1) k = some v ↔ Spec.Final (Spec.lines text) (find t2) k v := by
      rcases key with g | ⟨g0, g⟩
      · rw [g, C42_read t2 text h.zero h.short]
      · rw [g]
        have no : ∀ l ∈ Spec.lines text, ∀ v', ¬ Spec.Assigns l k v' := by
          rw [g0]
          intro l hl v' ha
          obtain rfl : l = [] := by simpa [Spec.lines] using hl
          obtain ⟨s1, s2, rest, e, -, hw, -⟩ := ha.1
          have : k = [] := by
            have := congrArg List.length e
            simp only [List.length_nil, List.length_append] at this
            exact List.length_eq_zero_iff.1 (by omega)
          exact hw.1 this
        constructor
        · exact fun e => Or.inr ⟨no, e⟩
        · rintro (⟨i, l, hl, ha, -⟩ | ⟨-, e⟩)
          · exact absurd ha (no l (List.mem_of_getElem? hl) v)
          · exact e
    rw [fin]
    unfold Spec.Final FileFirst
    rw [h2 k hk, h1']
    rfl

/-- C151, the part that holds: the programs that read the command line again after the file. Missing: `test_tls_scalar_consensus` and `test_morton_functions`, for which it is
false, see `C151_violated`. -/
theorem C151_precedence_partial (p : Program) (hp : p ≠ .tlsScalarConsensus) (hp' : p ≠ .mortonFunctions) {files : Str → Option Str} {argv : List Str} {name text : Str}
    (h : Readable files argv name text) : ∃ t, p.configure files argv = .ok t ∧ Gets t (LineFirst argv text) := by
  obtain ⟨t, e, ht⟩ := firstPart h p
  have ha : p.again = true := by cases p <;> first | rfl | exact absurd rfl hp | exact absurd rfl hp'
  rw [ha, if_pos rfl] at e
  obtain ⟨t', e', h'⟩ := (C44_iff t argv).1.2 h.args
  refine ⟨t', e.trans e', gets_of fun k hk v => ?_⟩
  rw [h']
  unfold Spec.ArgFinal LineFirst
  rw [ht k hk v]
  refine or_congr Iff.rfl (and_congr_right fun hn => ⟨?_, Or.inl⟩)
  rintro (g | ⟨-, i, hi, -⟩)
  · exact g
  · exact absurd hi (hn i v)

/-- The other two programs give the precedence to the file: an option of the command line has no effect when the file mentions it. -/
theorem C151_reversed_violated (p : Program) (hp : p = .tlsScalarConsensus ∨ p = .mortonFunctions) {files : Str → Option Str} {argv : List Str} {name text : Str}
    (h : Readable files argv name text) : ∃ t, p.configure files argv = .ok t ∧ Gets t (FileFirst argv text) := by
  obtain ⟨t, e, ht⟩ := firstPart h p
  have ha : p.again = false := by rcases hp with rfl | rfl <;> rfl
  rw [ha, if_neg (by simp)] at e
  exact ⟨t, e, gets_of ht⟩

/-- The command line `p -cfg f -r 1`. -/
def exConf : List Str := [['p'], ['-', 'c', 'f', 'g'], ['f'], ['-', 'r'], ['1']]

/-- The file `f` is the line `r 2` and the line `s 3`. -/
def exFiles : Str → Option Str := fun s => if s = ['f'] then some ['r', ' ', '2', '\n', 's', ' ', '3', '\n'] else none

/-- C151 fails: with `p -cfg f -r 1` the parameter `r` of `test_tls_scalar_consensus` is the one of the file. -/
theorem C151_violated : ¬ C151_statement := by
  intro h
  have e1 : readArgs strict [] exConf = .ok [(cfgName, ['f']), (['r'], ['1'])] := by decide +kernel
  have hb : ∀ i, ¬ BadArg exConf i := fun i hi => by
    have := (C44_iff [] exConf).2.1 ⟨i, hi⟩
    rw [e1] at this
    cases this
  obtain ⟨t1, e1', h1⟩ := (C44_iff [] exConf).1.2 hb
  obtain rfl := Except.ok.inj (e1.symm.trans e1')
  have on : ∀ k v, find [(cfgName, ['f']), (['r'], ['1'])] k = some v → OnLine exConf k v := by
    intro k v hk
    rcases (h1 k v).1 hk with g | ⟨-, g⟩
    · exact g
    · cases g
  have hr : Readable exFiles exConf ['f'] ['r', ' ', '2', '\n', 's', ' ', '3', '\n'] :=
    ⟨hb, by decide, Or.inl (on _ _ (by decide +kernel)), by decide, by decide, by decide⟩
  obtain ⟨t, e, g⟩ := h .tlsScalarConsensus exFiles exConf _ _ hr
  have e' : Program.tlsScalarConsensus.configure exFiles exConf = .ok [(cfgName, ['f']), (['r'], ['2']), (['s'], ['3'])] := by decide +kernel
  obtain rfl := Except.ok.inj (e.symm.trans e')
  have := ((g ['r'] (by decide)).1 ['1']).2 (Or.inl (on _ _ (by decide +kernel)))
  exact absurd this (by decide +kernel)

example : Program.correspondenceGraph.configure exFiles exConf = .ok [(cfgName, ['f']), (['r'], ['1']), (['s'], ['3'])] ∧
    Program.tlsScalarConsensus.configure exFiles exConf = .ok [(cfgName, ['f']), (['r'], ['2']), (['s'], ['3'])] ∧
    Program.mortonOrder.configure exFiles [['p'], ['-', 'r'], ['1']] = .ok [(cfgName, []), (['r'], ['1'])] := by decide +kernel

end Verif.ParamMap
