import Verif.ParamMap.ConfigProps
import Mathlib.Data.Nat.Find

/-! Exact condition of C151 (see properties.jsonl). -/
namespace Verif.ParamMap
open Verif

theorem inText_or (text k : Str) : NotInText text k ∨ ∃ v, InText text k v := by
  by_cases h : NotInText text k
  · exact Or.inl h
  · right
    simp only [NotInText, not_forall, not_not] at h
    obtain ⟨l, hl, v, hv⟩ := h
    have ex : ∃ n, ∃ (l' : Str) (v' : Str), (Spec.lines text)[(Spec.lines text).length - n]? = some l' ∧ Spec.Assigns l' k v' := by
      obtain ⟨i, hi, rfl⟩ := List.getElem_of_mem hl
      exact ⟨(Spec.lines text).length - i, _, v, by rw [show (Spec.lines text).length - ((Spec.lines text).length - i) = i by omega, List.getElem?_eq_getElem hi], hv⟩
    classical
    obtain ⟨l', v', h1, h2⟩ := Nat.find_spec ex
    refine ⟨v', _, l', h1, h2, fun j l'' hj hl'' v'' hv'' => ?_⟩
    have hj' : j < (Spec.lines text).length := (List.getElem?_eq_some_iff.1 hl'').1
    refine Nat.find_min ex (m := (Spec.lines text).length - j) (by omega) ⟨l'', v'', ?_, hv''⟩
    rw [show (Spec.lines text).length - ((Spec.lines text).length - j) = j by omega]
    exact hl''

theorem inText_not {text k v : Str} (h : InText text k v) : ¬ NotInText text k := by
  obtain ⟨i, l, h1, h2, -⟩ := h
  exact fun g => g l (List.mem_of_getElem? h1) v h2

/-- C151, exactly: the command line has precedence in a run of a program if and only if the program reads it again, or no parameter has different values on the command line and in the file. -/
theorem C151_iff (p : Program) {files : Str → Option Str} {argv : List Str} {name text : Str} (h : Readable files argv name text) :
    (∃ t, p.configure files argv = .ok t ∧ Gets t (LineFirst argv text)) ↔
      p = .mortonOrder ∨ p = .correspondenceGraph ∨ p = .houghPlaneDetector ∨ ∀ k v v', k ≠ cfgName → OnLine argv k v → InText text k v' → v = v' := by
  by_cases hp : p = .tlsScalarConsensus ∨ p = .mortonFunctions
  · have hp' : (p = .mortonOrder ∨ p = .correspondenceGraph ∨ p = .houghPlaneDetector ∨ ∀ k v v', k ≠ cfgName → OnLine argv k v → InText text k v' → v = v') ↔
        ∀ k v v', k ≠ cfgName → OnLine argv k v → InText text k v' → v = v' := by
      rcases hp with rfl | rfl <;> simp
    rw [hp']
    obtain ⟨t, e, g⟩ := C151_reversed_violated p hp h
    constructor
    · rintro ⟨t', e', g'⟩ k v v' hk hv hv'
      obtain rfl := Except.ok.inj (e.symm.trans e')
      have h1 := ((g' k hk).1 v).2 (Or.inl hv)
      have h2 := ((g k hk).1 v').2 (Or.inl hv')
      exact Option.some.inj (h1.symm.trans h2)
    · intro hd
      refine ⟨t, e, gets_of fun k hk v => ?_⟩
      rw [(g k hk).1 v]
      constructor
      · rintro (hv | ⟨hn, hv⟩)
        · by_cases hl : NotOnLine argv k
          · exact Or.inr ⟨hl, hv⟩
          · obtain ⟨t1, -, h1⟩ := (C44_iff [] argv).1.2 h.args
            cases hf : find t1 k with
            | none =>
              exfalso
              apply hl
              intro i v' hi
              have hex : ∃ w, OnLine argv k w := by
                by_contra hno
                have : ∀ n, ∀ i, argv.length - i ≤ n → ∀ v', ¬ Spec.ArgSets argv i k v' := by
                  intro n
                  induction n with
                  | zero =>
                    intro i hi v' ha
                    have := (List.getElem?_eq_some_iff.1 ha.2.2.1).1
                    omega
                  | succ n ih =>
                    intro i hi v' ha
                    exact hno ⟨v', i, ha, fun j hj v'' => by
                      by_cases hjl : j < argv.length
                      · exact ih j (by omega) v''
                      · intro ha'
                        have := (List.getElem?_eq_some_iff.1 ha'.2.2.1).1
                        omega⟩
                exact this _ i le_rfl v' hi
              obtain ⟨w, hw⟩ := hex
              have := (h1 k w).2 (Or.inl hw)
              rw [hf] at this
              cases this
            | some w =>
              rcases (h1 k w).1 hf with hw | ⟨-, hw⟩
              · exact Or.inl (hd k w v hk hw hv ▸ hw)
              · cases hw
        · exact Or.inl hv
      · rintro (hv | ⟨hn, hv⟩)
        · rcases inText_or text k with hi | ⟨w, hw⟩
          · exact Or.inr ⟨hi, hv⟩
          · exact Or.inl (hd k v w hk hv hw ▸ hw)
        · exact Or.inl hv
  · have hp1 : p ≠ .tlsScalarConsensus := fun h => hp (Or.inl h)
    have hp2 : p ≠ .mortonFunctions := fun h => hp (Or.inr h)
    refine ⟨fun _ => ?_, fun _ => C151_precedence_partial p hp1 hp2 h⟩
    cases p <;> simp_all

/-- A command line and a file that agree. -/
example : Program.tlsScalarConsensus.configure (fun s => if s = ['f'] then some ['r', ' ', '1', '\n', 's', ' ', '3', '\n'] else none) exConf =
    Program.houghPlaneDetector.configure (fun s => if s = ['f'] then some ['r', ' ', '1', '\n', 's', ' ', '3', '\n'] else none) exConf := by decide +kernel

end Verif.ParamMap
