import Verif.ParamMap.Props

/-!
Model of `ParamMap::write(std::string&)` (common/src/param_map.cpp), and C103. A file system with a limited space: at most `space` characters of a file are stored, the
failure of the stream is not checked by the code. `none`: the file cannot be opened.
-/
namespace Verif.ParamMap

/-- The file after `write(filename)` and its result, param_map.cpp:113-122; `file` is the previous content, `canOpen` whether it can be opened for writing. -/
def writeFile (t : Table) (file : Option Str) (canOpen : Bool) (space : Nat) : Option Str × Bool :=
  if !canOpen then (file, false)
  else (some ((write t).take space), true)

/-- C103, full statement: when `write(filename)` returns true, `read(filename)` gives the table back, otherwise the file is not changed. -/
def C103_statement : Prop := ∀ t file canOpen space, Writable t → (∀ p ∈ t, '\x00' ∉ p.1 ∧ '\x00' ∉ p.2) → (∀ p ∈ t, p.1.length + p.2.length ≤ 1998) →
  ((writeFile t file canOpen space).2 = true → readFile [] (writeFile t file canOpen space).1 = (t, true)) ∧
  ((writeFile t file canOpen space).2 = false → (writeFile t file canOpen space).1 = file)

/-- C103, part: there is enough space. Missing: a full disk, see `C103_full_violated`. -/
theorem C103_file_partial (t : Table) (file : Option Str) (canOpen : Bool) (space : ℕ) (h : Writable t) (h0 : ∀ p ∈ t, '\x00' ∉ p.1 ∧ '\x00' ∉ p.2)
    (hl : ∀ p ∈ t, p.1.length + p.2.length ≤ 1998) (hs : (write t).length ≤ space) :
    ((writeFile t file canOpen space).2 = true ↔ canOpen = true) ∧
    ((writeFile t file canOpen space).2 = true → readFile [] (writeFile t file canOpen space).1 = (t, true)) ∧
    ((writeFile t file canOpen space).2 = false → (writeFile t file canOpen space).1 = file) := by
  cases canOpen
  · exact ⟨by simp [writeFile], fun h => absurd h (by simp [writeFile]), fun _ => rfl⟩
  · refine ⟨by simp [writeFile], fun _ => ?_, fun h => absurd h (by simp [writeFile])⟩
    show readFile [] (some ((write t).take space)) = _
    rw [List.take_of_length_le hs]
    show (read [] (write t), true) = _
    rw [C43_roundtrip_partial t h h0 hl]

/-- On a full disk the text is lost but the result is true, for every table. -/
theorem C103_full_violated (t : Table) (file : Option Str) : writeFile t file true 0 = (some [], true) ∧ readFile [] (some []) = ([], true) := by
  refine ⟨by simp [writeFile], ?_⟩
  have := C43_roundtrip_partial [] ⟨by simp [Sorted], by simp⟩ (by simp) (by simp)
  show (read [] [], true) = _
  rw [show read [] [] = [] from this]

theorem C103_violated : ¬ C103_statement := by
  intro h
  obtain ⟨h1, h2⟩ := C103_full_violated [(['a'], ['1'])] none
  have := (h [(['a'], ['1'])] none true 0 ⟨by simp [Sorted], by simp [Spec.Word, Spec.Space]⟩ (by simp) (by simp)).1 (by rw [h1])
  rw [h1, h2] at this
  simp at this

example : writeFile [(['a'], ['1']), (['b'], ['2'])] none true 100 = (some "a 1\nb 2\n".toList, true) ∧ writeFile [(['a'], ['1'])] (some ['x']) false 100 = (some ['x'], false) := by decide +kernel

end Verif.ParamMap
