import Verif.ParamMap.Props

/-! Property theorem C43 (see properties.jsonl): what is read back from a written table. -/
namespace Verif.ParamMap
open Verif

/-- C43: of a written table the parameters before the first line of 2000 characters or more are read back, and no others; so the table is read back exactly
when there is no such line. -/
theorem C43_iff (t : Table) (h : Writable t) (h0 : ∀ p ∈ t, '\x00' ∉ p.1 ∧ '\x00' ∉ p.2) :
    read [] (write t) = (t.takeWhile fun p => decide (p.1.length + p.2.length ≤ 1998)) ∧
    (read [] (write t) = t ↔ ∀ p ∈ t, p.1.length + p.2.length ≤ 1998) := by
  have hmain : read [] (write t) = (t.takeWhile fun p => decide (p.1.length + p.2.length ≤ 1998)) := by
    have hnl : ∀ s : Table, (∀ p ∈ s, p ∈ t) → ∀ l ∈ s.map (fun p => p.1 ++ [' '] ++ p.2), '\n' ∉ l := by
      intro s hs l hl' hc
      obtain ⟨p, hp, rfl⟩ := List.mem_map.1 hl'
      obtain ⟨h1, h2, -⟩ := h.2 p (hs p hp)
      simp only [List.append_assoc, List.mem_append, List.mem_singleton] at hc
      rcases hc with hc | hc | hc
      · exact h1.2 _ hc newline_space
      · cases hc
      · exact h2.2 _ hc newline_space
    set q : Str × Str → Bool := fun p => decide (p.1.length + p.2.length ≤ 1998) with hq
    have hsub : ∀ p ∈ t.takeWhile q, p ∈ t := fun p hp => (List.takeWhile_sublist q).subset hp
    have hshort : ∀ p ∈ t.takeWhile q, p.1.length + p.2.length ≤ 1998 := by
      intro p hp
      have := List.all_eq_true.1 (List.all_takeWhile (p := q) (l := t)) p hp
      simpa [hq] using this
    have hlen : ∀ l ∈ (t.takeWhile q).map (fun p => p.1 ++ [' '] ++ p.2), l.length ≤ 1999 := by
      intro l hl
      obtain ⟨p, hp, rfl⟩ := List.mem_map.1 hl
      have := hshort p hp
      simp only [List.length_append, List.length_cons, List.length_nil]
      omega
    have hpart := C43_roundtrip_partial (t.takeWhile q) ⟨h.1.sublist (List.takeWhile_sublist q), fun p hp => h.2 p (hsub p hp)⟩
      (fun p hp => h0 p (hsub p hp)) hshort
    cases hd : t.dropWhile q with
    | nil =>
      have e := List.takeWhile_append_dropWhile (p := q) (l := t)
      rw [hd, List.append_nil] at e
      rw [e] at hpart ⊢
      exact hpart
    | cons x rest =>
      have hx : 1999 ≤ x.1.length + x.2.length := by
        have := List.head?_dropWhile_not q t
        rw [hd] at this
        simp only [List.head?_cons, hq] at this
        simpa [Nat.lt_iff_add_one_le] using this
      have e := List.takeWhile_append_dropWhile (p := q) (l := t)
      rw [hd] at e
      rw [write_eq, read_lines _ [] _ [] (by rw [lines_flatMap _ (hnl _ hsub), List.append_nil]) ?_ (by simp), List.foldl_append, List.foldl_cons,
        List.foldl_nil, readLine_nil] at hpart
      · rw [write_eq, read_lines _ [] ((t.takeWhile q).map fun p => p.1 ++ [' '] ++ p.2) ((x :: rest).map (fun p => p.1 ++ [' '] ++ p.2) ++ [[]]) ?_ hlen ?_]
        · exact hpart
        · rw [lines_flatMap _ (hnl t fun p hp => hp), ← List.append_assoc, ← List.map_append, e]
        · intro l hl
          rw [List.map_cons, List.cons_append, List.head?_cons, Option.mem_def, Option.some.injEq] at hl
          subst hl
          simp only [List.length_append, List.length_cons, List.length_nil]
          omega
      · intro l hl
        rcases List.mem_append.1 hl with hl | hl
        · exact hlen l hl
        · simp at hl; subst hl; simp
  refine ⟨hmain, fun he p hp => ?_, C43_roundtrip_partial t h h0⟩
  rw [hmain] at he
  have h1 := List.all_takeWhile (p := fun p : Str × Str => decide (p.1.length + p.2.length ≤ 1998)) (l := t)
  rw [he] at h1
  simpa using List.all_eq_true.1 h1 p hp

/-- A table of three parameters, the second of which is too long: only the first is read back. -/
example (v : Str) (hv : Spec.Word v) (h0 : '\x00' ∉ v) (hl : v.length = 2000) :
    read [] (write [(['a'], ['1']), (['b'], v), (['c'], ['3'])]) = [(['a'], ['1'])] := by
  have hw : ∀ c, c = 'a' ∨ c = 'b' ∨ c = 'c' ∨ c = '1' ∨ c = '3' → Spec.Word [c] := by
    rintro c (rfl | rfl | rfl | rfl | rfl) <;> exact ⟨by simp, by simp [Spec.Space]⟩
  rw [(C43_iff _ ⟨by simp [Sorted]; decide, ?_⟩ ?_).1]
  · simp [List.takeWhile, hl]
  · intro p hp
    simp only [List.mem_cons, List.not_mem_nil, or_false] at hp
    rcases hp with rfl | rfl | rfl
    · exact ⟨hw _ (by simp), hw _ (by simp), by simp⟩
    · exact ⟨hw _ (by simp), hv, by simp⟩
    · exact ⟨hw _ (by simp), hw _ (by simp), by simp⟩
  · intro p hp
    simp only [List.mem_cons, List.not_mem_nil, or_false] at hp
    rcases hp with rfl | rfl | rfl
    · exact ⟨by decide, by decide⟩
    · exact ⟨by simp only; decide, h0⟩
    · exact ⟨by decide, by decide⟩

/-- C45, exactly: the result is right (the converted value and true, or the default, stored, and false) exactly if the parameter is missing or can be converted. -/
theorem C45_iff {Value : Type} (parse : Str → Option Value) (print : Value → Str) (t : Table) (k : Str) (value def_ : Value) :
    ((∀ s x, find t k = some s → parse s = some x → getParam parse print t k value def_ = (t, x, true)) ∧
      ((find t k = none ∨ ∃ s, find t k = some s ∧ parse s = none) →
        ∃ t', getParam parse print t k value def_ = (t', def_, false) ∧ find t' k = some (print def_) ∧ ∀ q, q ≠ k → find t' q = find t q)) ↔
    ∀ s, find t k = some s → (parse s).isSome = true := by
  constructor
  · intro h s hs
    by_contra hc
    have hp : parse s = none := by simpa using hc
    obtain ⟨t', h1, -⟩ := h.2 (Or.inr ⟨s, hs, hp⟩)
    rw [C45_badCast parse print t k s value def_ hs hp] at h1
    cases h1
  · intro h
    refine ⟨(C45_getParam_partial parse print t k value def_).1, ?_⟩
    rintro (h1 | ⟨s, h1, h2⟩)
    · exact (C45_getParam_partial parse print t k value def_).2 h1
    · have := h s h1
      rw [h2] at this
      cases this

-- the values 3 and x of the same parameter
example : (∀ s, find [(['k'], ['3'])] ['k'] = some s → (parseDigit s).isSome = true) ∧ ¬ ∀ s, find [(['k'], ['x'])] ['k'] = some s → (parseDigit s).isSome = true := by
  refine ⟨fun s hs => ?_, fun h => ?_⟩
  · have : s = ['3'] := by simpa [find] using hs.symm
    subst this; decide
  · exact absurd (h ['x'] (by decide)) (by decide)

end Verif.ParamMap
