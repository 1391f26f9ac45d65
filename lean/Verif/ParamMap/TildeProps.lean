import Verif.ParamMap.Props

/-! Property theorem C47 (see properties.jsonl): the exact tables in which the home paths are right afterwards. -/
namespace Verif.ParamMap
open Verif

theorem find_mem {t : Table} (h : Sorted t) {p : Str × Str} (hp : p ∈ t) : find t p.1 = some p.2 := by
  unfold Sorted at h
  induction t with
  | nil => cases hp
  | cons q t ih =>
    rw [find_cons]
    rcases List.mem_cons.1 hp with rfl | hp
    · rw [if_pos rfl]
    · have := (List.pairwise_cons.1 h).1 p hp
      rw [if_neg (fun e => by rw [e] at this; exact lt_irrefl _ this)]
      exact ih (List.pairwise_cons.1 h).2 hp

theorem mem_of_find {t : Table} {k v : Str} (h : find t k = some v) : (k, v) ∈ t := by
  induction t with
  | nil => cases h
  | cons q t ih =>
    rw [find_cons] at h
    split_ifs at h with e
    · rw [← Option.some.inj h, ← e]; simp
    · simp [ih h]

/-- C47: the call returns exactly when no value has its only tilde in front, and then it changes nothing; so the home paths are right afterwards exactly when moreover no value
begins with `~/` (or the home directory is `~` itself). Without a home directory only the empty table is accepted. -/
theorem C47_iff (home : Str) (t : Table) (hs : Sorted t) :
    (adaptTildeInPaths (some home) t = .ok t ↔ ∀ p ∈ t, ∀ r, p.2 = '~' :: r → '~' ∈ r) ∧
    ((∃ t', adaptTildeInPaths (some home) t = .ok t') ↔ ∀ p ∈ t, ∀ r, p.2 = '~' :: r → '~' ∈ r) ∧
    ((∃ t', adaptTildeInPaths (some home) t = .ok t' ∧ ∀ k, find t' k = (find t k).map fun v =>
      match v with
      | '~' :: '/' :: r => home ++ '/' :: r
      | v => v) ↔ (∀ p ∈ t, ∀ r, p.2 = '~' :: r → '~' ∈ r) ∧ ∀ p ∈ t, ∀ r, p.2 = '~' :: '/' :: r → home = ['~']) ∧
    ((∃ t', adaptTildeInPaths none t = .ok t') ↔ t = []) := by
  have good : (∀ p ∈ t, ∀ r, p.2 = '~' :: r → '~' ∈ r) → adaptTildeInPaths (some home) t = .ok t := by
    intro h
    have gen : ∀ (r : Table), (∀ p ∈ r, ∀ s, p.2 = '~' :: s → '~' ∈ s) → adaptLoop (some home) t r = .ok t := by
      intro r
      induction r with
      | nil => intro _; rfl
      | cons p r ih =>
        intro h
        obtain ⟨a, b⟩ := p
        have hb : rfindTildeZero b = false := by
          have := h (a, b) (by simp)
          cases b with
          | nil => rfl
          | cons c cs =>
            by_cases hc : c = '~'
            · subst hc
              have := this cs rfl
              simp [rfindTildeZero, this]
            · simp [rfindTildeZero, hc]
        simp only [adaptLoop, hb]
        exact ih fun p hp => h p (by simp [hp])
    exact gen t h
  have bad : (∃ t', adaptTildeInPaths (some home) t = .ok t') → ∀ p ∈ t, ∀ r, p.2 = '~' :: r → '~' ∈ r := by
    rintro ⟨t', e⟩ p hp r hr
    by_contra hn
    obtain ⟨k, hk⟩ := C47_tilde_violated (some home) t p hp r hr hn
    rw [hk] at e
    cases e
  refine ⟨⟨fun e => bad ⟨t, e⟩, good⟩, ⟨bad, fun h => ⟨t, good h⟩⟩, ⟨?_, ?_⟩, ?_, ?_⟩
  · rintro ⟨t', e, hf⟩
    have hb := bad ⟨t', e⟩
    refine ⟨hb, fun p hp r hr => ?_⟩
    rw [good hb] at e
    obtain rfl := Except.ok.inj e
    have h1 := hf p.1
    rw [find_mem hs hp, hr] at h1
    simp only [Option.map_some, Option.some.injEq] at h1
    exact (List.append_left_injective ('/' :: r) (show ['~'] ++ '/' :: r = home ++ '/' :: r from h1)).symm
  · rintro ⟨h1, h2⟩
    refine ⟨t, good h1, fun k => ?_⟩
    cases hk : find t k with
    | none => rfl
    | some v =>
      simp only [Option.map_some, Option.some.injEq]
      split
      · rename_i r
        rw [h2 _ (mem_of_find hk) r rfl]
        rfl
      · rfl
  · rintro ⟨t', e⟩
    cases t with
    | nil => rfl
    | cons p t =>
      obtain ⟨a, b⟩ := p
      cases e
  · rintro rfl
    exact ⟨[], rfl⟩

/-- A path with two tildes is left as it is, which is wrong; a tilde elsewhere does no harm. -/
example : adaptTildeInPaths (some ['/', 'h']) [(['a'], ['~', '/', '~']), (['b'], ['y', '~'])] = .ok [(['a'], ['~', '/', '~']), (['b'], ['y', '~'])] ∧
    adaptTildeInPaths (some ['/', 'h']) [(['a'], ['x']), (['b'], ['~', '/', 'y'])] = .error (.ub .iterInvalid) := by decide

end Verif.ParamMap
