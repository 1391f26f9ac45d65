import Verif.ParamMap.Props

/-! Property theorem C44 (see properties.jsonl): the exact command lines that are read. -/
namespace Verif.ParamMap
open Verif

/-- The argument begins with a dash that is followed by a byte above 127. -/
def HighDash (s : Str) : Prop := ∃ c r, s = '-' :: c :: r ∧ 128 ≤ c.toNat

/-- At position `i` of the loop the second byte of an argument after a dash is above 127: that of the argument itself, unless it is the last, or that of the argument
after an option. -/
def BadArg (argv : List Str) (i : ℕ) : Prop := 0 < i ∧ ∃ s v, argv[i]? = some s ∧ argv[i + 1]? = some v ∧ (HighDash s ∨ (Spec.IsOption s ∧ HighDash v))

/-- The behaviour of an `isalpha` that answers false above 127. -/
def lax : Char → Outcome Bool := fun _ => .ok false

theorem isOption_high {s : Str} (h : HighDash s) : isOption strict s = .error (.ub .outOfBounds) := by
  obtain ⟨c, r, rfl, hc⟩ := h
  simp only [isOption, if_true, isAlpha]
  rw [if_neg (by omega)]
  rfl

theorem isOption_low {s : Str} (h : ¬ HighDash s) : isOption strict s = isOption lax s := by
  match s with
  | [] => rfl
  | [c] => rfl
  | c :: d :: r =>
    simp only [isOption, isAlpha]
    by_cases hc : c = '-'
    · rw [if_pos hc, if_pos hc]
      by_cases hd : d.toNat < 128
      · rw [if_pos hd, if_pos hd]
      · exact absurd ⟨d, r, by rw [hc], by omega⟩ h
    · rw [if_neg hc, if_neg hc]

theorem isOption_lax (s : Str) : ∃ b, isOption lax s = .ok b ∧ (b = true ↔ Spec.IsOption s) := isOption_eq lax s fun _ _ _ => rfl

theorem readArg_strict (argv : List Str) (t : Table) (i : ℕ) (h0 : 0 < i) (h : i < argv.length) :
    (BadArg argv i → readArg strict argv t i = .error (.ub .outOfBounds)) ∧ (¬ BadArg argv i → readArg strict argv t i = readArg lax argv t i) := by
  have g1 := List.getElem?_eq_getElem h
  unfold readArg arg
  rw [g1]
  simp only [bind, Except.bind]
  by_cases h1 : i + 1 < argv.length
  · have g2 := List.getElem?_eq_getElem h1
    rw [if_pos h1, if_pos h1, g2]
    have hbad : BadArg argv i ↔ HighDash argv[i] ∨ (Spec.IsOption argv[i] ∧ HighDash argv[i + 1]) := by
      unfold BadArg
      rw [g1, g2]
      constructor
      · rintro ⟨-, s, v, hs, hv, hc⟩
        rw [Option.some.inj hs, Option.some.inj hv]
        exact hc
      · intro hc
        exact ⟨h0, _, _, rfl, rfl, hc⟩
    rw [hbad]
    obtain ⟨b, hb, hb'⟩ := isOption_lax argv[i]
    by_cases hs : HighDash argv[i]
    · rw [isOption_high hs]
      exact ⟨fun _ => rfl, fun hn => absurd (.inl hs) hn⟩
    · rw [isOption_low hs, hb]
      simp only
      cases b with
      | false =>
        refine ⟨?_, fun _ => rfl⟩
        rintro (hc | ⟨hc, -⟩)
        · exact absurd hc hs
        · have := hb'.2 hc; cases this
      | true =>
        simp only [if_true]
        by_cases hv : HighDash argv[i + 1]
        · rw [isOption_high hv]
          exact ⟨fun _ => rfl, fun hn => absurd (.inr ⟨hb'.1 rfl, hv⟩) hn⟩
        · rw [isOption_low hv]
          refine ⟨?_, fun _ => rfl⟩
          rintro (hc | ⟨-, hc⟩)
          · exact absurd hc hs
          · exact absurd hc hv
  · rw [if_neg h1, if_neg h1]
    refine ⟨?_, fun _ => rfl⟩
    rintro ⟨-, s, v, -, hv, -⟩
    rw [List.getElem?_eq_none (by omega)] at hv
    cases hv

theorem readArgsFrom_strict (argv : List Str) (n : ℕ) : ∀ (t : Table) (i : ℕ), 0 < i → argv.length - i = n →
    ((∃ j, i ≤ j ∧ BadArg argv j) → readArgsFrom strict argv t i = .error (.ub .outOfBounds)) ∧
    ((∀ j, i ≤ j → ¬ BadArg argv j) → readArgsFrom strict argv t i = readArgsFrom lax argv t i) := by
  induction n with
  | zero =>
    intro t i h0 hn
    refine ⟨?_, fun _ => ?_⟩
    · rintro ⟨j, hj, -, s, v, hs, -⟩
      rw [List.getElem?_eq_none (by omega)] at hs
      cases hs
    · rw [readArgsFrom, readArgsFrom, if_neg (by omega), if_neg (by omega)]
  | succ n ih =>
    intro t i h0 hn
    have hi : i < argv.length := by omega
    obtain ⟨r1, r2⟩ := readArg_strict argv t i h0 hi
    rw [readArgsFrom, readArgsFrom, if_pos hi, if_pos hi]
    by_cases hb : BadArg argv i
    · rw [r1 hb]
      exact ⟨fun _ => rfl, fun h => absurd hb (h i (le_refl _))⟩
    · obtain ⟨t', e, -⟩ := readArg_spec lax argv (fun _ _ _ _ _ => rfl) t i h0 hi
      rw [r2 hb, e]
      obtain ⟨s1, s2⟩ := ih t' (i + 1) (by omega) (by omega)
      refine ⟨?_, fun h => s2 fun j hj => h j (by omega)⟩
      rintro ⟨j, hj, hbj⟩
      refine s1 ⟨j, ?_, hbj⟩
      rcases Nat.eq_or_lt_of_le hj with rfl | hj
      · exact absurd hbj hb
      · exact hj

/-- C44: with the standard behaviour of `isalpha` the command line is read as described exactly when no examined argument is a dash followed by a byte above 127; the last
argument is examined only after an option. The other bytes above 127 do no harm. -/
theorem C44_iff (t : Table) (argv : List Str) :
    ((∃ t', readArgs strict t argv = .ok t' ∧ ∀ k v, find t' k = some v ↔ Spec.ArgFinal argv (find t) k v) ↔ ∀ i, ¬ BadArg argv i) ∧
    ((∃ i, BadArg argv i) ↔ readArgs strict t argv = .error (.ub .outOfBounds)) := by
  obtain ⟨r1, r2⟩ := readArgsFrom_strict argv _ t 1 (by omega) rfl
  by_cases hb : ∃ i, BadArg argv i
  · obtain ⟨i, hi⟩ := hb
    have e : readArgs strict t argv = .error (.ub .outOfBounds) := r1 ⟨i, hi.1, hi⟩
    rw [e]
    refine ⟨⟨?_, fun h => absurd hi (h i)⟩, fun _ => rfl, fun _ => ⟨i, hi⟩⟩
    rintro ⟨t', e', -⟩
    cases e'
  · have hb' : ∀ i, ¬ BadArg argv i := fun i h => hb ⟨i, h⟩
    have e : readArgs strict t argv = readArgs lax t argv := r2 fun j _ => hb' j
    rw [e]
    have hp := C44_readArgs_partial lax t argv (fun _ _ _ _ _ => rfl)
    refine ⟨⟨fun _ => hb', fun _ => hp⟩, fun h => absurd h hb, fun h => ?_⟩
    obtain ⟨t', e', -⟩ := hp
    rw [e'] at h
    cases h

/-- A value with a byte above 127 is read, and a last argument that does not follow an option is not examined. -/
example : readArgs strict [] [['p'], ['-', 'f'], ['M', Char.ofNat 0xC3], ['-', Char.ofNat 0xC3]] = .ok [(['f'], ['M', Char.ofNat 0xC3])] ∧
    readArgs strict [] [['p'], ['-', 'f'], ['-', Char.ofNat 0xC3]] = .error (.ub .outOfBounds) := by decide +kernel

end Verif.ParamMap
