import Verif.MortonTree.Props

/-! Property theorem C13 (see properties.jsonl): the exact histories that keep the identifiers. -/
namespace Verif.MortonTree
open Verif
variable {V : Type}

/-- The number of the identifiers `-1`. -/
def unset (l : List (V × ℤ)) : ℕ := l.countP fun p => p.2 == -1

theorem unset_mapIdx (xs : List (Item V)) : ∀ (f g : ℕ → Item V → V × ℤ), (∀ k, ∀ x ∈ xs, (g k x).2 = -1 → (f k x).2 = -1) →
    unset (xs.mapIdx g) ≤ unset (xs.mapIdx f) ∧ ((∃ x ∈ xs, ∀ k, (f k x).2 = -1 ∧ (g k x).2 ≠ -1) → unset (xs.mapIdx g) < unset (xs.mapIdx f)) := by
  unfold unset
  induction xs with
  | nil => intro f g _; simp
  | cons x xs ih =>
    intro f g h
    obtain ⟨i1, i2⟩ := ih (fun k => f (k + 1)) (fun k => g (k + 1)) fun k y hy => h (k + 1) y (by simp [hy])
    have h0 := h 0 x (by simp)
    simp only [List.mapIdx_cons, List.countP_cons, beq_iff_eq]
    refine ⟨?_, ?_⟩
    · split_ifs with a b <;> omega
    · rintro ⟨y, hy, hk⟩
      rcases List.mem_cons.1 hy with rfl | hy
      · rw [if_neg (hk 0).2, if_pos (hk 0).1]
        omega
      · have := i2 ⟨y, hy, fun k => hk (k + 1)⟩
        split_ifs with a b <;> omega

theorem step_unset {cmp : V → V → Bool} {srt : List (Item V) → List (Item V)} (hs : IsSort cmp srt) (t : Tree V) (o : Op V) (st : List (V × ℤ))
    (hl : t.items.length = st.length) : (step srt cmp t o).items.length = (specStep st o).length ∧
      unset (pairs t.items) + unset (specStep st o) ≤ unset (pairs (step srt cmp t o).items) + unset st ∧
      (¬ KeepsOnlyMinusOne o → unset (pairs t.items) + unset (specStep st o) < unset (pairs (step srt cmp t o).items) + unset st) := by
  have app : ∀ a b : List (V × ℤ), unset (a ++ b) = unset a + unset b := fun a b => List.countP_append
  have len : ∀ l : List (Item V), (pairs l).length = l.length := fun l => by simp [pairs]
  cases o with
  | insert x r =>
    refine ⟨by simp [step, insert, specStep, Spec.insert, pairs, hl], ?_⟩
    simp only [step, insert, specStep, Spec.insert, KeepsOnlyMinusOne]
    rw [app, show pairs (t.items ++ [⟨x.values, if r then (t.items.length : ℤ) else -1⟩]) = pairs t.items ++ pairs [⟨x.values, if r then (t.items.length : ℤ) else -1⟩] from by simp [pairs], app]
    cases r
    · by_cases hx : x.id = -1 <;> simp [pairs, unset, hx] <;> omega
    · simp [pairs, unset, hl] <;> omega
  | insertRange xs r =>
    simp only [step, insertRange, specStep, Spec.insert, KeepsOnlyMinusOne]
    have e := insertLoop_items r xs t t.items.length
    have hlen := congrArg List.length e
    rw [len] at hlen
    rw [e, mapIdx_pairs, app, app]
    refine ⟨by rw [hlen]; simp [hl, pairs], ?_⟩
    cases r
    · obtain ⟨u1, u2⟩ := unset_mapIdx xs (fun k x => (x.values, (-1 : ℤ))) (fun k x => (x.values, x.id)) (fun _ _ _ _ => rfl)
      simp only [Bool.false_eq_true, if_false, forall_const, not_forall] at *
      refine ⟨by omega, fun ⟨x, hx, hn⟩ => ?_⟩
      have := u2 ⟨x, hx, trivial, hn⟩
      omega
    · simp [hl]
      omega
  | insertConv xs r =>
    simp only [step, insertConv, specStep, Spec.insert, KeepsOnlyMinusOne, not_true_eq_false, false_imp_iff, and_true]
    have e := insertConvLoop_items r xs t.items
    have hlen := congrArg List.length e
    rw [len] at hlen
    rw [e, mapIdx_pairs, app, app]
    refine ⟨by rw [hlen]; simp [hl, pairs], ?_⟩
    cases r
    · simp
      omega
    · simp [hl]
      omega
  | findItem q =>
    simp only [step, findItem, specStep, KeepsOnlyMinusOne, not_true_eq_false, false_imp_iff, and_true]
    have hp : (ensureSorted srt t).items.Perm t.items := by
      unfold ensureSorted
      split
      · exact (hs _).1
      · exact List.Perm.refl _
    refine ⟨by rw [hp.length_eq, hl], ?_⟩
    have : unset (pairs (ensureSorted srt t).items) = unset (pairs t.items) := (hp.map _).countP_eq _
    omega

/-- C13: the values and the identifiers are kept exactly by the histories in which the insertions without `resetId` of single items and of ranges have only the identifiers `-1`. -/
theorem C13_iff (cmp : V → V → Bool) (srt : List (Item V) → List (Item V)) (hs : IsSort cmp srt) (h : List (Op V)) :
    (pairs (run srt cmp h).items).Perm (expected h) ↔ ∀ o ∈ h, KeepsOnlyMinusOne o := by
  refine ⟨fun hp => ?_, C13_insert_partial cmp srt hs h⟩
  have gen : ∀ (h : List (Op V)) (t : Tree V) (st : List (V × ℤ)), t.items.length = st.length →
      unset (pairs t.items) + unset (h.foldl specStep st) ≤ unset (pairs (h.foldl (step srt cmp) t).items) + unset st ∧
      ((∃ o ∈ h, ¬ KeepsOnlyMinusOne o) → unset (pairs t.items) + unset (h.foldl specStep st) < unset (pairs (h.foldl (step srt cmp) t).items) + unset st) := by
    intro h
    induction h with
    | nil => intro t st _; simp
    | cons o os ih =>
      intro t st hl
      obtain ⟨s1, s2, s3⟩ := step_unset hs t o st hl
      obtain ⟨i1, i2⟩ := ih (step srt cmp t o) (specStep st o) s1
      simp only [List.foldl_cons]
      refine ⟨by omega, ?_⟩
      rintro ⟨o', ho', hn⟩
      rcases List.mem_cons.1 ho' with rfl | ho'
      · have := s3 hn
        omega
      · have := i2 ⟨o', ho', hn⟩
        omega
  by_contra hc
  push Not at hc
  have hlt := (gen h new [] rfl).2 hc
  have he : unset (pairs (run srt cmp h).items) = unset (expected h) := hp.countP_eq _
  unfold run expected at he
  have h0 : unset (pairs (new (V := V)).items) = 0 := rfl
  have h1 : unset ([] : List (V × ℤ)) = 0 := rfl
  omega

/-- An item with the identifier 42 loses it, whatever is inserted before. -/
example : ¬ (pairs (run (isort fun a b : ℕ => decide (a < b)) (fun a b => decide (a < b)) [.insert ⟨5, 0⟩ true, .insert ⟨3, 42⟩ false]).items).Perm
    (expected [.insert ⟨5, 0⟩ true, .insert ⟨3, 42⟩ false]) := by decide +kernel

end Verif.MortonTree
