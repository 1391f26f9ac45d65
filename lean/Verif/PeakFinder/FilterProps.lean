import Verif.PeakFinder.OrderProps

/-! Property theorems C166 (see properties.jsonl): the filter of the peaks. -/
namespace Verif.PeakFinder
open Verif Verif.Interval Verif.Interval.Spec Verif.Heap Verif.Heap.Spec Spec
variable {V : Type}

/-- The peak search with the filter `v`. -/
abbrev Finder.filtered (f : Finder V) (v : V) : Finder V := f.enableFilterPeakMin true v

/-- The peak search without filter. -/
abbrev Finder.unfiltered (f : Finder V) (v : V) : Finder V := f.enableFilterPeakMin false v

/-- The peaks found with the filter are those found without that pass it; the rest is the same. -/
def Kept (P : List ℤ → Bool) (s t : State) : Prop :=
  t.items = s.items ∧ t.window = s.window ∧ t.prev = s.prev ∧ content t.maxima = (content s.maxima).filter fun c => P c = true

theorem isPeak_filtered (f : Finder V) (map : List ℤ → V) (v : V) (items : Vec (List ℤ)) (c : List ℤ) :
    ∃ b, isPeak (f.unfiltered v) map items c = .ok b ∧ isPeak (f.filtered v) map items c = .ok (b && f.comp (map c) v) := by
  obtain ⟨b, hb, -⟩ := isPeak_ok (f.unfiltered v) map items c
  refine ⟨b, hb, ?_⟩
  by_cases h : f.comp (map c) v = true
  · rw [h, Bool.and_true, ← hb]
    unfold isPeak Finder.filtered Finder.unfiltered Finder.enableFilterPeakMin
    simp [h]
    rfl
  · unfold isPeak Finder.filtered Finder.enableFilterPeakMin
    simp [h]

theorem body_filtered (f : Finder V) (map : List ℤ → V) (v : V) {s t : State} (h : Kept (fun c => f.comp (map c) v) s t) (c : List ℤ) :
    Sim (Kept fun c => f.comp (map c) v) (body (f.unfiltered v) map s c) (body (f.filtered v) map t c) := by
  obtain ⟨h1, h2, h3, h4⟩ := h
  unfold body
  rw [h1, h2, h3]
  refine Sim.bindEq _ fun dk _ => ?_
  obtain ⟨d, k⟩ := dk
  dsimp only
  refine Sim.bindEq _ fun st _ => ?_
  refine Sim.bindEq _ fun nv _ => ?_
  refine Sim.bindEq _ fun it _ => ?_
  refine Sim.bindEq _ fun W _ => ?_
  refine Sim.bindEq _ fun it' _ => ?_
  obtain ⟨b, hb, hb'⟩ := isPeak_filtered f map v it' c
  rw [hb, hb']
  obtain ⟨m, m1, m2⟩ := pushPeak_ok (f.unfiltered v) map c b s.maxima
  obtain ⟨m', m1', m2'⟩ := pushPeak_ok (f.filtered v) map c (b && f.comp (map c) v) t.maxima
  simp only [bind_ok]
  rw [m1, m1']
  refine .ok ⟨rfl, rfl, rfl, ?_⟩
  dsimp only
  rw [m2, m2', h4, Multiset.filter_add]
  refine congrArg (· + _) ?_
  cases b <;> by_cases hc : f.comp (map c) v = true <;> simp [hc, Multiset.filter_singleton]

theorem loop_filtered (f : Finder V) (map : List ℤ → V) (v : V) (e : Iter) (fuel : ℕ) (it : Iter) {s t : State} (h : Kept (fun c => f.comp (map c) v) s t) :
    Sim (Kept fun c => f.comp (map c) v) (domainLoop (f.unfiltered v) map e fuel it s) (domainLoop (f.filtered v) map e fuel it t) := by
  induction fuel generalizing it s t with
  | zero => exact .error _
  | succ fuel ih =>
    unfold domainLoop
    by_cases hp : it.pos ≠ e.pos
    · rw [if_pos hp, if_pos hp]
      refine Sim.bind (body_filtered f map v h it.indices) fun s' t' h' => ?_
      exact Sim.bindEq _ fun nx _ => ih nx h'
    · rw [if_neg hp, if_neg hp]
      exact .ok h

/-- **C166** The peaks found with a filter are the peaks found without it that pass it; the search is defined with the filter when it is without. -/
theorem C166_filter (f : Finder V) (map : List ℤ → V) (v : V) :
    Sim (fun out out' => out'.Perm (out.filter fun c => f.comp (map c) v)) (detect (f.unfiltered v) map) (detect (f.filtered v) map) := by
  unfold detect
  refine Sim.bindEq _ fun it _ => ?_
  refine Sim.bindEq _ fun e _ => ?_
  refine Sim.bindEq _ fun _ _ => ?_
  refine Sim.bind (R := Kept fun c => f.comp (map c) v) ?_ fun s t h => ?_
  · unfold initState
    refine Sim.bindEq _ fun W _ => ?_
    refine Sim.bindEq _ fun nv _ => ?_
    refine Sim.bindEq _ fun its _ => ?_
    exact .ok ⟨rfl, rfl, rfl, rfl⟩
  · refine Sim.bindEq _ fun it' _ => ?_
    refine Sim.bind (loop_filtered f map v e _ it' h) fun s' t' h' => ?_
    obtain ⟨o, o1, o2⟩ := drain_ok ((f.unfiltered v).cmp map) (s'.maxima.len + 1) s'.maxima (by omega)
    obtain ⟨o', o1', o2'⟩ := drain_ok ((f.filtered v).cmp map) (t'.maxima.len + 1) t'.maxima (by omega)
    rw [o1, o1']
    refine .ok ?_
    rw [← Multiset.coe_eq_coe, o2', h'.2.2.2, ← o2]
    simp

/-- Without filter the threshold is not read. -/
theorem detect_unfiltered (f : Finder V) (map : List ℤ → V) (v w : V) : detect (f.unfiltered v) map = detect (f.unfiltered w) map := by
  have hb : ∀ s c, body (f.unfiltered v) map s c = body (f.unfiltered w) map s c := fun s c => rfl
  have hl : ∀ e fuel it s, domainLoop (f.unfiltered v) map e fuel it s = domainLoop (f.unfiltered w) map e fuel it s := by
    intro e fuel
    induction fuel with
    | zero => exact fun it s => rfl
    | succ fuel ih =>
      intro it s
      unfold domainLoop
      rw [hb]
      simp only [ih]
      rfl
  unfold detect
  simp only [hl]
  rfl

/-- **C166** A stricter filter keeps those of the peaks found with the other one that pass it. -/
theorem C166_stricter (f : Finder V) (map : List ℤ → V) (v w : V) (h : ∀ x, f.comp x v = true → f.comp x w = true) :
    Sim (fun out out' => out'.Perm (out.filter fun c => f.comp (map c) v)) (detect (f.filtered w) map) (detect (f.filtered v) map) := by
  have h1 := C166_filter f map v
  have h2 := C166_filter f map w
  have e : detect (f.unfiltered v) map = detect (f.unfiltered w) map := by
    exact detect_unfiltered f map v w
  rw [e] at h1
  generalize detect (f.unfiltered w) map = x at h1 h2
  generalize detect (f.filtered w) map = y at h2
  generalize detect (f.filtered v) map = z at h1
  cases h1 with
  | error => cases h2; exact .error _
  | ok h1 =>
    cases h2 with
    | ok h2 =>
      refine .ok (h1.trans ?_)
      refine List.Perm.trans (List.Perm.of_eq ?_) (h2.filter _).symm
      rw [List.filter_filter]
      refine List.filter_congr fun c _ => ?_
      by_cases hc : f.comp (map c) v = true
      · rw [hc, h _ hc]; rfl
      · rw [Bool.not_eq_true] at hc
        rw [hc]; rfl

/-- **C166** Without ties the order is the same as well. -/
theorem C166_list (f : Finder V) (map : List ℤ → V) (v : V) (hw : StrictWeak f.comp) {out : List (List ℤ)} (h : detect (f.unfiltered v) map = .ok out)
    (ht : ∀ a ∈ out, ∀ b ∈ out, a ≠ b → ¬ Equivalent f.comp (map a) (map b)) : detect (f.filtered v) map = .ok (out.filter fun c => f.comp (map c) v) := by
  have h1 := C166_filter f map v
  rw [h] at h1
  generalize hz : detect (f.filtered v) map = z at h1
  cases h1 with
  | ok h1 =>
    refine congrArg _ ?_
    have s1 := C41_order (f.filtered v) map hw _ hz
    have s2 := (C41_order (f.unfiltered v) map hw _ h).sublist (List.filter_sublist (p := fun c => f.comp (map c) v))
    refine h1.eq_of_pairwise (fun a b ha hb hab hba => ?_) s1 s2
    by_contra hne
    have hb' := List.mem_of_mem_filter hb
    have ha' := List.mem_of_mem_filter (h1.mem_iff.1 ha)
    exact ht a ha' b hb' hne ⟨hba, hab⟩

/-- The search without filter, and with the filters 3 and 6: the highest peaks remain. -/
example : detect ((finder [8] [1]).unfiltered 0) (row [3, 1, 4, 2, 7, 5, 9, 6]) = .ok [[6], [4], [2]] ∧ detect ((finder [8] [1]).filtered 6) (row [3, 1, 4, 2, 7, 5, 9, 6]) = .ok [[6], [4]] ∧
    detect ((finder [8] [1]).filtered 3) (row [3, 1, 4, 2, 7, 5, 9, 6]) = .ok [[6], [4], [2]] := by decide +kernel

end Verif.PeakFinder
