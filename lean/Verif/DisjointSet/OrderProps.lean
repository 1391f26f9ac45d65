import Verif.DisjointSet.Props

/-! Property theorem C148 (see properties.jsonl): the order, the direction and the repetition of the joins. -/
namespace Verif.DisjointSet
open Verif Spec

/-- The two structures have the same partition, sizes and number of sets. -/
def SameSets (n : ℕ) (s s' : State) : Prop :=
  s.nodes.len = n ∧ s'.nodes.len = n ∧
  (∀ a < n, ∀ b < n, (∃ r, Finds s a r ∧ Finds s b r) ↔ ∃ r, Finds s' a r ∧ Finds s' b r) ∧
  (∀ a < n, ∃ k t t', size s a = .ok (k, t) ∧ size s' a = .ok (k, t')) ∧ (parents s).length = (parents s').length

theorem parents_length {s : State} {A : Abs} {root : ℕ → ℕ} (h : Sim s A root) : (parents s).length = ((Finset.range A.n).filter fun i => root i = i).card := by
  have hlen := h.len
  unfold parents
  rw [hlen]
  have key : ∀ m, m ≤ A.n → ((List.range m).filterMap fun i => if (s.nodes.val i).parent = (i : ℤ) then some (i : ℤ) else none).length =
      ((Finset.range m).filter fun i => root i = i).card := by
    intro m
    induction m with
    | zero => intro _; rfl
    | succ m ih =>
      intro hm
      rw [List.range_succ, List.filterMap_append, List.length_append, ih (by omega), Finset.range_add_one, Finset.filter_insert]
      have hp : (s.nodes.val m).parent = (m : ℤ) ↔ root m = m := by
        constructor
        · exact fun hp => h.inv.rootFix m (by omega) hp
        · intro hr
          have := h.inv.rootPar m (by omega)
          rwa [hr] at this
      by_cases hr : root m = m
      · rw [if_pos hr, Finset.card_insert_of_notMem (by simp)]
        simp [hp.2 hr]
      · rw [if_neg hr]
        simp [mt hp.1 hr]
  exact key A.n le_rfl

/-- C148, general form: two histories of calls with as many items have the same sets if the items joined in one are connected by the joins of the other. -/
theorem C148_same (h h' : List Op) (hv : Valid h) (hv' : Valid h') (hn : (absOf h).n = (absOf h').n) (h1 : ∀ p ∈ (absOf h).pairs, Conn (absOf h') p.1 p.2)
    (h2 : ∀ p ∈ (absOf h').pairs, Conn (absOf h) p.1 p.2) :
    ∃ s s', run h = .ok s ∧ run h' = .ok s' ∧ SameSets (absOf h).n s s' ∧
      ((absOf h).made = (absOf h').made → (absOf h).neg = (absOf h').neg → s.setNum = s'.setNum) := by
  obtain ⟨s, root, hr, hs⟩ := run_sim h hv
  obtain ⟨s', root', hr', hs'⟩ := run_sim h' hv'
  have up : ∀ {A B : Abs}, (∀ p ∈ A.pairs, Conn B p.1 p.2) → ∀ {i j}, Conn A i j → Conn B i j := by
    intro A B hp i j hc
    induction hc with
    | rel x y hxy => exact hp (x, y) hxy
    | refl x => exact .refl x
    | symm x y _ ih => exact .symm _ _ ih
    | trans x y z _ _ i1 i2 => exact .trans _ _ _ i1 i2
  have hc : ∀ i j, Conn (absOf h) i j ↔ Conn (absOf h') i j := fun i j => ⟨up h1, up h2⟩
  have hcls : ∀ a, cls (absOf h) a = cls (absOf h') a := fun a => by
    unfold cls
    rw [hn]
    ext j
    simp only [Finset.mem_filter, hc]
  have hclasses : classes (absOf h) = classes (absOf h') := by
    unfold classes
    rw [hn]
    exact Finset.image_congr fun a _ => hcls a
  have same : ∀ {s : State} {A : Abs} {root : ℕ → ℕ}, Sim s A root → ∀ {a b}, a < A.n → b < A.n → ((∃ r, Finds s a r ∧ Finds s b r) ↔ Conn A a b) := by
    intro s A root hs a b ha hb
    rw [hs.conn_iff ha hb]
    constructor
    · rintro ⟨r, f1, f2⟩
      have e1 := f1.unique (hs.finds ha)
      have e2 := f2.unique (hs.finds hb)
      omega
    · intro e
      exact ⟨root a, hs.finds ha, e ▸ hs.finds hb⟩
  refine ⟨s, s', hr, hr', ⟨hs.len, hs'.len.trans hn.symm, ?_, ?_, ?_⟩, ?_⟩
  · intro a ha b hb
    rw [same hs ha hb, same hs' (hn ▸ ha) (hn ▸ hb), hc]
  · intro a ha
    obtain ⟨t, e, -⟩ := size_sim hs ha
    obtain ⟨t', e', -⟩ := size_sim hs' (hn ▸ ha)
    exact ⟨_, t, t', e, by rw [hcls]; exact e'⟩
  · rw [parents_length hs, parents_length hs', ← classes_card hs, ← classes_card hs', hclasses]
  · intro hm hg
    have e := hs.num
    have e' := hs'.num
    rw [← classes_card hs] at e
    rw [← classes_card hs', ← hclasses] at e'
    omega

/-- Joins in the given order. -/
def joins (n : ℕ) (J : List (ℕ × ℕ)) : List Op := .init n :: J.map fun p => .join p.1 p.2

theorem absOf_joins (n : ℕ) (J : List (ℕ × ℕ)) : absOf (joins n J) = ⟨n, J.reverse, 0, 0⟩ := by
  have key : ∀ (J : List (ℕ × ℕ)) (A : Abs), (J.map fun p => Op.join p.1 p.2).foldl Abs.step A = { A with pairs := J.reverse ++ A.pairs } := by
    intro J
    induction J with
    | nil => intro A; rfl
    | cons p J ih =>
      intro A
      rw [List.map_cons, List.foldl_cons, ih]
      simp [Abs.step]
  unfold absOf joins
  rw [List.foldl_cons, key]
  simp [Abs.step]

theorem valid_joins {n : ℕ} {J : List (ℕ × ℕ)} (h : ∀ p ∈ J, p.1 < n ∧ p.2 < n) : Valid (joins n J) := by
  have key : ∀ (J : List (ℕ × ℕ)) (A : Abs), (∀ p ∈ J, p.1 < A.n ∧ p.2 < A.n) → HistValid A (J.map fun p => Op.join p.1 p.2) := by
    intro J
    induction J with
    | nil => intro A _; trivial
    | cons p J ih =>
      intro A hA
      have := hA p (by simp)
      refine ⟨by simp only [OpValid]; omega, ih _ fun q hq => hA q (by simp [hq])⟩
  exact ⟨trivial, key J _ (by simpa [Abs.step] using h)⟩

/-- C148: the sets that result from joining pairs do not depend on the order of the joins, the order in a pair, or repetitions. -/
theorem C148_order (n : ℕ) (J J' : List (ℕ × ℕ)) (hJ : ∀ p ∈ J, p.1 < n ∧ p.2 < n) (h1 : ∀ p ∈ J, p ∈ J' ∨ p.swap ∈ J') (h2 : ∀ p ∈ J', p ∈ J ∨ p.swap ∈ J) :
    ∃ s s', run (joins n J) = .ok s ∧ run (joins n J') = .ok s' ∧ SameSets n s s' ∧ s.setNum = s'.setNum := by
  have hJ' : ∀ p ∈ J', p.1 < n ∧ p.2 < n := fun p hp => by
    rcases h2 p hp with h | h
    · exact hJ p h
    · exact (hJ _ h).symm
  have conn : ∀ {K : List (ℕ × ℕ)} {p : ℕ × ℕ}, p ∈ K ∨ p.swap ∈ K → Conn (absOf (joins n K)) p.1 p.2 := by
    intro K p h
    rw [absOf_joins]
    rcases h with h | h
    · exact .rel _ _ (by simpa using h)
    · exact .symm _ _ (.rel _ _ (List.mem_reverse.2 h))
  obtain ⟨s, s', e1, e2, e3, e4⟩ := C148_same (joins n J) (joins n J') (valid_joins hJ) (valid_joins hJ') (by rw [absOf_joins, absOf_joins])
    (fun p hp => conn (h1 p (by rw [absOf_joins] at hp; simpa using hp))) (fun p hp => conn (h2 p (by rw [absOf_joins] at hp; simpa using hp)))
  rw [absOf_joins] at e3
  exact ⟨s, s', e1, e2, e3, e4 (by rw [absOf_joins, absOf_joins]) (by rw [absOf_joins, absOf_joins])⟩

/-- C148, redundant joins: a join of connected items changes no set. -/
theorem C148_redundant (n : ℕ) (J : List (ℕ × ℕ)) (hJ : ∀ p ∈ J, p.1 < n ∧ p.2 < n) (a b : ℕ) (ha : a < n) (hb : b < n) (hc : Conn (absOf (joins n J)) a b) :
    ∃ s s', run (joins n J) = .ok s ∧ run (joins n (J ++ [(a, b)])) = .ok s' ∧ SameSets n s s' ∧ s.setNum = s'.setNum := by
  have hv' : ∀ p ∈ J ++ [(a, b)], p.1 < n ∧ p.2 < n := by
    intro p hp
    rcases List.mem_append.1 hp with h | h
    · exact hJ p h
    · rw [List.mem_singleton.1 h]; exact ⟨ha, hb⟩
  obtain ⟨s, s', e1, e2, e3, e4⟩ := C148_same (joins n J) (joins n (J ++ [(a, b)])) (valid_joins hJ) (valid_joins hv') (by rw [absOf_joins, absOf_joins])
    (fun p hp => .rel _ _ (by rw [absOf_joins] at hp ⊢; simp at hp ⊢; exact Or.inr hp))
    (fun p hp => by
      rw [absOf_joins] at hp
      simp only [List.reverse_append, List.reverse_cons, List.reverse_nil, List.nil_append, List.singleton_append, List.mem_cons, List.mem_reverse] at hp
      rcases hp with rfl | hp
      · exact hc
      · exact .rel _ _ (by rw [absOf_joins]; simpa using hp))
  rw [absOf_joins] at e3
  exact ⟨s, s', e1, e2, e3, e4 (by rw [absOf_joins, absOf_joins]) (by rw [absOf_joins, absOf_joins])⟩

/-- Example: the representatives may differ: joining 0, 1 and 1, 2 in two orders. -/
example : (match run (joins 3 [(0, 1), (1, 2)]) with | .ok s => parents s | .error _ => []) = [0] ∧
    (match run (joins 3 [(2, 1), (1, 0)]) with | .ok s => parents s | .error _ => []) = [2] := by decide +kernel

end Verif.DisjointSet
