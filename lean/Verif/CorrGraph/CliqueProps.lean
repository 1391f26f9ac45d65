import Verif.CorrGraph.Props

/-! Property theorem C64 (see properties.jsonl). -/
namespace Verif.CorrGraph
open Verif LabelSet SortedList Spec
open _root_.Verif.Hough (bind_ok)
variable {K : Type}

theorem sorted_length {a b : LabelSet} (ha : Sorted a.labels) (h : a.toFinset ⊆ b.toFinset) : a.labels.length ≤ b.labels.length := by
  have hn : a.labels.Nodup := ha.imp fun h => ne_of_lt h
  have h1 : a.toFinset.card = a.labels.length := List.toFinset_card_of_nodup hn
  have h2 : b.toFinset.card ≤ b.labels.length := List.toFinset_card_le _
  have := Finset.card_le_card h
  omega

/-- A search with few candidates, in the lax semantics, ends before the bound. -/
theorem bronKerbosch_total {nodes : Vec Node} {adj : ℤ → ℤ → Prop} (hn : Represents nodes adj) (hi : ∀ x, ¬ adj x x)
    (fuel : ℕ) (R P X : LabelSet) (it : ℤ) (out : List LabelSet) (hP : Sorted P.labels) (hb : ∀ x ∈ P.labels, 0 ≤ x ∧ x < nodes.len)
    (h0 : 0 ≤ it) (h200 : it + 2 ^ P.labels.length < 200) (hf : P.labels.length < fuel) :
    ∃ st', bronKerbosch true nodes fuel R P X (it, out) = .ok st' ∧ st'.1 ≤ it + 2 ^ P.labels.length := by
  induction fuel generalizing R P X it out with
  | zero => omega
  | succ fuel ih =>
    have hpos : (1 : ℤ) ≤ 2 ^ P.labels.length := by exact_mod_cast Nat.one_le_two_pow
    rw [bronKerbosch, Cxx.int, if_pos (by omega), bind_ok, if_neg (by omega)]
    split_ifs
    · exact ⟨_, rfl, by dsimp only; omega⟩
    · have key : ∀ (l : List ℤ) (X : LabelSet) (st : ℤ × List LabelSet), Sorted l → (∀ x ∈ l, 0 ≤ x ∧ x < nodes.len) → 0 ≤ st.1 → st.1 + 2 ^ l.length ≤ 200 → l.length ≤ fuel →
          ∃ r', l.foldlM (visit true nodes (bronKerbosch true nodes fuel) R) (st, ⟨l⟩, X) = .ok r' ∧ r'.1.1 ≤ st.1 + 2 ^ l.length - 1 := by
        intro l
        induction l with
        | nil => exact fun X st _ _ _ _ _ => ⟨_, rfl, by simp⟩
        | cons n l ihl =>
          intro X st hsl hb h0 h200 hf
          have hbn := hb n (by simp)
          have hto : Cxx.toSize n = n.toNat := by
            have := hn.1
            unfold Cxx.toSize
            omega
          obtain ⟨a1, a2⟩ := hn.2 n.toNat (by omega)
          rw [Int.toNat_of_nonneg hbn.1] at a2
          have hlen : (intersection ⟨n :: l⟩ (nodes.val n.toNat).adjacents).labels.length ≤ l.length := by
            refine sorted_length (b := ⟨l⟩) (sorted_inter _ _) fun x hx => ?_
            rw [toFinset_inter hsl a1, Finset.mem_inter, mem_toFinset, mem_toFinset, a2, List.mem_cons] at hx
            rw [mem_toFinset]
            rcases hx with ⟨rfl | hx, ha⟩
            · exact absurd ha (hi _)
            · exact hx
          rw [List.length_cons, pow_succ] at h200
          have hp1 : (2 : ℤ) ^ (intersection ⟨n :: l⟩ (nodes.val n.toNat).adjacents).labels.length ≤ 2 ^ l.length := by
            exact_mod_cast Nat.pow_le_pow_right (by norm_num) hlen
          have hp2 : (1 : ℤ) ≤ 2 ^ l.length := by exact_mod_cast Nat.one_le_two_pow
          obtain ⟨st1, e1, l1⟩ := ih (unionLabel R n) (intersection ⟨n :: l⟩ (nodes.val n.toNat).adjacents) (intersection X (nodes.val n.toNat).adjacents) st.1 st.2 (sorted_inter _ _)
            (by
              intro x hx
              rw [← mem_toFinset, toFinset_inter hsl a1, Finset.mem_inter] at hx
              exact hb x ((mem_toFinset _ _).1 hx.1)) h0 (by omega) (by rw [List.length_cons] at hf; omega)
          have hm := bronKerbosch_mono e1
          obtain ⟨r', e2, l2⟩ := ihl (LabelSet.insert X n).2 st1 (List.pairwise_cons.1 hsl).2 (fun x hx => hb x (by simp [hx])) (by dsimp only at hm; omega) (by omega)
            (by rw [List.length_cons] at hf; omega)
          refine ⟨r', ?_, by rw [List.length_cons, pow_succ]; omega⟩
          rw [List.foldlM_cons, visit, hto, Vec.get_nat _ (by omega), bind_ok]
          dsimp only
          rw [e1, bind_ok, if_pos rfl, show remove ⟨n :: l⟩ n = ⟨l⟩ by simp [remove, SortedList.erase]]
          exact e2
      obtain ⟨r', e, hr⟩ := key P.labels X (it + 1, out) hP hb (by dsimp only; omega) (by dsimp only; omega) (by omega)
      refine ⟨r'.1, ?_, by dsimp only at hr; omega⟩
      rw [show (⟨P.labels⟩ : LabelSet) = P from rfl] at e
      rw [e]
      rfl

/-- A run prints at most one clique for each value of the counter below 200. -/
theorem bronKerbosch_count {lax : Bool} {nodes : Vec Node} {fuel : ℕ} {R P X : LabelSet} {st st' : ℤ × List LabelSet}
    (h : bronKerbosch lax nodes fuel R P X st = .ok st') : (st'.2.length : ℤ) - min st'.1 199 ≤ st.2.length - min st.1 199 := by
  induction fuel generalizing R P X st st' with
  | zero => cases h
  | succ fuel ih =>
    rw [bronKerbosch] at h
    by_cases hi : -2147483648 ≤ st.1 + 1 ∧ st.1 + 1 ≤ 2147483647
    swap
    · rw [Cxx.int, if_neg hi] at h
      cases h
    rw [Cxx.int, if_pos hi, bind_ok] at h
    split_ifs at h
    · cases h; dsimp only; omega
    · cases h
      simp only [List.length_append, List.length_cons, List.length_nil]
      push_cast
      omega
    · have key : ∀ (l : List ℤ) (r r' : (ℤ × List LabelSet) × LabelSet × LabelSet), l.foldlM (visit lax nodes (bronKerbosch lax nodes fuel) R) r = .ok r' →
          (r'.1.2.length : ℤ) - min r'.1.1 199 ≤ r.1.2.length - min r.1.1 199 := by
        intro l
        induction l with
        | nil => exact fun r r' e => by cases e; exact le_rfl
        | cons n l ihl =>
          intro r r' e
          rw [List.foldlM_cons] at e
          cases e1 : visit lax nodes (bronKerbosch lax nodes fuel) R r n with
          | error x => rw [e1] at e; cases e
          | ok r1 =>
            rw [e1, bind_ok] at e
            obtain ⟨node, -, e2, -⟩ := visit_ok e1
            exact (ihl _ _ e).trans (ih e2)
      generalize e : (P.labels.foldlM _ _ : Outcome ((ℤ × List LabelSet) × LabelSet × LabelSet)) = z at h
      cases z with
      | error x => cases h
      | ok r =>
        have := key _ _ _ e
        cases h
        dsimp only at this
        omega

theorem allNodes_ok (n : ℕ) : Sorted (allNodes n).labels ∧ ∀ x, x ∈ (allNodes n).labels ↔ ∃ k < n, x = (k : ℤ) := by
  unfold allNodes
  induction n with
  | zero => exact ⟨List.Pairwise.nil, by simp [empty]⟩
  | succ n ih =>
    rw [List.range_succ, List.foldl_append, List.foldl_cons, List.foldl_nil]
    refine ⟨sorted_insert' ih.1 _, fun x => ?_⟩
    rw [← mem_toFinset, toFinset_insert ih.1, Finset.mem_insert, mem_toFinset, ih.2]
    constructor
    · rintro (rfl | ⟨k, hk, rfl⟩)
      · exact ⟨n, by omega, rfl⟩
      · exact ⟨k, by omega, rfl⟩
    · rintro ⟨k, hk, rfl⟩
      by_cases e : k = n
      · exact Or.inl (by rw [e])
      · exact Or.inr ⟨k, by omega, rfl⟩

/-- Consistency as a relation on pairs. -/
def cons2 [LT K] [Add K] [Sub K] (tol dmin : K) (distS distD : ℕ → ℕ → K) (p q : ℕ × ℕ) : Prop := Consistent dmin tol distS distD p.1 p.2 q.1 q.2

/-- All the correspondences. -/
def allPairs (nS nD : ℕ) : Finset (ℕ × ℕ) := Finset.range nS ×ˢ Finset.range nD

/-- A list of pairs of `int`, as the elements of `AssociationHypothesis`, lists each pair of `F` once. -/
def Lists (l : List (ℤ × ℤ)) (F : Finset (ℕ × ℕ)) : Prop := l.Nodup ∧ ∀ x, x ∈ l ↔ ∃ p ∈ F, x = ((p.1 : ℤ), (p.2 : ℤ))

/-- C64: `associate` returns the maximal sets of pairwise consistent correspondences. -/
def C64_statement (K : Type) [LinearOrder K] [Add K] [Sub K] : Prop :=
  ∀ (srt : List (PairDistance K) → List (PairDistance K)) (tol dmin : K) (nS nD : ℕ) (distS distD : ℕ → ℕ → K), SortSpec srt → nS * nD ≤ 2147483647 →
    ∃ g' st assoc, (setup srt tol dmin nS nD distS distD).associate false 0 = .ok (g', st, assoc) ∧
      ∀ F, MaximalClique (cons2 tol dmin distS distD) (allPairs nS nD) F ↔ ∃ l ∈ assoc, Lists l F

/-- C64 fails for every non-empty input: the behaviour is undefined, as the loop of `executeBronKerbosch` uses the element that it has erased. -/
theorem C64_undefined [LinearOrder K] [Add K] [Sub K] {srt : List (PairDistance K) → List (PairDistance K)} (hs : SortSpec srt) (tol dmin : K) (nS nD : ℕ) (distS distD : ℕ → ℕ → K)
    (hN : nS * nD ≤ 2147483647) (h0 : 0 < nS) (h1 : 0 < nD) (it : ℤ) (hit : 0 ≤ it) (hit' : it < 199) :
    ∃ k, (setup srt tol dmin nS nD distS distD).associate false it = .error (.ub k) := by
  obtain ⟨g', e, o⟩ := build_ok hs tol dmin nS nD distS distD hN
  obtain ⟨k, ek⟩ := bronKerbosch_strict g'.nodes 200 empty (allNodes g'.nodes.len) empty it [] (fun he => by
    have := ((allNodes_ok g'.nodes.len).2 0).2 ⟨0, by rw [o.1]; exact Nat.mul_pos h0 h1, rfl⟩
    rw [he] at this
    simp at this) hit hit' (by push_cast; omega)
  refine ⟨k, ?_⟩
  rw [Graph.associate, Graph.associateCliques, e, bind_ok, ek]
  rfl

theorem C64_violated : ¬ C64_statement ℚ := by
  intro h
  obtain ⟨g', st, assoc, e, -⟩ := h isort 1 0 1 1 (fun _ _ => 0) (fun _ _ => 0) isort_spec (by norm_num)
  obtain ⟨k, ek⟩ := C64_undefined isort_spec (1 : ℚ) 0 1 1 (fun _ _ => 0) (fun _ _ => 0) (by norm_num) (by norm_num) (by norm_num) 0 le_rfl (by norm_num)
  rw [e] at ek
  cases ek

/-- Whatever the object, the counter and the semantics of the loop, a call of `associate` that returns gives no association. -/
theorem C64_no_association [LinearOrder K] [Add K] [Sub K] {lax : Bool} {g g' : Graph K} {it : ℤ} {st : ℤ × List LabelSet} {assoc : List (List (ℤ × ℤ))}
    (h : g.associate lax it = .ok (g', st, assoc)) : assoc = [] := by
  unfold Graph.associate Graph.associateCliques at h
  cases e1 : g.pushNodes.addEdges with
  | error x => rw [e1] at h; cases h
  | ok g1 =>
    rw [e1, bind_ok] at h
    cases e2 : bronKerbosch lax g1.nodes 200 empty (allNodes g1.nodes.len) empty (it, []) with
    | error x => rw [e2] at h; cases h
    | ok r => rw [e2] at h; cases h; rfl

/-- The relation on the indices of the nodes. -/
def adjZ [LT K] [Add K] [Sub K] (tol dmin : K) (nS nD : ℕ) (distS distD : ℕ → ℕ → K) (x y : ℤ) : Prop :=
  ∃ p ∈ allPairs nS nD, ∃ q ∈ allPairs nS nD, x = ((p.1 * nD + p.2 : ℕ) : ℤ) ∧ y = ((q.1 * nD + q.2 : ℕ) : ℤ) ∧ cons2 tol dmin distS distD p q

/-- The index of a pair. -/
def idx (nD : ℕ) (p : ℕ × ℕ) : ℤ := ((p.1 * nD + p.2 : ℕ) : ℤ)

theorem idx_inj {nS nD : ℕ} {p q : ℕ × ℕ} (hp : p ∈ allPairs nS nD) (hq : q ∈ allPairs nS nD) (h : idx nD p = idx nD q) : p = q := by
  simp only [allPairs, Finset.mem_product, Finset.mem_range] at hp hq
  exact Prod.ext_iff.2 (index_inj hp.2 hq.2 (Int.ofNat_inj.1 h))

theorem exists_idx {nS nD k : ℕ} (h : k < nS * nD) : ∃ p ∈ allPairs nS nD, (k : ℤ) = idx nD p := by
  have hD : 0 < nD := by
    rcases Nat.eq_zero_or_pos nD with rfl | h'
    · simp at h
    · exact h'
  refine ⟨(k / nD, k % nD), ?_, ?_⟩
  · simp only [allPairs, Finset.mem_product, Finset.mem_range]
    exact ⟨Nat.div_lt_of_lt_mul (by rwa [Nat.mul_comm]), Nat.mod_lt _ hD⟩
  · simp only [idx]
    rw [Nat.mul_comm, Nat.div_add_mod]

section
variable [LinearOrder K] [Add K] [Sub K] {tol dmin : K} {nS nD : ℕ} {distS distD : ℕ → ℕ → K}

theorem cons2_symm {p q : ℕ × ℕ} (h : cons2 tol dmin distS distD p q) : cons2 tol dmin distS distD q p := by
  unfold cons2 Consistent at *
  rw [dist2_comm distS q.1, dist2_comm distD q.2]
  exact ⟨h.1.symm, h.2.1.symm, h.2.2⟩

theorem adjZ_idx {p q : ℕ × ℕ} (hp : p ∈ allPairs nS nD) (hq : q ∈ allPairs nS nD) :
    adjZ tol dmin nS nD distS distD (idx nD p) (idx nD q) ↔ cons2 tol dmin distS distD p q := by
  constructor
  · rintro ⟨p', hp', q', hq', h1, h2, h⟩
    rwa [idx_inj hp hp' h1, idx_inj hq hq' h2]
  · exact fun h => ⟨p, hp, q, hq, rfl, rfl, h⟩

theorem adjZ_symm (x y : ℤ) (h : adjZ tol dmin nS nD distS distD x y) : adjZ tol dmin nS nD distS distD y x := by
  obtain ⟨p, hp, q, hq, h1, h2, h⟩ := h
  exact ⟨q, hq, p, hp, h2, h1, cons2_symm h⟩

theorem adjZ_irrefl (x : ℤ) : ¬ adjZ tol dmin nS nD distS distD x x := by
  rintro ⟨p, hp, q, hq, h1, h2, h⟩
  have := idx_inj hp hq (h1.symm.trans h2)
  subst this
  exact h.1 rfl

theorem clique_image {F : Finset (ℕ × ℕ)} (hF : F ⊆ allPairs nS nD) :
    Clique (adjZ tol dmin nS nD distS distD) (F.image (idx nD)) ↔ Clique (cons2 tol dmin distS distD) F := by
  constructor
  · intro h p hp q hq hne
    exact (adjZ_idx (hF hp) (hF hq)).1 (h _ (Finset.mem_image_of_mem _ hp) _ (Finset.mem_image_of_mem _ hq) fun e => hne (idx_inj (hF hp) (hF hq) e))
  · intro h x hx y hy hne
    obtain ⟨p, hp, rfl⟩ := Finset.mem_image.1 hx
    obtain ⟨q, hq, rfl⟩ := Finset.mem_image.1 hy
    exact (adjZ_idx (hF hp) (hF hq)).2 (h p hp q hq fun e => hne (by rw [e]))

/-- The sets searched by `executeBronKerbosch` are the images of the maximal sets. -/
theorem ext_iff {C : Finset ℤ} : Ext (adjZ tol dmin nS nD distS distD) ((allPairs nS nD).image (idx nD)) ∅ C ↔
    ∃ F, MaximalClique (cons2 tol dmin distS distD) (allPairs nS nD) F ∧ C = F.image (idx nD) := by
  have hins : ∀ {F : Finset (ℕ × ℕ)}, F ⊆ allPairs nS nD → Clique (cons2 tol dmin distS distD) F → ∀ {v}, v ∈ allPairs nS nD → v ∉ F →
      (¬ Clique (cons2 tol dmin distS distD) (insert v F) ↔ ∃ c ∈ F.image (idx nD), ¬ adjZ tol dmin nS nD distS distD (idx nD v) c) := by
    intro F hF hc v hv hvF
    constructor
    · intro h
      by_contra hall
      push Not at hall
      have hadj : ∀ q ∈ F, cons2 tol dmin distS distD v q := fun q hq => (adjZ_idx hv (hF hq)).1 (hall _ (Finset.mem_image_of_mem _ hq))
      apply h
      intro x hx y hy hne
      rcases Finset.mem_insert.1 hx with hx | hx <;> rcases Finset.mem_insert.1 hy with hy | hy
      · exact absurd (hx.trans hy.symm) hne
      · rw [hx]; exact hadj y hy
      · rw [hy]; exact cons2_symm (hadj x hx)
      · exact hc x hx y hy hne
    · rintro ⟨c, hc', hn⟩ h
      obtain ⟨q, hq, rfl⟩ := Finset.mem_image.1 hc'
      exact hn ((adjZ_idx hv (hF hq)).2 (h v (by simp) q (by simp [hq]) fun e => hvF (e ▸ hq)))
  have hmem : ∀ {F : Finset (ℕ × ℕ)}, F ⊆ allPairs nS nD → ∀ {v}, v ∈ allPairs nS nD → (idx nD v ∈ F.image (idx nD) ↔ v ∈ F) := by
    intro F hF v hv
    constructor
    · intro h
      obtain ⟨q, hq, e⟩ := Finset.mem_image.1 h
      rwa [← idx_inj (hF hq) hv e]
    · exact Finset.mem_image_of_mem _
  constructor
  · rintro ⟨h1, h2, h3⟩
    obtain ⟨F, hF, rfl⟩ := Finset.subset_image_iff.1 h1
    have hc := (clique_image hF).1 h2
    refine ⟨F, ⟨hF, hc, fun v hv hvF => (hins hF hc hv hvF).2 ?_⟩, rfl⟩
    exact h3 _ (by rw [Finset.union_empty]; exact Finset.mem_image_of_mem _ hv) (by rwa [hmem hF hv])
  · rintro ⟨F, ⟨hF, hc, hm⟩, rfl⟩
    refine ⟨Finset.image_subset_image hF, (clique_image hF).2 hc, fun x hx hxF => ?_⟩
    rw [Finset.union_empty] at hx
    obtain ⟨v, hv, rfl⟩ := Finset.mem_image.1 hx
    rw [hmem hF hv] at hxF
    exact (hins hF hc hv hxF).1 (hm v hv hxF)

theorem represents {nodes : Vec Node} (hN : nS * nD ≤ 2147483647)
    (h : NodesOk nS nD (fun k l => ∃ a < nS, ∃ b < nD, ∃ c < nS, ∃ e < nD, k = a * nD + b ∧ l = c * nD + e ∧ Consistent dmin tol distS distD a b c e) nodes) :
    Represents nodes (adjZ tol dmin nS nD distS distD) := by
  refine ⟨by rw [h.1]; exact hN, fun k hk => ?_⟩
  rw [h.1] at hk
  obtain ⟨p, hp, e⟩ := exists_idx hk
  have hp' := hp
  simp only [allPairs, Finset.mem_product, Finset.mem_range] at hp'
  have ek : k = p.1 * nD + p.2 := Int.ofNat_inj.1 e
  obtain ⟨adj, h1, h2, h3⟩ := h.2 p.1 hp'.1 p.2 hp'.2
  rw [ek, h1]
  refine ⟨h2, fun j => ?_⟩
  dsimp only
  rw [h3]
  constructor
  · rintro ⟨k', rfl, a, ha, b, hb, c, hc, e, he, h4, h5, h6⟩
    exact ⟨(a, b), by simp [allPairs, ha, hb], (c, e), by simp [allPairs, hc, he], by rw [h4], by rw [h5], h6⟩
  · rintro ⟨q, hq, r, hr, h4, rfl, h6⟩
    simp only [allPairs, Finset.mem_product, Finset.mem_range] at hq hr
    exact ⟨_, rfl, q.1, hq.1, q.2, hq.2, r.1, hr.1, r.2, hr.2, Int.ofNat_inj.1 h4, rfl, h6⟩

theorem convert_ok {g : Graph K} {E : ℕ → ℕ → Prop} (hN : nS * nD ≤ 2147483647) (h : NodesOk nS nD E g.nodes) {S : LabelSet} (hS : Sorted S.labels) {F : Finset (ℕ × ℕ)}
    (hF : F ⊆ allPairs nS nD) (hSF : S.toFinset = F.image (idx nD)) : ∃ l, g.convertToAssociation S = .ok l ∧ Lists l F := by
  have key : ∀ ls : List ℤ, (∀ x ∈ ls, ∃ p ∈ F, x = idx nD p) → ls.Nodup → ∃ l, (ls.mapM fun node => (do
      let n ← g.nodes.get (Cxx.toSize node)
      return (n.isrc, n.idst) : Outcome (ℤ × ℤ))) = .ok l ∧ l.Nodup ∧ ∀ x, x ∈ l ↔ ∃ p ∈ F, idx nD p ∈ ls ∧ x = ((p.1 : ℤ), (p.2 : ℤ)) := by
    intro ls
    induction ls with
    | nil => exact fun _ _ => ⟨[], rfl, by simp, by simp⟩
    | cons x ls ih =>
      intro hx hnd
      obtain ⟨l, e, l1, l2⟩ := ih (fun y hy => hx y (by simp [hy])) (List.nodup_cons.1 hnd).2
      obtain ⟨p, hp, rfl⟩ := hx x (by simp)
      have hp' := hF hp
      simp only [allPairs, Finset.mem_product, Finset.mem_range] at hp'
      obtain ⟨-, i2, i3⟩ := nodeIndex_eq hN hp'.1 hp'.2
      obtain ⟨adj, h1, -⟩ := h.2 p.1 hp'.1 p.2 hp'.2
      refine ⟨((p.1 : ℤ), (p.2 : ℤ)) :: l, ?_, ?_, ?_⟩
      · rw [List.mapM_cons, idx, i3, Vec.get_nat _ (by rw [h.1]; exact i2), bind_ok, h1, e]
        rfl
      · rw [List.nodup_cons]
        refine ⟨fun hm => ?_, l1⟩
        obtain ⟨q, hq, hq1, hq2⟩ := (l2 _).1 hm
        simp only [Prod.mk.injEq, Int.ofNat_inj] at hq2
        rw [← Prod.ext_iff.2 hq2] at hq1
        exact (List.nodup_cons.1 hnd).1 hq1
      · intro y
        rw [List.mem_cons, l2]
        constructor
        · rintro (rfl | ⟨q, hq, hq1, rfl⟩)
          · exact ⟨p, hp, by simp, rfl⟩
          · exact ⟨q, hq, by simp [hq1], rfl⟩
        · rintro ⟨q, hq, hq1, rfl⟩
          rcases List.mem_cons.1 hq1 with hq1 | hq1
          · rw [idx_inj (hF hq) (hF hp) hq1]
            exact Or.inl rfl
          · exact Or.inr ⟨q, hq, hq1, rfl⟩
  obtain ⟨l, e, l1, l2⟩ := key S.labels (fun x hx => by
    rw [← mem_toFinset, hSF] at hx
    obtain ⟨p, hp, rfl⟩ := Finset.mem_image.1 hx
    exact ⟨p, hp, rfl⟩) (hS.imp fun h => ne_of_lt h)
  refine ⟨l, e, l1, fun x => ?_⟩
  rw [l2]
  constructor
  · rintro ⟨p, hp, -, hx⟩
    exact ⟨p, hp, hx⟩
  · rintro ⟨p, hp, hx⟩
    refine ⟨p, hp, ?_, hx⟩
    rw [← mem_toFinset, hSF]
    exact Finset.mem_image_of_mem _ hp

/-- C64, part: if the loop of `executeBronKerbosch` went on as if it visited a copy of the candidates and the counter did not reach 200, the *printed* cliques, converted by
`convertToAssociation`, would be the maximal sets of consistent correspondences, each printed once. Missing: the actual loop has undefined behaviour (`C64_undefined`), the cliques are not
returned (`C64_no_association`), the counter may reach 200 (`C64_limit`) and is never reset. -/
theorem C64_cliques_partial {srt : List (PairDistance K) → List (PairDistance K)} (hs : SortSpec srt) (hN : nS * nD ≤ 2147483647) {it it' : ℤ} {g' : Graph K} {printed : List LabelSet}
    {assoc : List (List (ℤ × ℤ))} (h : (setup srt tol dmin nS nD distS distD).associate true it = .ok (g', (it', printed), assoc)) (hlt : it' < 200) :
    printed.Nodup ∧
    (∀ S ∈ printed, ∃ l F, g'.convertToAssociation S = .ok l ∧ Lists l F ∧ MaximalClique (cons2 tol dmin distS distD) (allPairs nS nD) F) ∧
    ∀ F, MaximalClique (cons2 tol dmin distS distD) (allPairs nS nD) F → ∃ S ∈ printed, ∃ l, g'.convertToAssociation S = .ok l ∧ Lists l F := by
  obtain ⟨g1, e, o⟩ := build_ok hs tol dmin nS nD distS distD hN
  have e2 : bronKerbosch true g1.nodes 200 empty (allNodes g1.nodes.len) empty (it, []) = .ok (it', printed) ∧ g1 = g' := by
    rw [Graph.associate, Graph.associateCliques, e, bind_ok] at h
    cases e2 : bronKerbosch true g1.nodes 200 empty (allNodes g1.nodes.len) empty (it, []) with
    | error x => rw [e2] at h; cases h
    | ok r => rw [e2] at h; cases h; exact ⟨rfl, rfl⟩
  obtain ⟨e2, rfl⟩ := e2
  have hall := allNodes_ok g1.nodes.len
  have hV : (allNodes g1.nodes.len).toFinset = (allPairs nS nD).image (idx nD) := by
    ext x
    rw [mem_toFinset, hall.2, o.1, Finset.mem_image]
    constructor
    · rintro ⟨k, hk, rfl⟩
      obtain ⟨p, hp, ep⟩ := exists_idx hk
      exact ⟨p, hp, ep.symm⟩
    · rintro ⟨p, hp, rfl⟩
      simp only [allPairs, Finset.mem_product, Finset.mem_range] at hp
      exact ⟨_, (nodeIndex_eq hN hp.1 hp.2).2.1, rfl⟩
  obtain ⟨new, e3, a1, a2, a3⟩ := bronKerbosch_lax (represents hN o) adjZ_symm adjZ_irrefl 200 empty (allNodes g1.nodes.len) empty it it' [] printed List.Pairwise.nil hall.1 List.Pairwise.nil
    (by simp [empty]) (fun x hx => by obtain ⟨k, hk, rfl⟩ := (hall.2 x).1 hx; omega) hlt e2
  rw [List.nil_append] at e3
  subst e3
  rw [hV] at a3
  have hem : (empty : LabelSet).toFinset = ∅ := rfl
  simp only [hem, Finset.empty_union] at a3
  refine ⟨List.Nodup.of_map _ a2, fun S hS => ?_, fun F hF => ?_⟩
  · obtain ⟨C, hC, eC⟩ := (a3 S.toFinset).1 (List.mem_map_of_mem hS)
    obtain ⟨F, hF, rfl⟩ := ext_iff.1 hC
    obtain ⟨l, el, hl⟩ := convert_ok hN o (a1 S hS) hF.1 eC
    exact ⟨l, F, el, hl, hF⟩
  · obtain ⟨S, hS, eS⟩ := List.mem_map.1 ((a3 (F.image (idx nD))).2 ⟨_, ext_iff.2 ⟨F, hF, rfl⟩, rfl⟩)
    exact ⟨S, hS, convert_ok hN o (a1 S hS) hF.1 eS⟩

/-- With at most 7 correspondences (and a counter that starts from 0) the hypotheses of `C64_cliques_partial` hold. -/
theorem C64_small_partial {srt : List (PairDistance K) → List (PairDistance K)} (hs : SortSpec srt) {it : ℤ} (h0 : 0 ≤ it) (h : it + 2 ^ (nS * nD) < 200) :
    ∃ g' it' printed, (setup srt tol dmin nS nD distS distD).associate true it = .ok (g', (it', printed), []) ∧ it' < 200 := by
  have hsmall : nS * nD < 8 := by
    by_contra hc
    have : (2 : ℤ) ^ 8 ≤ 2 ^ (nS * nD) := by exact_mod_cast Nat.pow_le_pow_right (by norm_num) (by omega)
    omega
  have hN : nS * nD ≤ 2147483647 := by omega
  obtain ⟨g1, e, o⟩ := build_ok hs tol dmin nS nD distS distD hN
  have hall := allNodes_ok g1.nodes.len
  have hlen : (allNodes g1.nodes.len).labels.length ≤ nS * nD := by
    have h1 := sorted_length (b := ⟨(List.range (nS * nD)).map fun k : ℕ => (k : ℤ)⟩) hall.1 (fun x hx => by
      rw [mem_toFinset, hall.2, o.1] at hx
      obtain ⟨k, hk, rfl⟩ := hx
      rw [mem_toFinset]
      simpa using hk)
    simpa using h1
  have hpow : (2 : ℤ) ^ (allNodes g1.nodes.len).labels.length ≤ 2 ^ (nS * nD) := by exact_mod_cast Nat.pow_le_pow_right (by norm_num) hlen
  obtain ⟨st, e2, hst⟩ := bronKerbosch_total (represents hN o) adjZ_irrefl 200 empty (allNodes g1.nodes.len) empty it [] hall.1
    (fun x hx => by obtain ⟨k, hk, rfl⟩ := (hall.2 x).1 hx; omega) h0 (by omega) (by omega)
  refine ⟨g1, st.1, st.2, ?_, by omega⟩
  rw [Graph.associate, Graph.associateCliques, e, bind_ok, e2]
  rfl

/-- In all the calls of a program `executeBronKerbosch` prints fewer than 200 cliques, also in the lax semantics. -/
theorem C64_limit {lax : Bool} {g g' : Graph K} {it it' : ℤ} {printed : List LabelSet} {assoc : List (List (ℤ × ℤ))} (h0 : 0 ≤ it)
    (h : g.associate lax it = .ok (g', (it', printed), assoc)) : printed.length ≤ 199 ∧ (199 ≤ it → printed = []) := by
  unfold Graph.associate Graph.associateCliques at h
  cases e1 : g.pushNodes.addEdges with
  | error x => rw [e1] at h; cases h
  | ok g1 =>
    rw [e1, bind_ok] at h
    cases e2 : bronKerbosch lax g1.nodes 200 empty (allNodes g1.nodes.len) empty (it, []) with
    | error x => rw [e2] at h; cases h
    | ok r =>
      rw [e2] at h
      cases h
      have h1 := bronKerbosch_count e2
      have h2 := bronKerbosch_mono e2
      simp only [List.length_nil, Nat.cast_zero] at h1 h2
      refine ⟨by omega, fun h3 => ?_⟩
      have : printed.length = 0 := by omega
      exact List.length_eq_zero_iff.1 this

/-- Once the counter has reached 199, `associate` has a defined behaviour and finds nothing. -/
theorem C64_exhausted {srt : List (PairDistance K) → List (PairDistance K)} (hs : SortSpec srt) (hN : nS * nD ≤ 2147483647) (lax : Bool) {it : ℤ} (h0 : 199 ≤ it) (h1 : it < 2147483647) :
    ∃ g', (setup srt tol dmin nS nD distS distD).associate lax it = .ok (g', (it + 1, []), []) := by
  obtain ⟨g1, e, o⟩ := build_ok hs tol dmin nS nD distS distD hN
  refine ⟨g1, ?_⟩
  rw [Graph.associate, Graph.associateCliques, e, bind_ok, bronKerbosch, Cxx.int, if_pos (by omega), bind_ok, if_pos (by omega)]
  rfl

end

/-- With 200 or more correspondences, none consistent, some of the maximal sets (all the singletons) are not printed, also in the lax semantics. -/
theorem C64_limit_violated [LinearOrder K] [Add K] [Sub K] {lax : Bool} {tol dmin : K} {nS nD : ℕ} {distS distD : ℕ → ℕ → K} {g g' : Graph K} {it it' : ℤ} {printed : List LabelSet}
    {assoc : List (List (ℤ × ℤ))} (h0 : 0 ≤ it) (h : g.associate lax it = .ok (g', (it', printed), assoc)) (h200 : 200 ≤ nS * nD)
    (hno : ∀ a b c e, ¬ Consistent dmin tol distS distD a b c e) :
    ∃ F, MaximalClique (cons2 tol dmin distS distD) (allPairs nS nD) F ∧ ¬ ∃ S ∈ printed, ∃ l, g'.convertToAssociation S = .ok l ∧ Lists l F := by
  by_contra hc
  push Not at hc
  have hmax : ∀ p ∈ allPairs nS nD, MaximalClique (cons2 tol dmin distS distD) (allPairs nS nD) {p} := by
    intro p hp
    refine ⟨by simpa using hp, by simp [Clique], fun v hv hvp hcl => ?_⟩
    exact hno _ _ _ _ (hcl v (by simp) p (by simp) (by simpa using hvp))
  have hex : ∀ p, ∃ S, p ∈ allPairs nS nD → S ∈ printed ∧ ∃ l, g'.convertToAssociation S = .ok l ∧ Lists l {p} := by
    intro p
    by_cases hp : p ∈ allPairs nS nD
    · obtain ⟨S, hS, hl⟩ := hc _ (hmax p hp)
      exact ⟨S, fun _ => ⟨hS, hl⟩⟩
    · exact ⟨empty, fun h => absurd h hp⟩
  choose f hf using hex
  have hcard := Finset.card_le_card_of_injOn (s := allPairs nS nD) (t := printed.toFinset) f (fun p hp => by
      have := (hf p hp).1
      simpa using this) (fun p hp q hq e => by
    obtain ⟨-, l1, e1, -, m1⟩ := hf p hp
    obtain ⟨-, l2, e2, -, m2⟩ := hf q hq
    rw [e, e2] at e1
    cases e1
    obtain ⟨r, hr, e3⟩ := (m2 ((p.1 : ℤ), (p.2 : ℤ))).1 ((m1 _).2 ⟨p, by simp, rfl⟩)
    rw [Finset.mem_singleton.1 hr] at e3
    simp only [Prod.mk.injEq, Int.ofNat_inj] at e3
    exact Prod.ext_iff.2 e3)
  rw [allPairs, Finset.card_product, Finset.card_range, Finset.card_range] at hcard
  have h1 := List.toFinset_card_le printed
  have h2 := (C64_limit h0 h).1
  omega

/-- Example of C64: for two pairs of points at distance 3, the search (lax semantics) ends and prints the set `{0 → 0, 1 → 1}`. -/
example : ∃ g' it' printed, (setup isort (1 : ℚ) 0 2 2 (fun _ _ => 3) (fun _ _ => 3)).associate true 0 = .ok (g', (it', printed), []) ∧
    ∃ S ∈ printed, ∃ l, g'.convertToAssociation S = .ok l ∧ Lists l {(0, 0), (1, 1)} := by
  obtain ⟨g', it', printed, e, h⟩ := C64_small_partial (nS := 2) (nD := 2) (tol := (1 : ℚ)) (dmin := 0) (distS := fun _ _ => 3) (distD := fun _ _ => 3) isort_spec (le_refl (0 : ℤ)) (by norm_num)
  refine ⟨g', it', printed, e, (C64_cliques_partial isort_spec (by norm_num) e h).2.2 _ ⟨by decide, ?_, ?_⟩⟩
  · intro x hx y hy hne
    simp only [Finset.mem_insert, Finset.mem_singleton] at hx hy
    rcases hx with rfl | rfl <;> rcases hy with rfl | rfl
    · exact absurd rfl hne
    · norm_num [cons2, Consistent, dist2]
    · norm_num [cons2, Consistent, dist2]
    · exact absurd rfl hne
  · intro v hv hvF hcl
    have h1 := hcl v (by simp) (0, 0) (by simp) (fun e => hvF (by simp [e]))
    have h2 := hcl v (by simp) (1, 1) (by simp) (fun e => hvF (by simp [e]))
    have h3 := h1.1
    have h4 := h2.1
    simp only [allPairs, Finset.mem_product, Finset.mem_range] at hv
    dsimp only at h3 h4
    omega

end Verif.CorrGraph
