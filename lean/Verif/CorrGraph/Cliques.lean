import Verif.CorrGraph.Model
import Verif.CorrGraph.Spec
import Verif.LabelSet.Props
import Verif.Hough.Lemmas

/-! The search of the cliques. -/
namespace Verif.CorrGraph
open Verif LabelSet SortedList Spec
open _root_.Verif.Hough (bind_ok)

/-- A visit that returns. -/
theorem visit_ok {lax : Bool} {nodes : Vec Node} {call : LabelSet → LabelSet → LabelSet → ℤ × List LabelSet → Outcome (ℤ × List LabelSet)} {R : LabelSet}
    {r r' : (ℤ × List LabelSet) × LabelSet × LabelSet} {n : ℤ} (h : visit lax nodes call R r n = .ok r') :
    ∃ node, nodes.get (Cxx.toSize n) = .ok node ∧
      call (unionLabel R n) (intersection r.2.1 node.adjacents) (intersection r.2.2 node.adjacents) r.1 = .ok r'.1 ∧ r'.2 = (remove r.2.1 n, (LabelSet.insert r.2.2 n).2) := by
  unfold visit at h
  cases e1 : nodes.get (Cxx.toSize n) with
  | error x => rw [e1] at h; cases h
  | ok node =>
    rw [e1, bind_ok] at h
    refine ⟨node, rfl, ?_⟩
    cases e2 : call (unionLabel R n) (intersection r.2.1 node.adjacents) (intersection r.2.2 node.adjacents) r.1 with
    | error x => rw [e2] at h; cases h
    | ok st =>
      rw [e2, bind_ok] at h
      cases lax with
      | false => cases h
      | true => cases h; exact ⟨rfl, rfl⟩

theorem visits_mono {lax : Bool} {nodes : Vec Node} {call : LabelSet → LabelSet → LabelSet → ℤ × List LabelSet → Outcome (ℤ × List LabelSet)} {R : LabelSet}
    (hc : ∀ {R P X st st'}, call R P X st = .ok st' → st.1 < st'.1) (l : List ℤ) (r r' : (ℤ × List LabelSet) × LabelSet × LabelSet)
    (h : l.foldlM (visit lax nodes call R) r = .ok r') : r.1.1 ≤ r'.1.1 := by
  induction l generalizing r with
  | nil => cases h; exact le_rfl
  | cons n l ih =>
    rw [List.foldlM_cons] at h
    cases e : visit lax nodes call R r n with
    | error x => rw [e] at h; cases h
    | ok r1 =>
      rw [e, bind_ok] at h
      obtain ⟨node, -, e2, -⟩ := visit_ok e
      have := hc e2
      have := ih _ h
      omega

theorem bronKerbosch_mono {lax : Bool} {nodes : Vec Node} {fuel : ℕ} {R P X : LabelSet} {st st' : ℤ × List LabelSet}
    (h : bronKerbosch lax nodes fuel R P X st = .ok st') : st.1 < st'.1 := by
  induction fuel generalizing R P X st st' with
  | zero => cases h
  | succ fuel ih =>
    rw [bronKerbosch] at h
    by_cases hi : -2147483648 ≤ st.1 + 1 ∧ st.1 + 1 ≤ 2147483647
    · rw [Cxx.int, if_pos hi, bind_ok] at h
      split_ifs at h
      · cases h; dsimp only; omega
      · cases h; dsimp only; omega
      · generalize e : (P.labels.foldlM _ _ : Outcome ((ℤ × List LabelSet) × LabelSet × LabelSet)) = z at h
        cases z with
        | error x => cases h
        | ok r =>
          have := visits_mono ih _ _ _ e
          cases h
          dsimp only at this
          omega
    · rw [Cxx.int, if_neg hi] at h
      cases h

/-- The test on the counter bounds the depth of the recursion: the fuel is not exhausted. -/
theorem bronKerbosch_fuel (lax : Bool) (nodes : Vec Node) (fuel : ℕ) (R P X : LabelSet) (st : ℤ × List LabelSet) (h : 200 ≤ st.1 + fuel) (hf : 1 ≤ fuel) :
    bronKerbosch lax nodes fuel R P X st ≠ .error .fuel := by
  induction fuel generalizing R P X st with
  | zero => omega
  | succ fuel ih =>
    rw [bronKerbosch]
    by_cases hi : -2147483648 ≤ st.1 + 1 ∧ st.1 + 1 ≤ 2147483647
    · rw [Cxx.int, if_pos hi, bind_ok]
      split_ifs with h1 h2
      · nofun
      · nofun
      · have key : ∀ (l : List ℤ) (r : (ℤ × List LabelSet) × LabelSet × LabelSet), st.1 + 1 ≤ r.1.1 →
            l.foldlM (visit lax nodes (bronKerbosch lax nodes fuel) R) r ≠ .error .fuel := by
          intro l
          induction l with
          | nil => exact fun r _ => nofun
          | cons n l ihl =>
            intro r hr
            rw [List.foldlM_cons]
            cases e : visit lax nodes (bronKerbosch lax nodes fuel) R r n with
            | ok r1 =>
              obtain ⟨node, -, e2, -⟩ := visit_ok e
              have := bronKerbosch_mono e2
              exact ihl _ (by omega)
            | error x =>
              intro e'
              cases e'
              unfold visit at e
              cases e1 : nodes.get (Cxx.toSize n) with
              | error x =>
                rw [e1] at e
                unfold Vec.get at e1
                split_ifs at e1
                cases e1
                cases e
              | ok node =>
                rw [e1, bind_ok] at e
                cases e2 : bronKerbosch lax nodes fuel (unionLabel R n) (intersection r.2.1 node.adjacents) (intersection r.2.2 node.adjacents) r.1 with
                | error x =>
                  rw [e2] at e
                  cases e
                  exact ih _ _ _ r.1 (by push_cast at h; omega) (by push_cast at h; omega) e2
                | ok st =>
                  rw [e2, bind_ok] at e
                  cases lax <;> cases e
        have k1 := key P.labels ((st.1 + 1, st.2), P, X) le_rfl
        generalize (P.labels.foldlM _ _ : Outcome ((ℤ × List LabelSet) × LabelSet × LabelSet)) = z at k1
        cases z with
        | error x => exact fun e => by cases e; exact k1 rfl
        | ok r => nofun
    · rw [Cxx.int, if_neg hi]
      nofun

/-- With the semantics of C++ the search has undefined behaviour as soon as there is a candidate. -/
theorem bronKerbosch_strict (nodes : Vec Node) (fuel : ℕ) (R P X : LabelSet) (it : ℤ) (out : List LabelSet) (hP : P.labels ≠ []) (h0 : 0 ≤ it) (h1 : it < 199)
    (hf : 200 ≤ it + fuel) : ∃ k, bronKerbosch false nodes fuel R P X (it, out) = .error (.ub k) := by
  induction fuel generalizing R P X it out with
  | zero => omega
  | succ fuel ih =>
    obtain ⟨n, l, e⟩ := List.exists_cons_of_ne_nil hP
    rw [bronKerbosch, Cxx.int, if_pos (by omega), bind_ok, if_neg (by omega), if_neg (by simp [isEmpty, e]), e, List.foldlM_cons, visit]
    cases e1 : nodes.get (Cxx.toSize n) with
    | error x =>
      unfold Vec.get at e1
      split_ifs at e1
      cases e1
      exact ⟨_, rfl⟩
    | ok node =>
      rw [bind_ok]
      cases e2 : bronKerbosch false nodes fuel (unionLabel R n) (intersection P node.adjacents) (intersection X node.adjacents) (it + 1, out) with
      | ok st =>
        refine ⟨.iterInvalid, ?_⟩
        rw [bind_ok]
        rfl
      | error x =>
        by_cases hlast : it + 1 < 199
        · by_cases hQ : (intersection P node.adjacents).labels = []
          · cases fuel with
            | zero => push_cast at hf; omega
            | succ fuel =>
              exfalso
              rw [bronKerbosch, Cxx.int, if_pos (by omega), bind_ok, if_neg (by omega)] at e2
              split_ifs at e2
              · cases e2
              · rw [hQ] at e2
                cases e2
          · obtain ⟨k, e3⟩ := ih (unionLabel R n) (intersection P node.adjacents) (intersection X node.adjacents) (it + 1) out hQ (by omega) hlast (by push_cast at hf; omega)
            rw [e2] at e3
            cases e3
            exact ⟨k, rfl⟩
        · exfalso
          cases fuel with
          | zero => push_cast at hf; omega
          | succ fuel =>
            rw [bronKerbosch, Cxx.int, if_pos (by omega), bind_ok, if_pos (by omega)] at e2
            cases e2

/-- The printed sets: `C` is a clique of candidates that no candidate and no excluded node extends. -/
def Ext (adj : ℤ → ℤ → Prop) (P X C : Finset ℤ) : Prop :=
  C ⊆ P ∧ Clique adj C ∧ ∀ v ∈ P ∪ X, v ∉ C → ∃ c ∈ C, ¬ adj v c

theorem ext_empty (adj : ℤ → ℤ → Prop) (X C : Finset ℤ) : Ext adj ∅ X C ↔ C = ∅ ∧ X = ∅ := by
  constructor
  · rintro ⟨h1, -, h3⟩
    have hC := Finset.subset_empty.1 h1
    subst hC
    refine ⟨rfl, Finset.eq_empty_of_forall_notMem fun v hv => ?_⟩
    obtain ⟨c, hc, -⟩ := h3 v (by simpa using hv) (by simp)
    simp at hc
  · rintro ⟨rfl, rfl⟩
    exact ⟨by simp, by simp [Clique], by simp⟩

theorem ext_in {adj : ℤ → ℤ → Prop} (hs : ∀ x y, adj x y → adj y x) (hi : ∀ x, ¬ adj x x) {P X A C : Finset ℤ} {n : ℤ} (hn : n ∈ P)
    (hA : ∀ v, v ∈ A ↔ adj n v) (hC : n ∉ C) : Ext adj P X (insert n C) ↔ Ext adj (P ∩ A) (X ∩ A) C := by
  constructor
  · rintro ⟨h1, h2, h3⟩
    refine ⟨fun x hx => ?_, fun x hx y hy => h2 x (by simp [hx]) y (by simp [hy]), fun v hv hvC => ?_⟩
    · rw [Finset.mem_inter, hA]
      exact ⟨h1 (by simp [hx]), h2 n (by simp) x (by simp [hx]) (fun e => hC (e ▸ hx))⟩
    · rw [Finset.mem_union, Finset.mem_inter, Finset.mem_inter, ← or_and_right, hA] at hv
      obtain ⟨c, hc, hc'⟩ := h3 v (Finset.mem_union.2 hv.1) (by
        rw [Finset.mem_insert]
        rintro (rfl | h)
        · exact hi _ hv.2
        · exact hvC h)
      rw [Finset.mem_insert] at hc
      rcases hc with rfl | hc
      · exact absurd (hs _ _ hv.2) hc'
      · exact ⟨c, hc, hc'⟩
  · rintro ⟨h1, h2, h3⟩
    have hadj : ∀ x ∈ C, x ∈ P ∧ adj n x := fun x hx => by simpa [hA] using h1 hx
    refine ⟨?_, ?_, ?_⟩
    · intro x hx
      rcases Finset.mem_insert.1 hx with rfl | hx
      · exact hn
      · exact (hadj x hx).1
    · intro x hx y hy hne
      rcases Finset.mem_insert.1 hx with rfl | hx <;> rcases Finset.mem_insert.1 hy with rfl | hy
      · exact absurd rfl hne
      · exact (hadj y hy).2
      · exact hs _ _ (hadj x (by assumption)).2
      · exact h2 x hx y hy hne
    · intro v hv hvC
      rw [Finset.mem_insert, not_or] at hvC
      by_cases ha : adj n v
      · obtain ⟨c, hc, hc'⟩ := h3 v (by
          rw [Finset.mem_union, Finset.mem_inter, Finset.mem_inter, ← or_and_right, hA]
          exact ⟨Finset.mem_union.1 hv, ha⟩) hvC.2
        exact ⟨c, by simp [hc], hc'⟩
      · exact ⟨n, by simp, fun h => ha (hs _ _ h)⟩

theorem ext_out {adj : ℤ → ℤ → Prop} {P P' X C : Finset ℤ} {n : ℤ} (hP : P = insert n P') (hC : n ∉ C) :
    Ext adj P X C ↔ Ext adj P' (insert n X) C := by
  subst hP
  unfold Ext
  rw [Finset.insert_union, Finset.union_insert]
  refine and_congr_left fun _ => ⟨fun h x hx => ?_, fun h x hx => by simp [h hx]⟩
  rcases Finset.mem_insert.1 (h hx) with rfl | h'
  · exact absurd hx hC
  · exact h'

/-- The nodes represent the graph: node `k` has a sorted set of neighbours given by `adj`. -/
def Represents (nodes : Vec Node) (adj : ℤ → ℤ → Prop) : Prop :=
  nodes.len ≤ 2147483647 ∧ ∀ k : ℕ, k < nodes.len → Sorted (nodes.val k).adjacents.labels ∧ ∀ j, j ∈ (nodes.val k).adjacents.labels ↔ adj k j

/-- What a search adds to the printed cliques. -/
def Adds (adj : ℤ → ℤ → Prop) (R P X : Finset ℤ) (new : List LabelSet) : Prop :=
  (∀ S ∈ new, Sorted S.labels) ∧ (new.map LabelSet.toFinset).Nodup ∧ ∀ F, F ∈ new.map LabelSet.toFinset ↔ ∃ C, Ext adj P X C ∧ F = R ∪ C

theorem mem_toFinset (a : LabelSet) (x : ℤ) : x ∈ a.toFinset ↔ x ∈ a.labels := by
  simp [LabelSet.toFinset]

theorem sorted_inter (a b : LabelSet) : Sorted (intersection a b).labels := sorted_insertRange List.Pairwise.nil

theorem toFinset_inter {a b : LabelSet} (ha : Sorted a.labels) (hb : Sorted b.labels) : (intersection a b).toFinset = a.toFinset ∩ b.toFinset := by
  ext z
  rw [Finset.mem_inter, mem_toFinset, mem_toFinset, mem_toFinset, intersection, ofRange, mem_insertRange, mem_setIntersection _ _ ha hb]
  simp

theorem toFinset_insert {a : LabelSet} (ha : Sorted a.labels) (x : ℤ) : (LabelSet.insert a x).2.toFinset = insert x a.toFinset := by
  ext z
  rw [Finset.mem_insert, mem_toFinset, mem_toFinset, LabelSet.insert]
  dsimp only
  split_ifs with e
  · exact mem_insert _
  · have := (contains_iff ha).1 (by simpa [inside] using e)
    rw [iff_or_self]
    rintro rfl
    exact this

/-- With the lax semantics, a search that ends before the bound on the iterations prints each maximal extension exactly once. -/
theorem bronKerbosch_lax {nodes : Vec Node} {adj : ℤ → ℤ → Prop} (hn : Represents nodes adj) (hs : ∀ x y, adj x y → adj y x) (hi : ∀ x, ¬ adj x x)
    (fuel : ℕ) (R P X : LabelSet) (it it' : ℤ) (out out' : List LabelSet) (hR : Sorted R.labels) (hP : Sorted P.labels) (hX : Sorted X.labels)
    (hd : ∀ x ∈ R.labels, x ∉ P.labels) (hb : ∀ x ∈ P.labels, 0 ≤ x ∧ x < nodes.len) (h200 : it' < 200)
    (h : bronKerbosch true nodes fuel R P X (it, out) = .ok (it', out')) :
    ∃ new, out' = out ++ new ∧ Adds adj R.toFinset P.toFinset X.toFinset new := by
  induction fuel generalizing R P X it out it' out' with
  | zero => cases h
  | succ fuel ih =>
    rw [bronKerbosch] at h
    by_cases hi' : -2147483648 ≤ it + 1 ∧ it + 1 ≤ 2147483647
    swap
    · rw [Cxx.int, if_neg hi'] at h
      cases h
    rw [Cxx.int, if_pos hi', bind_ok] at h
    split_ifs at h with h1 h2
    · cases h; omega
    · cases h
      rw [Bool.and_eq_true] at h2
      have hP0 : P.toFinset = ∅ := by rw [LabelSet.toFinset, List.isEmpty_iff.1 h2.1]; rfl
      have hX0 : X.toFinset = ∅ := by rw [LabelSet.toFinset, List.isEmpty_iff.1 h2.2]; rfl
      refine ⟨[R], rfl, by simpa using hR, by simp, fun F => ?_⟩
      rw [hP0, hX0]
      simp [ext_empty]
    · have key : ∀ (l : List ℤ) (X : LabelSet) (it it' : ℤ) (out out' : List LabelSet) (z : LabelSet × LabelSet), Sorted l → Sorted X.labels → (∀ x ∈ R.labels, x ∉ l) →
          (∀ x ∈ l, 0 ≤ x ∧ x < nodes.len) → it' < 200 → (l = [] → X.labels ≠ []) → 
          (l.foldlM (visit true nodes (bronKerbosch true nodes fuel) R) ((it, out), ⟨l⟩, X) : Outcome _) = .ok ((it', out'), z) →
          ∃ new, out' = out ++ new ∧ Adds adj R.toFinset l.toFinset X.toFinset new := by
        intro l
        induction l with
        | nil =>
          intro X it it' out out' z _ _ _ _ _ h0 e
          cases e
          refine ⟨[], by simp, by simp, by simp, fun F => ?_⟩
          have hne : X.toFinset ≠ ∅ := by
            intro e
            exact h0 rfl (List.toFinset_eq_empty_iff _ |>.1 e)
          simp [ext_empty, hne]
        | cons n l ihl =>
          intro X it it' out out' z hsl hX hd hb h200 _ e
          have hbn := hb n (by simp)
          have hto : Cxx.toSize n = n.toNat := by
            have := hn.1
            unfold Cxx.toSize
            omega
          have hnl : n ∉ l := fun hm => lt_irrefl n ((List.pairwise_cons.1 hsl).1 n hm)
          rw [List.foldlM_cons, visit, hto, Vec.get_nat _ (by omega), bind_ok] at e
          obtain ⟨a1, a2⟩ := hn.2 n.toNat (by omega)
          rw [Int.toNat_of_nonneg hbn.1] at a2
          generalize nodes.val n.toNat = node at *
          cases e2 : bronKerbosch true nodes fuel (unionLabel R n) (intersection ⟨n :: l⟩ node.adjacents) (intersection X node.adjacents) (it, out) with
          | error x => dsimp only at e; rw [e2] at e; cases e
          | ok st =>
            dsimp only at e
            rw [e2, bind_ok, if_pos rfl] at e
            have hrem : remove ⟨n :: l⟩ n = ⟨l⟩ := by simp [remove, SortedList.erase]
            rw [hrem] at e
            have hA : ∀ v, v ∈ node.adjacents.toFinset ↔ adj n v := fun v => by rw [mem_toFinset, a2]
            have hmono : st.1 ≤ it' := visits_mono bronKerbosch_mono _ _ _ e
            obtain ⟨new1, o1, p1, p2, p3⟩ := ih (unionLabel R n) (intersection ⟨n :: l⟩ node.adjacents) (intersection X node.adjacents) it st.1 out st.2 
              (sorted_insert' hR n) (sorted_inter _ _) (sorted_inter _ _)
              (by
                intro x hx hx'
                rw [← mem_toFinset, toFinset_inter hsl a1, Finset.mem_inter, hA] at hx'
                rw [unionLabel, ← mem_toFinset, toFinset_insert hR, Finset.mem_insert] at hx
                rcases hx with rfl | hx
                · exact hi _ hx'.2
                · exact hd x ((mem_toFinset _ _).1 hx) ((mem_toFinset _ _).1 hx'.1))
              (by
                intro x hx
                rw [← mem_toFinset, toFinset_inter hsl a1, Finset.mem_inter] at hx
                exact hb x ((mem_toFinset _ _).1 hx.1)) (by omega) e2
            obtain ⟨new2, o2, q1, q2, q3⟩ := ihl (LabelSet.insert X n).2 st.1 it' st.2 out' z (List.pairwise_cons.1 hsl).2 (sorted_insert' hX n)
              (fun x hx hx' => hd x hx (by simp [hx'])) (fun x hx => hb x (by simp [hx])) h200
              (fun _ e0 => by
                have : n ∈ (LabelSet.insert X n).2.toFinset := by rw [toFinset_insert hX]; simp
                rw [mem_toFinset, e0] at this
                simp at this) e
            refine ⟨new1 ++ new2, by rw [o2, o1, List.append_assoc], ?_, ?_, ?_⟩
            · intro S hS
              rcases List.mem_append.1 hS with hS | hS
              · exact p1 S hS
              · exact q1 S hS
            · rw [List.map_append, List.nodup_append]
              refine ⟨p2, q2, ?_⟩
              rintro F hF G hG rfl
              obtain ⟨C, -, rfl⟩ := (p3 F).1 hF
              obtain ⟨D, hD, e⟩ := (q3 _).1 hG
              have hm : n ∈ R.toFinset ∪ D := by
                rw [← e, unionLabel, toFinset_insert hR]
                simp
              rcases Finset.mem_union.1 hm with hm | hm
              · exact hd n ((mem_toFinset _ _).1 hm) (by simp)
              · exact hnl (by simpa using hD.1 hm)
            · intro F
              rw [List.map_append, List.mem_append, p3, q3, toFinset_inter hsl a1, toFinset_inter hX a1, unionLabel, toFinset_insert hR, toFinset_insert hX]
              have hP : (n :: l).toFinset = insert n l.toFinset := List.toFinset_cons
              constructor
              · rintro (⟨C, hC, rfl⟩ | ⟨C, hC, rfl⟩)
                · have hnC : n ∉ C := fun hm => by
                    have := hC.1 hm
                    rw [Finset.mem_inter, hA] at this
                    exact hi _ this.2
                  refine ⟨insert n C, (ext_in hs hi (by simp) hA hnC).2 hC, ?_⟩
                  rw [Finset.insert_union, Finset.union_insert]
                · have hnC : n ∉ C := fun hm => hnl (by simpa using hC.1 hm)
                  exact ⟨C, (ext_out hP hnC).2 hC, rfl⟩
              · rintro ⟨C, hC, rfl⟩
                by_cases hnC : n ∈ C
                · left
                  refine ⟨C.erase n, (ext_in hs hi (n := n) (P := (n :: l).toFinset) (by simp) hA (Finset.notMem_erase n C)).1 (by rwa [Finset.insert_erase hnC]), ?_⟩
                  rw [Finset.insert_union, ← Finset.union_insert, Finset.insert_erase hnC]
                · right
                  exact ⟨C, (ext_out hP hnC).1 hC, rfl⟩
      generalize e : (P.labels.foldlM _ _ : Outcome ((ℤ × List LabelSet) × LabelSet × LabelSet)) = w at h
      cases w with
      | error x => cases h
      | ok r =>
        obtain ⟨⟨r1, r2⟩, r3⟩ := r
        cases h
        exact key P.labels X (it + 1) _ out _ r3 hP hX hd hb h200 (fun e0 e1 => h2 (by simp [isEmpty, e0, e1])) e

end Verif.CorrGraph
