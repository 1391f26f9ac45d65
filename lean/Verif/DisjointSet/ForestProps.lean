import Verif.DisjointSet.OrderProps
import Mathlib.Algebra.Order.Field.Rat
import Mathlib.Algebra.BigOperators.Group.List.Basic
import Mathlib.Tactic.Linarith

/-! Property theorems C178 (see properties.jsonl): the pairs that `join` does not find connected are a spanning forest, of least weight if the pairs are sorted. -/
namespace Verif.DisjointSet
open Verif Spec

/-- A client of the structure: joins the pairs in their order and keeps those for which `join` (disjoint_set.cpp:75-96) does not return the number of items, that is, for which there were two sets. -/
def keepNew (s : State) : List (ℕ × ℕ) → Outcome (List (ℕ × ℕ) × State)
  | [] => .ok ([], s)
  | p :: J => do
    let (r, s') ← join s p.1 p.2
    let (K, t) ← keepNew s' J
    return (if r = s.nodes.len then K else p :: K, t)

/-- Items linked by chains of pairs of the list. -/
def Linked (L : List (ℕ × ℕ)) (i j : ℕ) : Prop := Relation.EqvGen (fun x y => (x, y) ∈ L) i j

/-- The sets of `n` items linked by the pairs. -/
noncomputable def parts (n : ℕ) (L : List (ℕ × ℕ)) : ℕ := (classes ⟨n, L, 0, 0⟩).card

/-- The pairs have no cycle: every pair makes the number of sets less by one. -/
def IsForest (n : ℕ) (L : List (ℕ × ℕ)) : Prop := parts n L + L.length = n

/-- The pairs are between items. -/
def Within (n : ℕ) (L : List (ℕ × ℕ)) : Prop := ∀ p ∈ L, p.1 < n ∧ p.2 < n

theorem exists_sim {n : ℕ} {L : List (ℕ × ℕ)} (h : Within n L) : ∃ s root, Sim s ⟨n, L, 0, 0⟩ root := by
  obtain ⟨s, root, -, hs⟩ := run_sim (joins n L.reverse) (valid_joins fun p hp => h p (List.mem_reverse.1 hp))
  rw [absOf_joins, List.reverse_reverse] at hs
  exact ⟨s, root, hs⟩

theorem parts_eq {n : ℕ} {L : List (ℕ × ℕ)} {s : State} {root : ℕ → ℕ} (h : Sim s ⟨n, L, 0, 0⟩ root) : (parts n L : ℤ) = s.setNum := by
  have := h.num
  unfold parts
  rw [classes_card h, this]
  simp

theorem linked_up {L L' : List (ℕ × ℕ)} (h : ∀ p ∈ L, Linked L' p.1 p.2) {i j : ℕ} (hc : Linked L i j) : Linked L' i j := by
  induction hc with
  | rel x y hxy => exact h (x, y) hxy
  | refl x => exact .refl x
  | symm x y _ ih => exact .symm _ _ ih
  | trans x y z _ _ i1 i2 => exact .trans _ _ _ i1 i2

theorem linked_of_mem {L : List (ℕ × ℕ)} {p : ℕ × ℕ} (h : p ∈ L) : Linked L p.1 p.2 := .rel _ _ h

theorem linked_mono {L L' : List (ℕ × ℕ)} (h : ∀ p ∈ L, p ∈ L') {i j : ℕ} (hc : Linked L i j) : Linked L' i j :=
  linked_up (fun p hp => linked_of_mem (h p hp)) hc

theorem parts_congr {n : ℕ} {L L' : List (ℕ × ℕ)} (h : ∀ i j, Linked L i j ↔ Linked L' i j) : parts n L = parts n L' := by
  have hc : ∀ a, cls ⟨n, L, 0, 0⟩ a = cls ⟨n, L', 0, 0⟩ a := fun a => by
    unfold cls
    ext j
    simp only [Finset.mem_filter]
    exact and_congr_right fun _ => h a j
  unfold parts classes
  exact congrArg Finset.card (Finset.image_congr fun a _ => hc a)

theorem parts_cons {n : ℕ} {L : List (ℕ × ℕ)} (hL : Within n L) {p : ℕ × ℕ} (hp : p.1 < n ∧ p.2 < n) :
    (Linked L p.1 p.2 → parts n (p :: L) = parts n L) ∧ (¬ Linked L p.1 p.2 → parts n (p :: L) + 1 = parts n L) := by
  obtain ⟨s, root, hs⟩ := exists_sim hL
  obtain ⟨r, s', root', hj, hs', -, hcase⟩ := join_sim hs hp.1 hp.2
  have e' := parts_eq (L := p :: L) (by simpa [Abs.step] using hs')
  have e := parts_eq hs
  have hc : Linked L p.1 p.2 ↔ root p.1 = root p.2 := hs.conn_iff hp.1 hp.2
  rcases join_ok hs.inv (a := p.1) (b := p.2) (by rw [hs.len]; exact hp.1) (by rw [hs.len]; exact hp.2) with ⟨hab, s1, hj1, hn, -, -⟩ | ⟨hab, l, w, s1, -, hj1, hn, -, -⟩
  all_goals
    rw [hj] at hj1
    obtain ⟨-, rfl⟩ := Prod.mk.inj (Except.ok.inj hj1)
  · exact ⟨fun _ => by omega, fun h => absurd (hc.2 hab) h⟩
  · exact ⟨fun h => absurd (hc.1 h) hab, fun _ => by omega⟩

theorem parts_nil (n : ℕ) : parts n [] = n := by
  have h := init_sim ⟨0, [], 0, 0⟩ (n : ℤ)
  have e := parts_eq (n := n) (L := []) (by simpa [Abs.step] using h)
  simp only [initSets] at e
  exact_mod_cast e

theorem Within.tail {n : ℕ} {p : ℕ × ℕ} {L : List (ℕ × ℕ)} (h : Within n (p :: L)) : Within n L := fun q hq => h q (List.mem_cons_of_mem _ hq)

theorem parts_append_le {n : ℕ} (L : List (ℕ × ℕ)) {M : List (ℕ × ℕ)} (h : Within n (L ++ M)) : parts n (L ++ M) ≤ parts n M ∧ parts n M ≤ parts n (L ++ M) + L.length := by
  induction L with
  | nil => simp
  | cons p L ih =>
    have h' : Within n (p :: (L ++ M)) := h
    obtain ⟨i1, i2⟩ := ih h'.tail
    obtain ⟨c1, c2⟩ := parts_cons h'.tail (h' p (by simp))
    rw [List.cons_append, List.length_cons]
    by_cases hc : Linked (L ++ M) p.1 p.2
    · have := c1 hc
      omega
    · have := c2 hc
      omega

/-- More links, fewer sets. -/
theorem parts_anti {n : ℕ} {L L' : List (ℕ × ℕ)} (hL : Within n L) (hL' : Within n L') (h : ∀ p ∈ L, Linked L' p.1 p.2) : parts n L' ≤ parts n L := by
  have hw : Within n (L' ++ L) := fun p hp => (List.mem_append.1 hp).elim (hL' p) (hL p)
  have e : parts n L' = parts n (L' ++ L) := parts_congr fun i j => by
    constructor
    · exact linked_mono fun p hp => List.mem_append_left _ hp
    · exact linked_up fun p hp => (List.mem_append.1 hp).elim linked_of_mem (h p)
  rw [e]
  exact (parts_append_le L' hw).1

theorem le_parts {n : ℕ} {L : List (ℕ × ℕ)} (h : Within n L) : n ≤ parts n L + L.length := by
  have := (parts_append_le L (M := []) (by simpa using h)).2
  rwa [parts_nil, List.append_nil] at this

/-- The choice of the client: with the pairs of `L` joined, of `J` the pairs of `K` are kept. -/
inductive Kept : List (ℕ × ℕ) → List (ℕ × ℕ) → List (ℕ × ℕ) → Prop
  | nil (L) : Kept L [] []
  | skip {L p J K} : Linked L p.1 p.2 → Kept (p :: L) J K → Kept L (p :: J) K
  | keep {L p J K} : ¬ Linked L p.1 p.2 → Kept (p :: L) J K → Kept L (p :: J) (p :: K)

theorem keepNew_sim {n : ℕ} (J : List (ℕ × ℕ)) (hJ : Within n J) : ∀ (L : List (ℕ × ℕ)) (s : State) (root : ℕ → ℕ), Sim s ⟨n, L, 0, 0⟩ root →
    ∃ K t root', keepNew s J = .ok (K, t) ∧ Kept L J K ∧ Sim t ⟨n, J.reverse ++ L, 0, 0⟩ root' := by
  induction J with
  | nil => intro L s root h; exact ⟨[], s, root, rfl, .nil L, by simpa using h⟩
  | cons p J ih =>
    intro L s root h
    obtain ⟨hp1, hp2⟩ := hJ p (by simp)
    obtain ⟨r, s', root', hj, hs', hl, hcase⟩ := join_sim h hp1 hp2
    obtain ⟨K, t, root'', hk, hK, ht⟩ := ih hJ.tail (p :: L) s' root' (by simpa [Abs.step] using hs')
    have hc : Linked L p.1 p.2 ↔ root p.1 = root p.2 := h.conn_iff hp1 hp2
    refine ⟨if r = s.nodes.len then K else p :: K, t, root'', ?_, ?_, by simpa using ht⟩
    · unfold keepNew
      rw [hj]
      show (keepNew s' J >>= _) = _
      rw [hk]
      rfl
    · rw [h.len]
      rcases hcase with ⟨hab, -, hr⟩ | ⟨hab, hr, -, -⟩
      · rw [if_pos hr]
        exact .skip (hc.2 hab) hK
      · have hlt := hs'.inv.rootLt p.1 (by rw [hs'.len]; exact hp1)
        rw [hs'.len] at hlt
        have hne : r ≠ ((n : ℕ) : ℤ) := by
          rw [hr]
          have : root' p.1 < n := hlt
          omega
        rw [if_neg hne]
        exact .keep (fun hh => hab (hc.1 hh)) hK

theorem Kept.sublist {L J K : List (ℕ × ℕ)} (h : Kept L J K) : K.Sublist J := by
  induction h with
  | nil L => exact .slnil
  | skip _ _ ih => exact ih.cons _
  | keep _ _ ih => exact ih.cons₂ _

theorem Kept.links {L J K : List (ℕ × ℕ)} (h : Kept L J K) : ∀ p ∈ J, Linked (K ++ L) p.1 p.2 := by
  induction h with
  | nil L => simp
  | @skip L p J K hc _ ih =>
    have up : ∀ {q : ℕ × ℕ}, Linked (K ++ p :: L) q.1 q.2 → Linked (K ++ L) q.1 q.2 := fun hq => by
      refine linked_up (fun x hx => ?_) hq
      rcases List.mem_append.1 hx with h | h
      · exact linked_of_mem (List.mem_append_left _ h)
      · rcases List.mem_cons.1 h with rfl | h
        · exact linked_mono (fun y hy => List.mem_append_right _ hy) hc
        · exact linked_of_mem (List.mem_append_right _ h)
    intro q hq
    rcases List.mem_cons.1 hq with rfl | hq
    · exact linked_mono (fun y hy => List.mem_append_right _ hy) hc
    · exact up (ih q hq)
  | @keep L p J K _ _ ih =>
    intro q hq
    rcases List.mem_cons.1 hq with rfl | hq
    · exact linked_of_mem (by simp)
    · refine linked_mono (fun x hx => ?_) (ih q hq)
      simp only [List.mem_append, List.mem_cons] at hx ⊢
      tauto

theorem Kept.count {n : ℕ} {L J K : List (ℕ × ℕ)} (h : Kept L J K) (hJ : Within n J) (hL : Within n L) : parts n (J.reverse ++ L) + K.length = parts n L := by
  induction h with
  | nil L => simp
  | @skip L p J K hc _ ih =>
    have hp := hJ p (by simp)
    have := ih hJ.tail (fun q hq => (List.mem_cons.1 hq).elim (fun e => e ▸ hp) (hL q))
    rw [(parts_cons hL hp).1 hc] at this
    simpa using this
  | @keep L p J K hc _ ih =>
    have hp := hJ p (by simp)
    have := ih hJ.tail (fun q hq => (List.mem_cons.1 hq).elim (fun e => e ▸ hp) (hL q))
    have h2 := (parts_cons hL hp).2 hc
    rw [List.reverse_cons, List.append_assoc, List.singleton_append, List.length_cons]
    omega

theorem Kept.snoc {J : List (ℕ × ℕ)} : ∀ {L K : List (ℕ × ℕ)} {p : ℕ × ℕ}, Kept L (J ++ [p]) K → ∃ K', Kept L J K' ∧ (K = K' ∨ K = K' ++ [p]) := by
  induction J with
  | nil =>
    intro L K p h
    refine ⟨[], .nil L, ?_⟩
    cases h with
    | skip _ h => cases h; exact Or.inl rfl
    | keep _ h => cases h; exact Or.inr rfl
  | cons q J ih =>
    intro L K p h
    cases h with
    | skip hc h =>
      obtain ⟨K', h1, h2⟩ := ih h
      exact ⟨K', .skip hc h1, h2⟩
    | keep hc h =>
      obtain ⟨K', h1, h2⟩ := ih h
      refine ⟨q :: K', .keep hc h1, ?_⟩
      rcases h2 with rfl | rfl
      · exact Or.inl rfl
      · exact Or.inr rfl

theorem within_sub {n : ℕ} {J K : List (ℕ × ℕ)} (h : Within n J) (hK : K.Sublist J) : Within n K := fun p hp => h p (hK.subset hp)

theorem parts_reverse (n : ℕ) (J : List (ℕ × ℕ)) : parts n J.reverse = parts n J :=
  parts_congr fun i j => ⟨linked_mono fun p hp => List.mem_reverse.1 hp, linked_mono fun p hp => List.mem_reverse.2 hp⟩

theorem Kept.total {n : ℕ} {J K : List (ℕ × ℕ)} (h : Kept [] J K) (hJ : Within n J) : parts n J + K.length = n := by
  have := h.count hJ (by intro p hp; simp at hp)
  rwa [List.append_nil, parts_reverse, parts_nil] at this

/-- **C178**: of any list of pairs of `n` items, the pairs kept link the same items as all the pairs, have no cycle, and are as many as the items minus the sets at the end; no fewer pairs link these items. -/
theorem C178_forest (n : ℕ) (J : List (ℕ × ℕ)) (hJ : Within n J) : ∃ K t, keepNew (initSets n) J = .ok (K, t) ∧ K.Sublist J ∧ (∀ i j, Linked K i j ↔ Linked J i j) ∧ IsForest n K ∧
    K.length + (parents t).length = n ∧ ∀ M, Within n M → (∀ p ∈ J, Linked M p.1 p.2) → K.length ≤ M.length := by
  obtain ⟨K, t, root, hk, hK, ht⟩ := keepNew_sim J hJ [] (initSets n) id (by simpa [Abs.step] using init_sim ⟨0, [], 0, 0⟩ (n : ℤ))
  have hsub := hK.sublist
  have hl : ∀ i j, Linked K i j ↔ Linked J i j := fun i j => by
    constructor
    · exact linked_mono fun p hp => hsub.subset hp
    · exact linked_up fun p hp => by simpa using hK.links p hp
  have htot := hK.total hJ
  refine ⟨K, t, hk, hsub, hl, ?_, ?_, ?_⟩
  · unfold IsForest
    rw [parts_congr hl]
    exact htot
  · rw [parents_length ht, ← classes_card ht]
    have e : (classes ⟨n, J.reverse ++ [], 0, 0⟩).card = parts n J := by
      rw [List.append_nil]
      exact parts_reverse n J
    rw [e]
    omega
  · intro M hM hlink
    have h1 := parts_anti hJ hM hlink
    have h2 := le_parts hM
    omega

/-- A forest made of the pairs is not longer than what is kept. -/
theorem forest_le {n : ℕ} {J K F : List (ℕ × ℕ)} (hK : Kept [] J K) (hJ : Within n J) (hF : F.Sublist J) (hf : IsForest n F) : F.length ≤ K.length := by
  have h1 := parts_anti (within_sub hJ hF) hJ fun p hp => linked_of_mem (hF.subset hp)
  have h2 := hK.total hJ
  unfold IsForest at hf
  omega

theorem IsForest.init {n : ℕ} {F : List (ℕ × ℕ)} {p : ℕ × ℕ} (hw : Within n (F ++ [p])) (h : IsForest n (F ++ [p])) : IsForest n F := by
  have h1 := le_parts (within_sub hw (List.sublist_append_left F [p]))
  have hw' : Within n (p :: F) := fun q hq => hw q (by simp only [List.mem_append, List.mem_cons, List.not_mem_nil, or_false] at hq ⊢; tauto)
  have e : parts n (F ++ [p]) = parts n (p :: F) := parts_congr fun i j => by
    constructor <;> refine linked_mono fun q hq => ?_ <;> simp only [List.mem_append, List.mem_cons, List.not_mem_nil, or_false] at hq ⊢ <;> tauto
  have h2 := parts_cons hw'.tail (hw' p (by simp))
  have h3 := (parts_append_le [p] (M := F) hw').2
  simp only [List.singleton_append, List.length_singleton] at h3
  unfold IsForest at h ⊢
  rw [e, List.length_append, List.length_singleton] at h
  omega

theorem weight_le {n : ℕ} (w : ℕ × ℕ → ℚ) (J : List (ℕ × ℕ)) : Within n J → J.Pairwise (fun p q => w p ≤ w q) → ∀ K F, Kept [] J K → F.Sublist J → IsForest n F → ∀ W, (∀ p ∈ J, w p ≤ W) →
    (K.map w).sum ≤ (F.map w).sum + ((K.length : ℚ) - F.length) * W := by
  induction J using List.reverseRecOn with
  | nil =>
    intro _ _ K F hK hF _ W _
    cases hK
    rw [List.sublist_nil.1 hF]
    simp
  | append_singleton J p ih =>
    intro hJ hs K F hK hF hf W hW
    have hJ' : Within n J := within_sub hJ (List.sublist_append_left J [p])
    rw [List.pairwise_append] at hs
    have hp : ∀ q ∈ J, w q ≤ w p := fun q hq => hs.2.2 q hq p (by simp)
    have hlen : (F.length : ℚ) ≤ K.length := by exact_mod_cast forest_le hK hJ hF hf
    have hWp := hW p (by simp)
    obtain ⟨K', hK', hk⟩ := hK.snoc
    obtain ⟨F', hF', hf', hff⟩ : ∃ F', F'.Sublist J ∧ IsForest n F' ∧ (F = F' ∨ F = F' ++ [p]) := by
      obtain ⟨F1, F2, rfl, h1, h2⟩ := List.sublist_append_iff.1 hF
      rcases List.sublist_singleton.1 h2 with rfl | rfl
      · exact ⟨F1, h1, by simpa using hf, Or.inl (by simp)⟩
      · exact ⟨F1, h1, hf.init (within_sub hJ hF), Or.inr rfl⟩
    have key := ih hJ' hs.1 K' F' hK' hF' hf' (w p) hp
    have e1 : (K.map w).sum - K.length * w p = (K'.map w).sum - K'.length * w p := by
      rcases hk with rfl | rfl
      · rfl
      · simp; ring
    have e2 : (F.map w).sum - F.length * w p = (F'.map w).sum - F'.length * w p := by
      rcases hff with rfl | rfl
      · rfl
      · simp; ring
    nlinarith

/-- **C178**, sorted pairs: if the pairs come by increasing weight, no forest of these pairs has more pairs than were kept, and none that links the same items has a smaller weight. -/
theorem C178_weight (n : ℕ) (w : ℕ × ℕ → ℚ) (J : List (ℕ × ℕ)) (hJ : Within n J) (hs : J.Pairwise fun p q => w p ≤ w q) : ∃ K t, keepNew (initSets n) J = .ok (K, t) ∧
    (∀ F, F.Sublist J → IsForest n F → F.length ≤ K.length) ∧ ∀ F, F.Sublist J → IsForest n F → (∀ p ∈ J, Linked F p.1 p.2) → (K.map w).sum ≤ (F.map w).sum := by
  obtain ⟨K, t, root, hk, hK, ht⟩ := keepNew_sim J hJ [] (initSets n) id (by simpa [Abs.step] using init_sim ⟨0, [], 0, 0⟩ (n : ℤ))
  refine ⟨K, t, hk, fun F hF hf => forest_le hK hJ hF hf, fun F hF hf hl => ?_⟩
  have e : F.length = K.length := by
    have h1 := parts_anti hJ (within_sub hJ hF) hl
    have h2 := hK.total hJ
    have h3 := forest_le hK hJ hF hf
    unfold IsForest at hf
    omega
  obtain ⟨W, hW⟩ : ∃ W, ∀ p ∈ J, w p ≤ W := by
    clear hJ hs hk hK ht hl e hf hF
    induction J with
    | nil => exact ⟨0, by simp⟩
    | cons q J ih =>
      obtain ⟨W, hW⟩ := ih
      refine ⟨max (w q) W, fun p hp => ?_⟩
      rcases List.mem_cons.1 hp with rfl | hp
      · exact le_max_left _ _
      · exact (hW p hp).trans (le_max_right _ _)
  have := weight_le w J hJ hs K F hK hF hf W hW
  rw [e] at this
  simpa using this

/-- C178: the choice of the first pairs does not depend on the later ones. -/
theorem C178_prefix (n : ℕ) (J J' : List (ℕ × ℕ)) (hJ : Within n (J ++ J')) : ∃ K K' t t', keepNew (initSets n) J = .ok (K, t) ∧ keepNew (initSets n) (J ++ J') = .ok (K ++ K', t') ∧ K'.Sublist J' := by
  have key : ∀ (J : List (ℕ × ℕ)) (s : State) K t, keepNew s J = .ok (K, t) → ∀ K' t', keepNew t J' = .ok (K', t') → keepNew s (J ++ J') = .ok (K ++ K', t') := by
    intro J
    induction J with
    | nil =>
      intro s K t h K' t' h'
      obtain ⟨rfl, rfl⟩ := Prod.mk.inj (Except.ok.inj h)
      exact h'
    | cons p J ih =>
      intro s K t h K' t' h'
      rw [List.cons_append]
      unfold keepNew at h ⊢
      cases hj : join s p.1 p.2 with
      | error e => rw [hj] at h; exact absurd h (by intro h; cases h)
      | ok rs =>
        rw [hj] at h
        change (keepNew rs.2 J >>= fun x => Except.ok (if rs.1 = s.nodes.len then x.1 else p :: x.1, x.2)) = _ at h
        change (keepNew rs.2 (J ++ J') >>= fun x => Except.ok (if rs.1 = s.nodes.len then x.1 else p :: x.1, x.2)) = _
        cases hk : keepNew rs.2 J with
        | error e => rw [hk] at h; exact absurd h (by intro h; cases h)
        | ok x =>
          rw [hk] at h
          obtain ⟨rfl, rfl⟩ := Prod.mk.inj (Except.ok.inj h)
          rw [ih rs.2 x.1 x.2 hk K' t' h']
          show Except.ok _ = Except.ok _
          congr 2
          split <;> rfl
  obtain ⟨K, t, root, hk, -, ht⟩ := keepNew_sim J (within_sub hJ (List.sublist_append_left _ _)) [] (initSets n) id (by simpa [Abs.step] using init_sim ⟨0, [], 0, 0⟩ (n : ℤ))
  obtain ⟨K', t', -, hk', hK', -⟩ := keepNew_sim J' (within_sub hJ (List.sublist_append_right _ _)) _ t root ht
  exact ⟨K, K', t, t', hk, key J _ K t hk K' t' hk', hK'.sublist⟩

/-- Example: of six pairs of five items, with a repeated pair and a cycle, three are kept. -/
example : (match keepNew (initSets 5) [(0, 1), (1, 0), (1, 2), (2, 0), (3, 3), (4, 3)] with | .ok (K, t) => (K, parents t) | .error _ => ([], [])) = ([(0, 1), (1, 2), (4, 3)], [0, 4]) := by decide +kernel

end Verif.DisjointSet
