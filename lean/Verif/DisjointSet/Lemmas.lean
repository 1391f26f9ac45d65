import Verif.DisjointSet.Spec
import Mathlib.Tactic.Ring
import Mathlib.Tactic.Linarith
import Mathlib.Data.Nat.Log
import Mathlib.Data.Finset.Max

namespace Verif.DisjointSet
open Spec

/-- Forest invariant; `root` is the ghost map from items to representatives. -/
structure Inv (v : Vec Node) (root : ℕ → ℕ) : Prop where
  par : ∀ i < v.len, ∃ p < v.len, (v.val i).parent = (p : ℤ) ∧ root p = root i ∧
    (p ≠ i → (v.val i).rank < (v.val p).rank)
  rootLt : ∀ i < v.len, root i < v.len
  rootPar : ∀ i < v.len, (v.val (root i)).parent = (root i : ℤ)
  rootFix : ∀ i < v.len, (v.val i).parent = (i : ℤ) → root i = i
  rank0 : ∀ i < v.len, 0 ≤ (v.val i).rank
  sizeEq : ∀ r < v.len, (v.val r).parent = (r : ℤ) →
    (v.val r).size = ((Finset.range v.len).filter fun i => root i = r).card
  rankLe : ∀ r < v.len, (v.val r).parent = (r : ℤ) → 2 ^ (v.val r).rank.toNat ≤ (v.val r).size

theorem Inv.root_root {v : Vec Node} {root : ℕ → ℕ} (h : Inv v root) {i : ℕ} (hi : i < v.len) :
    root (root i) = root i := h.rootFix _ (h.rootLt i hi) (h.rootPar i hi)

theorem Inv.rank_le_root {v : Vec Node} {root : ℕ → ℕ} (h : Inv v root) :
    ∀ i, i < v.len → (v.val i).rank ≤ (v.val (root i)).rank := by
  intro i hi
  by_contra hc
  rw [not_le] at hc
  -- the node with the largest rank among those violating the inequality
  let S := (Finset.range v.len).filter fun j => (v.val (root j)).rank < (v.val j).rank
  have hS : S.Nonempty := ⟨i, by simp [S, hi, hc]⟩
  obtain ⟨m, hm, hmax⟩ := S.exists_max_image (fun j => (v.val j).rank) hS
  simp only [S, Finset.mem_filter, Finset.mem_range] at hm
  obtain ⟨p, hp, hpar, hroot, hrank⟩ := h.par m hm.1
  by_cases hpm : p = m
  · subst hpm
    have := h.rootFix p hm.1 hpar
    rw [this] at hm
    omega
  · have hr := hrank hpm
    have : p ∈ S := by
      simp only [S, Finset.mem_filter, Finset.mem_range]
      refine ⟨hp, ?_⟩
      rw [hroot]; omega
    have := hmax p this
    omega

/-- The loop of `find` reaches the root within `rank(root) - rank(i) + 1` evaluations. -/
theorem findLoop_ok {v : Vec Node} {root : ℕ → ℕ} (h : Inv v root) :
    ∀ (fuel : ℕ) (i : ℕ), i < v.len → ((v.val (root i)).rank - (v.val i).rank).toNat < fuel →
      findLoop v fuel (i : ℤ) = .ok (root i : ℤ) := by
  intro fuel
  induction fuel with
  | zero => intro i _ hf; omega
  | succ fuel ih =>
    intro i hi hf
    unfold findLoop
    rw [Vec.get_nat v hi]
    obtain ⟨p, hp, hpar, hroot, hrank⟩ := h.par i hi
    simp only [bind, Except.bind]
    rw [hpar]
    by_cases hpi : p = i
    · subst hpi
      rw [if_neg (by simp), h.rootFix p hi hpar]; rfl
    · rw [if_pos (by omega)]
      have hr := hrank hpi
      have hle := h.rank_le_root p hp
      rw [ih p hp (by rw [hroot] at hle ⊢; omega), hroot]

theorem rank_root_le_log {v : Vec Node} {root : ℕ → ℕ} (h : Inv v root) {i : ℕ} (hi : i < v.len) :
    (v.val (root i)).rank.toNat ≤ Nat.log 2 ((Finset.range v.len).filter fun j => root j = root i).card := by
  have h1 := h.rankLe _ (h.rootLt i hi) (h.rootPar i hi)
  rw [h.sizeEq _ (h.rootLt i hi) (h.rootPar i hi)] at h1
  exact Nat.le_log_of_pow_le (by omega) h1

/-- Evaluations needed, in terms of the size of the set. -/
theorem findLoop_log {v : Vec Node} {root : ℕ → ℕ} (h : Inv v root) {i : ℕ} (hi : i < v.len) (fuel : ℕ)
    (hf : Nat.log 2 ((Finset.range v.len).filter fun j => root j = root i).card < fuel) :
    findLoop v fuel (i : ℤ) = .ok (root i : ℤ) := by
  apply findLoop_ok h fuel i hi
  have h1 := rank_root_le_log h hi
  have h2 := h.rank0 i hi
  omega

theorem findLoop_len {v : Vec Node} {root : ℕ → ℕ} (h : Inv v root) {i : ℕ} (hi : i < v.len) :
    findLoop v v.len (i : ℤ) = .ok (root i : ℤ) := by
  apply findLoop_log h hi
  have hpos : ((Finset.range v.len).filter fun j => root j = root i).card ≠ 0 := by
    rw [Finset.card_ne_zero]
    exact ⟨i, by simp [hi]⟩
  have h1 := Nat.log_lt_self 2 hpos
  have h2 : ((Finset.range v.len).filter fun j => root j = root i).card ≤ v.len := by
    have := Finset.card_filter_le (Finset.range v.len) (fun j => root j = root i)
    rwa [Finset.card_range] at this
  omega

/-- `find` on a valid identifier: result and state. -/
theorem find_ok {s : State} {root : ℕ → ℕ} (h : Inv s.nodes root) {i : ℕ} (hi : i < s.nodes.len) :
    ∃ s', find s (i : ℤ) = .ok ((root i : ℤ), s') ∧ s'.setNum = s.setNum ∧ s'.nodes.len = s.nodes.len ∧
      (∀ j, (s'.nodes.val j).size = (s.nodes.val j).size ∧ (s'.nodes.val j).rank = (s.nodes.val j).rank) ∧
      Inv s'.nodes root := by
  unfold find
  rw [if_neg (by omega)]
  simp only [bind, Except.bind, findLoop_len h hi, Vec.get_nat _ hi, Vec.set_nat _ hi, pure, Except.pure]
  have hsr : ∀ j, ((if j = i then ({ s.nodes.val i with parent := (root i : ℤ) } : Node) else s.nodes.val j).size =
      (s.nodes.val j).size ∧ (if j = i then ({ s.nodes.val i with parent := (root i : ℤ) } : Node) else s.nodes.val j).rank =
      (s.nodes.val j).rank) := by
    intro j
    by_cases hj : j = i
    · subst hj; simp
    · simp [hj]
  have hparent : ∀ j < s.nodes.len, (if j = i then ({ s.nodes.val i with parent := (root i : ℤ) } : Node) else s.nodes.val j).parent = (j : ℤ) ↔
      (s.nodes.val j).parent = (j : ℤ) := by
    intro j hj
    by_cases hji : j = i
    · subst hji
      simp only [if_true]
      constructor
      · intro he
        have he' : root j = j := by omega
        have := h.rootPar j hj
        rwa [he'] at this
      · intro he
        have := h.rootFix j hj he
        omega
    · simp [hji]
  refine ⟨_, rfl, rfl, rfl, hsr, ?_⟩
  refine ⟨?_, h.rootLt, ?_, ?_, ?_, ?_, ?_⟩
  · intro j hj
    by_cases hji : j = i
    · subst hji
      refine ⟨root j, h.rootLt j hj, by simp, h.root_root hj, fun hne => ?_⟩
      refine lt_of_eq_of_lt (hsr j).2 (lt_of_lt_of_eq ?_ (hsr (root j)).2.symm)
      have hpj : (s.nodes.val j).parent ≠ (j : ℤ) := fun he => hne (h.rootFix j hj he)
      obtain ⟨p, hp, hpar, hroot, hrank⟩ := h.par j hj
      have hpj' : p ≠ j := fun he => hpj (by rw [hpar, he])
      have hle := h.rank_le_root p hp
      rw [hroot] at hle
      have := hrank hpj'
      omega
    · obtain ⟨p, hp, hpar, hroot, hrank⟩ := h.par j hj
      refine ⟨p, hp, by simp [hji, hpar], hroot, fun hne => ?_⟩
      simp only [(hsr _).2]
      exact hrank hne
  · intro j hj
    exact (hparent _ (h.rootLt j hj)).2 (h.rootPar j hj)
  · intro j hj he
    exact h.rootFix j hj ((hparent j hj).1 he)
  · intro j hj
    simp only [(hsr _).2]; exact h.rank0 j hj
  · intro r hr he
    simp only [(hsr _).1]; exact h.sizeEq r hr ((hparent r hr).1 he)
  · intro r hr he
    simp only [(hsr _).1, (hsr _).2]; exact h.rankLe r hr ((hparent r hr).1 he)

/-- Linking the root `l` below the root `w`. -/
theorem Inv.link {v v' : Vec Node} {root : ℕ → ℕ} (h : Inv v root) {l w : ℕ} (hl : l < v.len) (hw : w < v.len)
    (hlw : l ≠ w) (hlp : (v.val l).parent = (l : ℤ)) (hwp : (v.val w).parent = (w : ℤ)) (hlen : v'.len = v.len)
    (ho : ∀ i, i ≠ l → i ≠ w → v'.val i = v.val i) (hl1 : (v'.val l).parent = (w : ℤ)) (hl2 : (v'.val l).rank = (v.val l).rank)
    (hw1 : (v'.val w).parent = (w : ℤ)) (hw2 : (v'.val w).size = (v.val w).size + (v.val l).size)
    (hw3 : (v.val w).rank ≤ (v'.val w).rank) (hw4 : (v.val l).rank < (v'.val w).rank)
    (hw5 : 2 ^ (v'.val w).rank.toNat ≤ (v'.val w).size) : Inv v' (fun i => if root i = l then w else root i) := by
  have hrl : root l = l := h.rootFix l hl hlp
  have hrw : root w = w := h.rootFix w hw hwp
  have hp' : ∀ i < v.len, i ≠ l → (v'.val i).parent = (v.val i).parent := by
    intro i _ hne
    by_cases hiw : i = w
    · subst hiw; rw [hw1, hwp]
    · rw [ho i hne hiw]
  have hr' : ∀ i, i ≠ w → (v'.val i).rank = (v.val i).rank := by
    intro i hne
    by_cases hil : i = l
    · subst hil; exact hl2
    · rw [ho i hil hne]
  have hself : ∀ i < v.len, (v'.val i).parent = (i : ℤ) → i ≠ l ∧ (v.val i).parent = (i : ℤ) := by
    intro i hi he
    have hne : i ≠ l := by
      rintro rfl; rw [hl1] at he; omega
    exact ⟨hne, by rw [← hp' i hi hne, he]⟩
  refine ⟨?_, ?_, ?_, ?_, ?_, ?_, ?_⟩
  · intro i hi
    rw [hlen] at hi ⊢
    by_cases hil : i = l
    · subst hil
      refine ⟨w, hw, hl1, ?_, fun _ => ?_⟩
      · rw [hrw, hrl]; simp
      · rw [hl2]; exact hw4
    · obtain ⟨p, hp, hpar, hroot, hrank⟩ := h.par i hi
      refine ⟨p, hp, by rw [hp' i hi hil, hpar], by rw [hroot], fun hne => ?_⟩
      have h1 := hrank hne
      have hiw : i ≠ w := by
        rintro rfl
        rw [hwp] at hpar; omega
      rw [hr' i hiw]
      by_cases hpw : p = w
      · subst hpw; omega
      · rw [hr' p hpw]; exact h1
  · intro i hi
    rw [hlen] at hi ⊢
    split_ifs
    · exact hw
    · exact h.rootLt i hi
  · intro i hi
    rw [hlen] at hi
    split_ifs with hc
    · exact hw1
    · rw [hp' _ (h.rootLt i hi) hc]; exact h.rootPar i hi
  · intro i hi he
    rw [hlen] at hi
    obtain ⟨hne, he'⟩ := hself i hi he
    rw [h.rootFix i hi he', if_neg hne]
  · intro i hi
    rw [hlen] at hi
    by_cases hiw : i = w
    · subst hiw; have := h.rank0 i hi; omega
    · rw [hr' i hiw]; exact h.rank0 i hi
  · intro r hr he
    rw [hlen] at hr ⊢
    obtain ⟨hne, he'⟩ := hself r hr he
    by_cases hrw' : r = w
    · subst hrw'
      rw [hw2, h.sizeEq r hr he', h.sizeEq l hl hlp, ← Finset.card_union_of_disjoint]
      · congr 1
        ext i
        simp only [Finset.mem_union, Finset.mem_filter, Finset.mem_range]
        constructor
        · rintro (⟨h1, h2⟩ | ⟨h1, h2⟩)
          · exact ⟨h1, by rw [h2, if_neg hne]⟩
          · exact ⟨h1, by rw [h2, if_pos rfl]⟩
        · rintro ⟨h1, h2⟩
          split_ifs at h2 with hc
          · exact Or.inr ⟨h1, hc⟩
          · exact Or.inl ⟨h1, h2⟩
      · rw [Finset.disjoint_left]
        intro i h1 h2
        simp only [Finset.mem_filter] at h1 h2
        omega
    · rw [ho r hne hrw', h.sizeEq r hr he']
      congr 1
      ext i
      simp only [Finset.mem_filter, Finset.mem_range]
      constructor
      · rintro ⟨h1, h2⟩
        exact ⟨h1, by rw [h2, if_neg hne]⟩
      · rintro ⟨h1, h2⟩
        split_ifs at h2 with hc
        · omega
        · exact ⟨h1, h2⟩
  · intro r hr he
    rw [hlen] at hr
    obtain ⟨hne, he'⟩ := hself r hr he
    by_cases hrw' : r = w
    · subst hrw'; exact hw5
    · rw [ho r hne hrw']; exact h.rankLe r hr he'

/-- `join` on valid identifiers. -/
theorem join_ok {s : State} {root : ℕ → ℕ} (h : Inv s.nodes root) {a b : ℕ} (ha : a < s.nodes.len) (hb : b < s.nodes.len) :
    (root a = root b ∧ ∃ s', join s a b = .ok ((s.nodes.len : ℤ), s') ∧ s'.setNum = s.setNum ∧
      s'.nodes.len = s.nodes.len ∧ Inv s'.nodes root) ∨
    (root a ≠ root b ∧ ∃ (l w : ℕ) (s' : State), (l = root a ∧ w = root b ∨ l = root b ∧ w = root a) ∧
      join s a b = .ok ((w : ℤ), s') ∧ s'.setNum = s.setNum - 1 ∧ s'.nodes.len = s.nodes.len ∧
      Inv s'.nodes (fun i => if root i = l then w else root i)) := by
  obtain ⟨s1, hf1, hn1, hlen1, -, h1⟩ := find_ok h ha
  obtain ⟨s2, hf2, hn2, hlen2, -, h2⟩ := find_ok h1 (i := b) (by omega)
  have hj : join s a b = (do
      let (root1, s) ← find s a
      let (root2, s) ← find s b
      if root1 = root2 then return (s.nodes.len, s)
      let setNum := s.setNum - 1
      let nd1 ← s.nodes.get root1
      let nd2 ← s.nodes.get root2
      if nd1.rank < nd2.rank then
        let nodes ← s.nodes.set root1 { nd1 with parent := root2 }
        let nodes ← nodes.set root2 { nd2 with size := nd2.size + nd1.size }
        return (root2, ⟨nodes, setNum⟩)
      else if nd1.rank > nd2.rank then
        let nodes ← s.nodes.set root2 { nd2 with parent := root1 }
        let nodes ← nodes.set root1 { nd1 with size := nd1.size + nd2.size }
        return (root1, ⟨nodes, setNum⟩)
      else
        let nodes ← s.nodes.set root2 { nd2 with parent := root1 }
        let nodes ← nodes.set root1 { nd1 with size := nd1.size + nd2.size, rank := nd1.rank + 1 }
        return (root1, ⟨nodes, setNum⟩)) := rfl
  have hra : root a < s2.nodes.len := h2.rootLt a (by omega)
  have hrb : root b < s2.nodes.len := h2.rootLt b (by omega)
  have hpa := h2.rootPar a (by omega)
  have hpb := h2.rootPar b (by omega)
  have hra0 := h2.rank0 _ hra
  have hrb0 := h2.rank0 _ hrb
  have hsa := h2.rankLe _ hra hpa
  have hsb := h2.rankLe _ hrb hpb
  by_cases hab : root a = root b
  · left
    refine ⟨hab, s2, ?_, by omega, by omega, h2⟩
    rw [hj, hf1]
    simp only [bind, Except.bind, hf2]
    rw [if_pos (by rw [hab])]
    simp only [pure, Except.pure]
    rw [hlen2, hlen1]
  · right
    refine ⟨hab, ?_⟩
    have hab' : ¬ root b = root a := fun h => hab h.symm
    rw [hj, hf1]
    simp only [bind, Except.bind, hf2, pure, Except.pure]
    rw [if_neg (by omega), Vec.get_nat _ hra, Vec.get_nat _ hrb]
    simp only
    split_ifs with hc1 hc2
    · rw [Vec.set_nat _ hra]
      simp only
      rw [Vec.set_nat _ (by simpa using hrb)]
      refine ⟨root a, root b, _, Or.inl ⟨rfl, rfl⟩, rfl, by simp only; omega, by simp only; omega, ?_⟩
      apply h2.link hra hrb hab hpa hpb
      · rfl
      · intro i hi1 hi2; simp [hi1, hi2]
      · simp [hab]
      · simp [hab]
      · simp [hpb]
      · simp
      · simp
      · simpa using hc1
      · simp only [if_true]; omega
    · rw [Vec.set_nat _ hrb]
      simp only
      rw [Vec.set_nat _ (by simpa using hra)]
      refine ⟨root b, root a, _, Or.inr ⟨rfl, rfl⟩, rfl, by simp only; omega, by simp only; omega, ?_⟩
      apply h2.link hrb hra hab' hpb hpa
      · rfl
      · intro i hi1 hi2; simp [hi1, hi2]
      · simp [hab']
      · simp [hab']
      · simp [hpa]
      · simp
      · simp
      · simpa using hc2
      · simp only [if_true]; omega
    · rw [Vec.set_nat _ hrb]
      simp only
      rw [Vec.set_nat _ (by simpa using hra)]
      refine ⟨root b, root a, _, Or.inr ⟨rfl, rfl⟩, rfl, by simp only; omega, by simp only; omega, ?_⟩
      have hrk : (s2.nodes.val (root a)).rank = (s2.nodes.val (root b)).rank := by omega
      apply h2.link hrb hra hab' hpb hpa
      · rfl
      · intro i hi1 hi2; simp [hi1, hi2]
      · simp [hab']
      · simp [hab']
      · simp [hpa]
      · simp
      · simp
      · simp; omega
      · simp only [if_true]
        rw [show ((s2.nodes.val (root a)).rank + 1).toNat = (s2.nodes.val (root a)).rank.toNat + 1 by omega, pow_succ]
        rw [← hrk] at hsb
        omega

theorem initSets_inv (num : ℤ) : Inv (initSets num).nodes id := by
  refine ⟨fun i hi => ⟨i, hi, rfl, rfl, fun h => absurd rfl h⟩, fun i hi => hi, fun i hi => rfl, fun i _ _ => rfl,
    fun i hi => le_refl _, fun r hr _ => ?_, fun r _ _ => le_refl _⟩
  have : (Finset.range (initSets num).nodes.len).filter (fun i => id i = r) = {r} := by
    ext i; simp only [Finset.mem_filter, Finset.mem_range, Finset.mem_singleton, id]
    constructor
    · exact fun h => h.2
    · rintro rfl; exact ⟨hr, rfl⟩
  rw [this]; rfl

theorem makeSet_inv {s : State} {root : ℕ → ℕ} (h : Inv s.nodes root) :
    Inv (makeSet s).2.nodes (fun i => if i = s.nodes.len then i else root i) := by
  have hlen : (makeSet s).2.nodes.len = s.nodes.len + 1 := rfl
  have hold : ∀ i, i ≠ s.nodes.len → (makeSet s).2.nodes.val i = s.nodes.val i := by
    intro i hi; simp [makeSet, Vec.push, hi]
  have hnew : (makeSet s).2.nodes.val s.nodes.len = fresh s.nodes.len := by simp [makeSet, Vec.push]
  refine ⟨?_, ?_, ?_, ?_, ?_, ?_, ?_⟩
  · intro i hi
    rw [hlen] at hi ⊢
    by_cases hin : i = s.nodes.len
    · refine ⟨i, by omega, ?_, rfl, fun h => absurd rfl h⟩
      rw [hin, hnew]; rfl
    · obtain ⟨p, hp, hpar, hroot, hrank⟩ := h.par i (by omega)
      refine ⟨p, by omega, by rw [hold i hin, hpar], ?_, fun hne => ?_⟩
      · rw [if_neg (by omega), if_neg hin, hroot]
      · rw [hold i hin, hold p (by omega)]; exact hrank hne
  · intro i hi
    rw [hlen] at hi ⊢
    split_ifs with hc
    · omega
    · have := h.rootLt i (by omega); omega
  · intro i hi
    rw [hlen] at hi
    split_ifs with hc
    · rw [hc, hnew]; rfl
    · rw [hold _ (by have := h.rootLt i (by omega); omega)]
      exact h.rootPar i (by omega)
  · intro i hi he
    rw [hlen] at hi
    split_ifs with hc
    · rfl
    · rw [hold i hc] at he
      exact h.rootFix i (by omega) he
  · intro i hi
    rw [hlen] at hi
    by_cases hin : i = s.nodes.len
    · rw [hin, hnew]; exact le_refl _
    · rw [hold i hin]; exact h.rank0 i (by omega)
  · intro r hr he
    rw [hlen] at hr ⊢
    by_cases hin : r = s.nodes.len
    · rw [hin, hnew]
      have : (Finset.range (s.nodes.len + 1)).filter (fun i => (if i = s.nodes.len then i else root i) = s.nodes.len) = {s.nodes.len} := by
        ext i; simp only [Finset.mem_filter, Finset.mem_range, Finset.mem_singleton]
        constructor
        · rintro ⟨h1, h2⟩
          split_ifs at h2 with hc
          · exact hc
          · have := h.rootLt i (by omega); omega
        · rintro rfl; simp
      rw [this]; rfl
    · rw [hold r hin] at he ⊢
      rw [h.sizeEq r (by omega) he]
      congr 1
      ext i; simp only [Finset.mem_filter, Finset.mem_range]
      constructor
      · rintro ⟨h1, h2⟩
        exact ⟨by omega, by rw [if_neg (by omega), h2]⟩
      · rintro ⟨h1, h2⟩
        split_ifs at h2 with hc
        · omega
        · exact ⟨by omega, h2⟩
  · intro r hr he
    rw [hlen] at hr
    by_cases hin : r = s.nodes.len
    · rw [hin, hnew]; exact le_refl _
    · rw [hold r hin] at he ⊢
      exact h.rankLe r (by omega) he

/-- Simulation between the model state and the abstract state. -/
structure Sim (s : State) (A : Abs) (root : ℕ → ℕ) : Prop where
  inv : Inv s.nodes root
  len : s.nodes.len = A.n
  pairsLt : ∀ x ∈ A.pairs, x.1 < A.n ∧ x.2 < A.n
  sound : ∀ x ∈ A.pairs, root x.1 = root x.2
  complete : ∀ i < A.n, ∀ j < A.n, root i = root j → Conn A i j
  num : s.setNum = (((Finset.range A.n).filter fun i => root i = i).card : ℤ) - A.made + A.neg

theorem Conn.mono {A B : Abs} (h : ∀ x ∈ A.pairs, x ∈ B.pairs) {i j : ℕ} (hc : Conn A i j) : Conn B i j :=
  Relation.EqvGen.mono (fun x y hxy => h (x, y) hxy) _ _ hc

theorem Sim.conn_iff {s : State} {A : Abs} {root : ℕ → ℕ} (h : Sim s A root) {i j : ℕ} (hi : i < A.n) (hj : j < A.n) :
    Conn A i j ↔ root i = root j := by
  refine ⟨fun hc => ?_, h.complete i hi j hj⟩
  induction hc with
  | rel x y hxy => exact h.sound (x, y) hxy
  | refl x => rfl
  | symm x y hxy ih => exact (ih hj hi).symm
  | trans x y z h1 h2 ih1 ih2 =>
    by_cases hy : y < A.n
    · exact (ih1 hi hy).trans (ih2 hy hj)
    · -- an item out of range is connected to itself only
      have key : ∀ u v, Relation.EqvGen (fun x y => (x, y) ∈ A.pairs) u v → (u < A.n ↔ v < A.n) := by
        intro u v huv
        induction huv with
        | rel x y hxy => exact ⟨fun _ => (h.pairsLt _ hxy).2, fun _ => (h.pairsLt _ hxy).1⟩
        | refl x => exact Iff.rfl
        | symm x y _ ih => exact ih.symm
        | trans x y z _ _ ih1 ih2 => exact ih1.trans ih2
      exact absurd ((key _ _ h1).1 hi) hy

theorem new_sim : Sim new ⟨0, [], 0, 0⟩ id := by
  refine ⟨⟨fun i hi => absurd hi (Nat.not_lt_zero i), fun i hi => absurd hi (Nat.not_lt_zero i),
    fun i hi => absurd hi (Nat.not_lt_zero i), fun i hi => absurd hi (Nat.not_lt_zero i), fun i hi => absurd hi (Nat.not_lt_zero i),
    fun i hi => absurd hi (Nat.not_lt_zero i), fun i hi => absurd hi (Nat.not_lt_zero i)⟩, rfl, by simp, by simp,
    fun i hi => absurd hi (Nat.not_lt_zero i), rfl⟩

theorem init_sim (A : Abs) (num : ℤ) : Sim (initSets num) (A.step (.init num)) id := by
  refine ⟨initSets_inv num, rfl, by simp [Abs.step], by simp [Abs.step], ?_, ?_⟩
  · intro i _ j _ h
    have : i = j := h
    subst this; exact Relation.EqvGen.refl i
  · simp only [Abs.step, id, Finset.filter_true, Finset.card_range, initSets]
    omega

theorem makeSet_sim {s : State} {A : Abs} {root : ℕ → ℕ} (h : Sim s A root) :
    ∃ root', Sim (makeSet s).2 (A.step .makeSet) root' := by
  refine ⟨fun i => if i = s.nodes.len then i else root i, makeSet_inv h.inv, ?_, ?_, ?_, ?_, ?_⟩
  · simp only [makeSet, Vec.push, Abs.step, h.len]
  · intro x hx
    have := h.pairsLt x hx
    simp only [Abs.step]; omega
  · intro x hx
    have h1 := h.pairsLt x hx
    have h2 := h.len
    rw [if_neg (by omega), if_neg (by omega)]
    exact h.sound x hx
  · intro i hi j hj he
    have h2 := h.len
    simp only [Abs.step] at hi hj
    split_ifs at he with h3 h4 h5
    · subst he; exact Relation.EqvGen.refl i
    · have := h.inv.rootLt j (by omega); omega
    · have := h.inv.rootLt i (by omega); omega
    · exact Conn.mono (B := A.step .makeSet) (fun x hx => hx) (h.complete i (by omega) j (by omega) he)
  · have h2 := h.len
    have e : (Finset.range (A.n + 1)).filter (fun i => (if i = s.nodes.len then i else root i) = i) =
        insert A.n ((Finset.range A.n).filter fun i => root i = i) := by
      ext i; simp only [Finset.mem_filter, Finset.mem_range, Finset.mem_insert]
      constructor
      · rintro ⟨h3, h4⟩
        split_ifs at h4 with hc
        · left; omega
        · right; exact ⟨by omega, h4⟩
      · rintro (h3 | ⟨h3, h4⟩)
        · exact ⟨by omega, by rw [if_pos (by omega)]⟩
        · exact ⟨by omega, by rw [if_neg (by omega), h4]⟩
    simp only [Abs.step]
    rw [e, Finset.card_insert_of_notMem (by simp)]
    have := h.num
    simp only [makeSet]
    push_cast; omega

theorem join_sim {s : State} {A : Abs} {root : ℕ → ℕ} (h : Sim s A root) {a b : ℕ} (ha : a < A.n) (hb : b < A.n) :
    ∃ r s' root', join s a b = .ok (r, s') ∧ Sim s' (A.step (.join a b)) root' ∧ s'.nodes.len = s.nodes.len ∧
      ((root a = root b ∧ root' = root ∧ r = (A.n : ℤ)) ∨
       (root a ≠ root b ∧ r = (root' a : ℤ) ∧ r = (root' b : ℤ) ∧
        ∀ i j, root' i = root' j ↔ root i = root j ∨ (root i = root a ∧ root j = root b) ∨ (root i = root b ∧ root j = root a))) := by
  have hlen := h.len
  rcases join_ok h.inv (a := a) (b := b) (by omega) (by omega) with ⟨hab, s', hj, hn, hl, hi⟩ | ⟨hab, l, w, s', hlw, hj, hn, hl, hi⟩
  · refine ⟨_, s', root, hj, ⟨hi, by simp only [Abs.step]; omega, ?_, ?_, ?_, ?_⟩, hl, Or.inl ⟨hab, rfl, by omega⟩⟩
    · intro x hx
      simp only [Abs.step, List.mem_cons, Int.toNat_natCast] at hx ⊢
      rcases hx with rfl | hx
      · exact ⟨ha, hb⟩
      · exact h.pairsLt x hx
    · intro x hx
      simp only [Abs.step, List.mem_cons, Int.toNat_natCast] at hx
      rcases hx with rfl | hx
      · exact hab
      · exact h.sound x hx
    · intro i hi j hj he
      exact Conn.mono (B := A.step (.join a b)) (fun x hx => by simp [Abs.step, hx]) (h.complete i hi j hj he)
    · rw [hn, h.num]; rfl
  · have hra := h.inv.rootLt a (by omega)
    have hrb := h.inv.rootLt b (by omega)
    have hrra := h.inv.root_root (i := a) (by omega)
    have hrrb := h.inv.root_root (i := b) (by omega)
    have hkey : ∀ i j, (if root i = l then w else root i) = (if root j = l then w else root j) ↔
        root i = root j ∨ (root i = root a ∧ root j = root b) ∨ (root i = root b ∧ root j = root a) := by
      intro i j
      rcases hlw with ⟨rfl, rfl⟩ | ⟨rfl, rfl⟩ <;> split_ifs <;> omega
    refine ⟨_, s', _, hj, ⟨hi, by simp only [Abs.step]; omega, ?_, ?_, ?_, ?_⟩, hl, Or.inr ⟨hab, ?_, ?_, hkey⟩⟩
    · intro x hx
      simp only [Abs.step, List.mem_cons, Int.toNat_natCast] at hx ⊢
      rcases hx with rfl | hx
      · exact ⟨ha, hb⟩
      · exact h.pairsLt x hx
    · intro x hx
      simp only [Abs.step, List.mem_cons, Int.toNat_natCast] at hx
      rcases hx with rfl | hx
      · exact (hkey a b).2 (Or.inr (Or.inl ⟨rfl, rfl⟩))
      · exact (hkey _ _).2 (Or.inl (h.sound x hx))
    · intro i hi j hj he
      have hm : ∀ {i j}, Conn A i j → Conn (A.step (.join a b)) i j :=
        fun hc => Conn.mono (B := A.step (.join a b)) (fun x hx => by simp [Abs.step, hx]) hc
      have hab' : Conn (A.step (.join a b)) a b := Relation.EqvGen.rel _ _ (by simp [Abs.step])
      change i < A.n at hi
      change j < A.n at hj
      rcases (hkey i j).1 he with h1 | ⟨h1, h2⟩ | ⟨h1, h2⟩
      · exact hm (h.complete i hi j hj h1)
      · exact ((hm (h.complete i hi a ha h1)).trans _ _ _ hab').trans _ _ _ (hm (h.complete b hb j hj h2.symm))
      · exact ((hm (h.complete i hi b hb h1)).trans _ _ _ (hab'.symm)).trans _ _ _ (hm (h.complete a ha j hj h2.symm))
    · have hlA : l < A.n := by rcases hlw with ⟨rfl, rfl⟩ | ⟨rfl, rfl⟩ <;> omega
      have hll : root l = l := by rcases hlw with ⟨rfl, rfl⟩ | ⟨rfl, rfl⟩ <;> assumption
      have hwl : w ≠ l := by rcases hlw with ⟨rfl, rfl⟩ | ⟨rfl, rfl⟩ <;> omega
      have e : (Finset.range A.n).filter (fun i => root i = i) =
          insert l ((Finset.range A.n).filter fun i => (if root i = l then w else root i) = i) := by
        ext i; simp only [Finset.mem_filter, Finset.mem_range, Finset.mem_insert]
        constructor
        · rintro ⟨h3, h4⟩
          by_cases hc : i = l
          · exact Or.inl hc
          · exact Or.inr ⟨h3, by rw [if_neg (by omega), h4]⟩
        · rintro (rfl | ⟨h3, h4⟩)
          · exact ⟨hlA, hll⟩
          · refine ⟨h3, ?_⟩
            split_ifs at h4 with hc
            · subst h4
              rcases hlw with ⟨rfl, rfl⟩ | ⟨rfl, rfl⟩ <;> omega
            · exact h4
      have hcard := congrArg Finset.card e
      rw [Finset.card_insert_of_notMem (by simp [hll, hwl])] at hcard
      have := h.num
      rw [hn]
      simp only [Abs.step]
      omega
    · rcases hlw with ⟨rfl, rfl⟩ | ⟨rfl, rfl⟩
      · simp
      · rw [if_neg hab]
    · rcases hlw with ⟨rfl, rfl⟩ | ⟨rfl, rfl⟩
      · rw [if_neg (fun h => hab h.symm)]
      · simp

theorem find_sim {s : State} {A : Abs} {root : ℕ → ℕ} (h : Sim s A root) {a : ℕ} (ha : a < A.n) :
    ∃ s', find s a = .ok ((root a : ℤ), s') ∧ Sim s' A root := by
  have hlen := h.len
  obtain ⟨s', hf, hn, hl, -, hi⟩ := find_ok h.inv (i := a) (by omega)
  exact ⟨s', hf, ⟨hi, by omega, h.pairsLt, h.sound, h.complete, by rw [hn]; exact h.num⟩⟩

open Classical in
theorem size_sim {s : State} {A : Abs} {root : ℕ → ℕ} (h : Sim s A root) {a : ℕ} (ha : a < A.n) :
    ∃ s', size s a = .ok ((cls A a).card, s') ∧ Sim s' A root := by
  obtain ⟨s', hf, hs⟩ := find_sim h ha
  have hlen := hs.len
  have hr := hs.inv.rootLt a (by omega)
  refine ⟨s', ?_, hs⟩
  unfold size
  simp only [hf, bind, Except.bind, Vec.get_nat _ hr, pure, Except.pure]
  rw [hs.inv.sizeEq _ hr (hs.inv.rootPar a (by omega))]
  congr 2
  unfold cls
  congr 1
  rw [hlen]
  apply Finset.filter_congr
  intro j hj
  rw [h.conn_iff ha (Finset.mem_range.1 hj)]
  exact eq_comm

theorem step_sim {s : State} {A : Abs} {root : ℕ → ℕ} (h : Sim s A root) (op : Op) (hv : OpValid A op) :
    ∃ s' root', step s op = .ok s' ∧ Sim s' (A.step op) root' := by
  cases op with
  | init num => exact ⟨_, _, rfl, init_sim A num⟩
  | makeSet =>
    obtain ⟨root', h'⟩ := makeSet_sim h
    exact ⟨_, root', rfl, h'⟩
  | join a b =>
    obtain ⟨⟨h1, h2⟩, h3, h4⟩ := hv
    obtain ⟨a, rfl⟩ := Int.eq_ofNat_of_zero_le h1
    obtain ⟨b, rfl⟩ := Int.eq_ofNat_of_zero_le h3
    obtain ⟨r, s', root', hj, hs, -, -⟩ := join_sim h (a := a) (b := b) (by omega) (by omega)
    exact ⟨s', root', by simp only [step, hj]; rfl, hs⟩
  | find a =>
    obtain ⟨h1, h2⟩ := hv
    obtain ⟨a, rfl⟩ := Int.eq_ofNat_of_zero_le h1
    obtain ⟨s', hj, hs⟩ := find_sim h (a := a) (by omega)
    exact ⟨s', root, by simp only [step, hj]; rfl, hs⟩
  | size a =>
    obtain ⟨h1, h2⟩ := hv
    obtain ⟨a, rfl⟩ := Int.eq_ofNat_of_zero_le h1
    obtain ⟨s', hj, hs⟩ := size_sim h (a := a) (by omega)
    exact ⟨s', root, by simp only [step, hj]; rfl, hs⟩

theorem run_sim_aux (h : List Op) : ∀ (s : State) (A : Abs) (root : ℕ → ℕ), Sim s A root → HistValid A h →
    ∃ s' root', h.foldlM step s = .ok s' ∧ Sim s' (h.foldl Abs.step A) root' := by
  induction h with
  | nil => intro s A root hs _; exact ⟨s, root, rfl, hs⟩
  | cons op h ih =>
    intro s A root hs hv
    obtain ⟨s1, root1, h1, h2⟩ := step_sim hs op hv.1
    obtain ⟨s', root', h3, h4⟩ := ih s1 _ root1 h2 hv.2
    refine ⟨s', root', ?_, h4⟩
    simp only [List.foldlM_cons, h1, bind, Except.bind]
    exact h3

theorem run_sim (h : List Op) (hv : Valid h) : ∃ s root, run h = .ok s ∧ Sim s (absOf h) root :=
  run_sim_aux h new ⟨0, [], 0, 0⟩ id new_sim hv

end Verif.DisjointSet
