import Verif.Heap.Lemmas

/-! The order of the min-max heap. Keys live in a linear order; `par` is the parity of the level. -/
namespace Verif.Heap
open Verif
variable {α β : Type} [LinearOrder β]

/-- The level is even. -/
def par (i : ℕ) : Bool := level i % 2 == 0

theorem par_zero : par 0 = true := by unfold par; rw [level]; rfl

theorem par_parent {i : ℕ} (h : 0 < i) : par i = !par (parent i) := by
  unfold par
  conv_lhs => rw [level, if_pos h]
  rcases Nat.mod_two_eq_zero_or_one (level (parent i)) with e | e <;> simp [Nat.add_mod, e]

theorem grandparent_parent {i : ℕ} (h : 2 < i) : grandparent i = parent (parent i) := by
  simp only [grandparent_eq, parent_eq]; omega

theorem par_grandparent {i : ℕ} (h : 2 < i) : par (grandparent i) = par i := by
  rw [grandparent_parent h, par_parent (i := i) (by omega), par_parent (i := parent i) (by rw [parent_eq]; omega)]
  simp

/-- `v` is a child or a grandchild of `u`. -/
def Below (u v : ℕ) : Prop := 0 < v ∧ parent v = u ∨ 2 < v ∧ grandparent v = u

theorem below_gt {u v : ℕ} (h : Below u v) : u < v := by
  rcases h with ⟨h, rfl⟩ | ⟨h, rfl⟩
  · rw [parent_eq]; omega
  · rw [grandparent_eq]; omega

/-- The nodes whose parity is `s` are not greater, the others not smaller, than the nodes below. -/
def Le (s : Bool) (k : ℕ → β) (u v : ℕ) : Prop := if par u = s then k u ≤ k v else k v ≤ k u

/-- The heap order on the first `n` positions. -/
def Ordered (n : ℕ) (s : Bool) (k : ℕ → β) : Prop := ∀ u v, v < n → Below u v → Le s k u v

theorem Le.of_eq {s : Bool} {k : ℕ → β} {u v : ℕ} (h : Le s k u v) (hu : par u = s) : k u ≤ k v := by
  unfold Le at h; rwa [if_pos hu] at h
theorem Le.of_ne {s : Bool} {k : ℕ → β} {u v : ℕ} (h : Le s k u v) (hu : par u ≠ s) : k v ≤ k u := by
  unfold Le at h; rwa [if_neg hu] at h
theorem le_eq {s : Bool} {k : ℕ → β} {u v : ℕ} (hu : par u = s) : Le s k u v ↔ k u ≤ k v := by unfold Le; rw [if_pos hu]
theorem le_ne {s : Bool} {k : ℕ → β} {u v : ℕ} (hu : par u ≠ s) : Le s k u v ↔ k v ≤ k u := by unfold Le; rw [if_neg hu]

theorem ordered_dual {n : ℕ} {s : Bool} {k : ℕ → β} : Ordered n s k ↔ Ordered n (!s) (fun i => OrderDual.toDual (k i)) := by
  unfold Ordered Le
  refine forall_congr' fun u => forall_congr' fun v => forall_congr' fun _ => forall_congr' fun _ => ?_
  by_cases h : par u = s
  · rw [if_pos h, if_neg (by rw [h]; cases s <;> simp), OrderDual.toDual_le_toDual]
  · rw [if_neg h, if_pos (by cases hp : par u <;> cases s <;> simp_all), OrderDual.toDual_le_toDual]

/-! ### Going up -/

/-- All the constraints hold except the one between `i` and its grandparent. -/
def UpPre (n : ℕ) (s : Bool) (k : ℕ → β) (i : ℕ) : Prop :=
  (∀ u v, v < n → Below u v → ¬ (v = i ∧ 2 < i ∧ u = grandparent i) → Le s k u v) ∧
  (2 < i → ∀ v, v < n → Below i v → k (grandparent i) ≤ k v)

theorem up_stop {n : ℕ} {s : Bool} {k : ℕ → β} {i : ℕ} (hs : par i = s) (h : UpPre n s k i) (hk : 2 < i → k (grandparent i) ≤ k i) :
    Ordered n s k := by
  intro u v hv hb
  by_cases e : v = i ∧ 2 < i ∧ u = grandparent i
  · obtain ⟨rfl, h2, rfl⟩ := e
    rw [le_eq (by rw [par_grandparent h2, hs])]
    exact hk h2
  · exact h.1 u v hv hb e

theorem up_step {n : ℕ} {s : Bool} {k k' : ℕ → β} {i : ℕ} (hs : par i = s) (hi : i < n) (h2 : 2 < i) (h : UpPre n s k i)
    (hk : k i ≤ k (grandparent i)) (e1 : k' i = k (grandparent i)) (e2 : k' (grandparent i) = k i)
    (e3 : ∀ j, j ≠ i → j ≠ grandparent i → k' j = k j) : UpPre n s k' (grandparent i) := by
  obtain ⟨h1, h3⟩ := h
  have hg : grandparent i < i := by rw [grandparent_eq]; omega
  have hsg : par (grandparent i) = s := by rw [par_grandparent h2, hs]
  have hpi : parent i ≠ i ∧ parent i ≠ grandparent i ∧ parent i < i := by rw [parent_eq, grandparent_eq]; omega
  have hpb : Below (grandparent i) (parent i) := by
    left; rw [grandparent_parent h2]; exact ⟨by rw [parent_eq]; omega, rfl⟩
  have hgp : k (grandparent i) ≤ k (parent i) := by
    refine Le.of_eq (h1 _ _ (by omega) hpb ?_) hsg
    rintro ⟨e, -⟩; exact hpi.1 e
  -- values below the grandparent do not decrease under its old value
  have key : ∀ v, v < n → Below (grandparent i) v → k (grandparent i) ≤ k' v := by
    intro v hv hb
    by_cases ev : v = i
    · rw [ev, e1]
    · have hne : v ≠ grandparent i := by have := below_gt hb; omega
      rw [e3 v ev hne]
      exact Le.of_eq (h1 _ _ hv hb (by rintro ⟨e, -⟩; exact ev e)) hsg
  constructor
  · intro u v hv hb hne
    by_cases eu : u = i
    · subst eu
      have hgt := below_gt hb
      rw [le_eq hs, e1, e3 v (by omega) (by omega)]
      exact h3 h2 v hv hb
    · by_cases eg : u = grandparent i
      · subst eg
        rw [le_eq hsg, e2]
        exact le_trans hk (key v hv hb)
      · by_cases ev : v = i
        · subst ev
          rcases hb with ⟨_, rfl⟩ | ⟨_, rfl⟩
          · have hpp : par (parent v) ≠ s := by
              have := par_parent (i := v) (by omega); rw [← hs, this]; cases par (parent v) <;> simp
            rw [le_ne hpp, e1, e3 _ hpi.1 hpi.2.1]
            exact hgp
          · exact absurd rfl eg
        · by_cases ew : v = grandparent i
          · subst ew
            have hold := h1 u _ hv hb (by rintro ⟨e, -⟩; omega)
            rcases hb with ⟨hv0, rfl⟩ | ⟨hv2, rfl⟩
            · have hpp : par (parent (grandparent i)) ≠ s := by
                have := par_parent (i := grandparent i) hv0; rw [← hsg, this]; cases par (parent (grandparent i)) <;> simp
              rw [le_ne hpp] at hold ⊢
              rw [e2, e3 _ eu eg]
              exact le_trans hk hold
            · exact absurd ⟨rfl, hv2, rfl⟩ hne
          · have hold := h1 u v hv hb (by rintro ⟨e, -⟩; exact ev e)
            unfold Le at hold ⊢
            rw [e3 u eu eg, e3 v ev ew]
            exact hold
  · intro hg2 v hv hb
    have hgg : grandparent (grandparent i) ≠ i ∧ grandparent (grandparent i) ≠ grandparent i := by
      rw [grandparent_eq (grandparent i)]; omega
    rw [e3 _ hgg.1 hgg.2]
    have h5 : k (grandparent (grandparent i)) ≤ k (grandparent i) := by
      refine Le.of_eq (h1 _ (grandparent i) (by omega) (Or.inr ⟨hg2, rfl⟩) ?_) (by rw [par_grandparent hg2, hsg])
      rintro ⟨e, -⟩; omega
    exact le_trans h5 (key v hv hb)

/-- Positions and keys after a swap. -/
theorem key_sw (key : α → β) (v : Vec α) (i j : ℕ) :
    key ((sw v i j).val i) = key (v.val j) ∧ key ((sw v i j).val j) = key (v.val i) ∧
      ∀ l, l ≠ i → l ≠ j → key ((sw v i j).val l) = key (v.val l) := by
  refine ⟨by simp [sw], by simp [sw], ?_⟩
  intro l h1 h2
  simp only [sw]
  rw [Equiv.swap_apply_of_ne_of_ne h1 h2]

theorem upLoop_ordered (key : α → β) (cond : α → α → Bool) (h1 : ∀ x y, cond x y = true → key x ≤ key y)
    (h2 : ∀ x y, cond x y = false → key y ≤ key x) (s : Bool) (fuel : ℕ) (v : Vec α) (i : ℕ) (hi : i < v.len) (hf : i < fuel)
    (hs : par i = s) (hpre : UpPre v.len s (fun j => key (v.val j)) i) :
    ∃ v' i', upLoop cond fuel v i (if hasGrandparent i then grandparent i else v.len) = .ok (v', i') ∧
      Ordered v'.len s (fun j => key (v'.val j)) ∧ v'.len = v.len ∧ i' < v.len ∧ key (v'.val i') = key (v.val i) ∧
      ∀ j, par j ≠ s → key (v'.val j) = key (v.val j) := by
  induction fuel generalizing v i with
  | zero => omega
  | succ fuel ih =>
    unfold upLoop
    by_cases h3 : 2 < i
    · have e : hasGrandparent i = true := by simp [hasGrandparent, h3]
      have hg : grandparent i < i := by rw [grandparent_eq]; omega
      simp only [e, if_true]
      rw [if_pos (by omega), Vec.get_nat v hi, Vec.get_nat v (by omega)]
      simp only [bind_ok]
      by_cases hc : cond (v.val i) (v.val (grandparent i)) = true
      · rw [if_pos hc, swap_ok hi (by omega)]
        simp only [bind_ok]
        obtain ⟨k1, k2, k3⟩ := key_sw key v i (grandparent i)
        have hpre' := up_step (k' := fun j => key ((sw v i (grandparent i)).val j)) hs hi h3 hpre (h1 _ _ hc) k1 k2 k3
        obtain ⟨v', i', r1, r2, r3, r4, r5, r6⟩ := ih (sw v i (grandparent i)) (grandparent i) (by show _ < v.len; omega) (by omega)
          (by rw [par_grandparent h3, hs]) hpre'
        refine ⟨v', i', r1, r2, r3, r4, by rw [r5, k2], ?_⟩
        intro j hj
        rw [r6 j hj]
        refine k3 j ?_ ?_
        · rintro rfl; exact hj hs
        · rintro rfl; exact hj (by rw [par_grandparent h3, hs])
      · rw [if_neg hc]
        refine ⟨v, i, rfl, ?_, rfl, hi, rfl, fun _ _ => rfl⟩
        exact up_stop hs hpre (fun _ => h2 _ _ (by simpa using hc))
    · have e : hasGrandparent i = false := by simp [hasGrandparent]; omega
      simp only [e, Bool.false_eq_true, if_false]
      rw [if_neg (by omega)]
      refine ⟨v, i, rfl, ?_, rfl, hi, rfl, fun _ _ => rfl⟩
      exact up_stop hs hpre (fun h => absurd h h3)

/-! ### Going down -/

/-- All the constraints hold except those between `i` and the nodes below it. -/
def DownPre (n : ℕ) (s : Bool) (k : ℕ → β) (i : ℕ) : Prop :=
  (∀ u v, v < n → Below u v → u ≠ i → Le s k u v) ∧ (2 < i → ∀ v, v < n → Below i v → k (grandparent i) ≤ k v)

theorem down_stop {n : ℕ} {s : Bool} {k : ℕ → β} {i : ℕ} (hs : par i = s) (h : DownPre n s k i)
    (hk : ∀ v, v < n → Below i v → k i ≤ k v) : Ordered n s k := by
  intro u v hv hb
  by_cases e : u = i
  · subst e; rw [le_eq hs]; exact hk v hv hb
  · exact h.1 u v hv hb e

theorem par_child_ne {i c : ℕ} {s : Bool} (hs : par i = s) (h0 : 0 < c) (hp : parent c = i) : par c ≠ s := by
  rw [par_parent h0, hp, hs]; cases s <;> simp

theorem par_parent_ne {i : ℕ} {s : Bool} (hs : par i = s) (h0 : 0 < i) : par (parent i) ≠ s := by
  rw [← hs, par_parent h0]; cases par (parent i) <;> simp

/-- Exchange with the best child, when it is also not worse than the grandchildren. -/
theorem down_child {n : ℕ} {s : Bool} {k k' : ℕ → β} {i c : ℕ} (hs : par i = s) (hi : i < n) (hc : c < n) (h0 : 0 < c)
    (hp : parent c = i) (h : DownPre n s k i) (hk : k c < k i) (hb : ∀ v, v < n → Below i v → k c ≤ k v) (e1 : k' i = k c)
    (e2 : k' c = k i) (e3 : ∀ j, j ≠ i → j ≠ c → k' j = k j) : Ordered n s k' := by
  obtain ⟨h1, h3⟩ := h
  have hic : i < c := below_gt (Or.inl ⟨h0, hp⟩)
  have hsc := par_child_ne hs h0 hp
  intro u v hv hbe
  have huv := below_gt hbe
  by_cases eu : u = i
  · subst eu
    rw [le_eq hs, e1]
    by_cases ev : v = c
    · rw [ev, e2]; exact hk.le
    · rw [e3 v (by omega) ev]; exact hb v hv hbe
  · by_cases euc : u = c
    · subst euc
      rw [le_ne hsc, e2, e3 v (by omega) (by omega)]
      exact le_trans ((h1 _ v hv hbe eu).of_ne hsc) hk.le
    · by_cases ev : v = i
      · subst ev
        rcases hbe with ⟨hv0, rfl⟩ | ⟨hv2, rfl⟩
        · have hpp := par_parent_ne hs hv0
          have := (h1 _ v hv (Or.inl ⟨hv0, rfl⟩) eu).of_ne hpp
          rw [le_ne hpp, e1, e3 _ eu euc]
          exact le_trans hk.le this
        · rw [le_eq (by rw [par_grandparent hv2, hs]), e1, e3 _ eu euc]
          exact h3 hv2 c hc (Or.inl ⟨h0, hp⟩)
      · by_cases ew : v = c
        · subst ew
          rcases hbe with ⟨hv0, rfl⟩ | ⟨hv2, rfl⟩
          · exact absurd hp eu
          · have hi0 : 0 < i := by
              rw [grandparent_parent hv2, hp] at huv eu
              rw [parent_eq] at hp; omega
            have e : grandparent v = parent i := by rw [grandparent_parent hv2, hp]
            have hpp := par_parent_ne hs hi0
            rw [e] at eu euc ⊢
            have := (h1 _ i hi (Or.inl ⟨hi0, rfl⟩) eu).of_ne hpp
            rw [le_ne hpp, e2, e3 _ eu euc]
            exact this
        · have hold := h1 u v hv hbe eu
          unfold Le at hold ⊢
          rw [e3 u eu euc, e3 v ev ew]
          exact hold

/-- Exchange with the best grandchild and adjustment of its parent. -/
theorem down_grand {n : ℕ} {s : Bool} {k k' : ℕ → β} {i m : ℕ} (hs : par i = s) (hi : i < n) (hm : m < n) (h2 : 2 < m)
    (hg : grandparent m = i) (h : DownPre n s k i) (hk : k m < k i) (hb : ∀ v, v < n → Below i v → k m ≤ k v)
    (e1 : k' i = k m) (e2 : k' (parent m) = max (k i) (k (parent m))) (e3 : k' m = min (k i) (k (parent m)))
    (e4 : ∀ j, j ≠ i → j ≠ m → j ≠ parent m → k' j = k j) : DownPre n s k' m := by
  obtain ⟨h1, h3⟩ := h
  have hpm0 : 0 < parent m := by rw [parent_eq]; omega
  have hpp : parent (parent m) = i := by rw [← hg, grandparent_parent h2]
  have hip : i < parent m := below_gt (Or.inl ⟨hpm0, hpp⟩)
  have hpm : parent m < m := by rw [parent_eq]; omega
  have hsp := par_child_ne hs hpm0 hpp
  have hsm : par m = s := by rw [← par_grandparent h2, hg, hs]
  have hmp : k m ≤ k (parent m) := (h1 _ m hm (Or.inl ⟨by omega, rfl⟩) (by omega)).of_ne hsp
  have hpi : 0 < i → k i ≤ k (parent i) ∧ k (parent m) ≤ k (parent i) := by
    intro h0
    have hpne : parent i ≠ i := by rw [parent_eq]; omega
    have hq := par_parent_ne hs h0
    refine ⟨(h1 _ i hi (Or.inl ⟨h0, rfl⟩) hpne).of_ne hq, (h1 _ (parent m) (by omega) (Or.inr ⟨?_, ?_⟩) hpne).of_ne hq⟩
    · rw [parent_eq] at hpp; omega
    · rw [grandparent_parent (by rw [parent_eq] at hpp; omega), hpp]
  constructor
  · intro u v hv hbe hum
    have huv := below_gt hbe
    by_cases eu : u = i
    · subst eu
      rw [le_eq hs, e1]
      by_cases ev : v = m
      · rw [ev, e3]; exact le_min hk.le hmp
      · by_cases ep : v = parent m
        · rw [ep, e2]; exact le_trans hk.le (le_max_left _ _)
        · rw [e4 v (by omega) ev ep]; exact hb v hv hbe
    · by_cases eup : u = parent m
      · subst eup
        rw [le_ne hsp, e2]
        by_cases ev : v = m
        · rw [ev, e3]; exact le_trans (min_le_left _ _) (le_max_left _ _)
        · rw [e4 v (by omega) ev (by omega)]
          exact le_trans ((h1 _ v hv hbe eu).of_ne hsp) (le_max_right _ _)
      · by_cases ev : v = i
        · subst ev
          rcases hbe with ⟨hv0, rfl⟩ | ⟨hv2, rfl⟩
          · have hq := par_parent_ne hs hv0
            rw [le_ne hq, e1, e4 _ eu hum eup]
            exact le_trans hk.le (hpi hv0).1
          · rw [le_eq (by rw [par_grandparent hv2, hs]), e1, e4 _ eu hum eup]
            exact h3 hv2 m hm (Or.inr ⟨h2, hg⟩)
        · by_cases ewm : v = m
          · subst ewm
            rcases hbe with ⟨_, rfl⟩ | ⟨_, rfl⟩
            · exact absurd rfl eup
            · exact absurd hg eu
          · by_cases ewp : v = parent m
            · subst ewp
              rcases hbe with ⟨_, rfl⟩ | ⟨hv2, rfl⟩
              · exact absurd hpp eu
              · have hi0 : 0 < i := by rw [parent_eq] at hpp; omega
                have e : grandparent (parent m) = parent i := by rw [grandparent_parent hv2, hpp]
                rw [e] at eu hum eup ⊢
                have hq := par_parent_ne hs hi0
                rw [le_ne hq, e2, e4 _ eu hum eup]
                exact max_le (hpi hi0).1 (hpi hi0).2
            · have hold := h1 u v hv hbe eu
              unfold Le at hold ⊢
              rw [e4 u eu hum eup, e4 v ev ewm ewp]
              exact hold
  · intro _ v hv hbe
    have hmv := below_gt hbe
    rw [hg, e1, e4 v (by omega) (by omega) (by omega)]
    exact (h1 m v hv hbe (by omega)).of_eq hsm

theorem childBest_best (key : α → β) (better : α → α → Bool) (hb : ∀ x y, better x y = true ↔ key x < key y) (v : Vec α) (i : ℕ)
    {r : ℕ} (hr : childBest better v i = .ok r) : ∀ c, c < v.len → 0 < c → parent c = i → key (v.val r) ≤ key (v.val c) := by
  intro c hc h0 hp
  rw [parent_eq] at hp
  unfold childBest at hr
  simp only [childLeft_eq] at hr
  by_cases h : 2 * i + 1 + 1 < v.len
  · rw [if_pos h, Vec.get_nat v h, Vec.get_nat v (by omega)] at hr
    have := Except.ok.inj hr
    subst this
    have hcc : c = 2 * i + 1 ∨ c = 2 * i + 1 + 1 := by omega
    by_cases hbt : better (v.val (2 * i + 1 + 1)) (v.val (2 * i + 1)) = true
    · rw [if_pos hbt]
      have := (hb _ _).1 hbt
      rcases hcc with rfl | rfl
      · exact this.le
      · exact le_refl _
    · rw [if_neg hbt]
      rw [hb, not_lt] at hbt
      rcases hcc with rfl | rfl
      · exact le_refl _
      · exact hbt
  · rw [if_neg h] at hr
    have := Except.ok.inj hr
    subst this
    have : c = 2 * i + 1 := by omega
    rw [this]

theorem grandchildLoop_best (key : α → β) (better : α → α → Bool) (hb : ∀ x y, better x y = true ↔ key x < key y) (v : Vec α)
    (n j b : ℕ) {r : ℕ} (hr : grandchildLoop better v n j b = .ok r) (hbl : b < v.len ∨ v.len ≤ j) :
    key (v.val r) ≤ key (v.val b) ∧ ∀ c, c < v.len → j ≤ c → c < j + n → key (v.val r) ≤ key (v.val c) := by
  induction n generalizing j b with
  | zero =>
    have := Except.ok.inj hr
    subst this
    exact ⟨le_refl _, fun c _ h1 h2 => by omega⟩
  | succ n ih =>
    unfold grandchildLoop at hr
    by_cases h : j < v.len
    · have hb' : b < v.len := by omega
      rw [if_pos h, Vec.get_nat v h, Vec.get_nat v hb'] at hr
      simp only [bind_ok] at hr
      obtain ⟨h1, h2⟩ := ih (j + 1) _ hr (by split_ifs <;> omega)
      by_cases hbt : better (v.val j) (v.val b) = true
      · rw [if_pos hbt] at h1
        have hlt := (hb _ _).1 hbt
        refine ⟨le_trans h1 hlt.le, ?_⟩
        intro c hc hj hn
        by_cases e : c = j
        · rw [e]; exact h1
        · exact h2 c hc (by omega) (by omega)
      · rw [if_neg hbt] at h1
        rw [hb, not_lt] at hbt
        refine ⟨h1, ?_⟩
        intro c hc hj hn
        by_cases e : c = j
        · rw [e]; exact le_trans h1 hbt
        · exact h2 c hc (by omega) (by omega)
    · rw [if_neg h] at hr
      have := Except.ok.inj hr
      subst this
      exact ⟨le_refl _, fun c _ h1 h2 => by omega⟩

theorem grandchildBest_best (key : α → β) (better : α → α → Bool) (hb : ∀ x y, better x y = true ↔ key x < key y) (v : Vec α) (i : ℕ)
    {r : ℕ} (hr : grandchildBest better v i = .ok r) :
    ∀ c, c < v.len → 2 < c → grandparent c = i → key (v.val r) ≤ key (v.val c) := by
  intro c hc h2 hg
  rw [grandparent_eq] at hg
  unfold grandchildBest at hr
  rw [grandchild_eq, Nat.add_zero] at hr
  obtain ⟨h1, h3⟩ := grandchildLoop_best key better hb v _ _ _ hr (by omega)
  by_cases e : c = 4 * i + 3
  · rw [e]; exact h1
  · exact h3 c hc (by omega) (by omega)

/-- `heapDownMax`/`heapDownMin` restore the order; the version that goes on after an exchange with a child needs pairwise
inequivalent elements. -/
theorem heapDown_ordered (key : α → β) (better : α → α → Bool) (hb : ∀ x y, better x y = true ↔ key x < key y) (cont : Bool)
    (s : Bool) (fuel : ℕ) (v : Vec α) (i : ℕ) (hf : v.len < i + fuel) (h0 : 0 < fuel) (hs : par i = s)
    (hpre : DownPre v.len s (fun j => key (v.val j)) i)
    (hd : cont = true → ∀ a b, a < v.len → b < v.len → a ≠ b → key (v.val a) ≠ key (v.val b)) :
    ∃ v', heapDownLoop better cont fuel v i = .ok v' ∧ v'.len = v.len ∧ Ordered v'.len s (fun j => key (v'.val j)) := by
  induction fuel generalizing v i with
  | zero => omega
  | succ fuel ih =>
    by_cases hi : i < v.len
    · obtain ⟨ic, ig, c, g, h⟩ := heapDown_step better cont fuel v i hi
      obtain ⟨ic', c1, c2, c3, c4⟩ := childBest_ok better v i
      obtain ⟨ig', g1, g2, g3, g4⟩ := grandchildBest_ok better v i
      obtain rfl : ic' = ic := by rw [c] at c1; exact (Except.ok.inj c1).symm
      obtain rfl : ig' = ig := by rw [g] at g1; exact (Except.ok.inj g1).symm
      have hcb := childBest_best key better hb v i c
      have hgb := grandchildBest_best key better hb v i g
      have hpc : parent ic' = i := by rw [parent_eq]; omega
      have hgg : grandparent ig' = i := by rw [grandparent_eq]; omega
      have hswd : ∀ (w : Vec α) (a b : ℕ), (∀ x y, x < w.len → y < w.len → x ≠ y → key (w.val x) ≠ key (w.val y)) →
          a < w.len → b < w.len → ∀ x y, x < (sw w a b).len → y < (sw w a b).len → x ≠ y →
            key ((sw w a b).val x) ≠ key ((sw w a b).val y) := by
        intro w a b hw ha hb' x y hx hy hxy
        simp only [sw] at hx hy ⊢
        refine hw _ _ ?_ ?_ ?_
        · simp only [Equiv.swap_apply_def]; split_ifs <;> assumption
        · simp only [Equiv.swap_apply_def]; split_ifs <;> assumption
        · exact fun e => hxy ((Equiv.swap a b).injective e)
      rcases h with ⟨h1, h2, h3, h⟩ | ⟨hn, h⟩
      · rw [hb] at h2 h3
        have hic : ic' < v.len := by omega
        have hbest : ∀ w, w < v.len → Below i w → key (v.val ig') ≤ key (v.val w) := by
          rintro w hw (⟨w0, wp⟩ | ⟨w2, wg⟩)
          · exact le_trans h3.le (hcb w hw w0 wp)
          · exact hgb w hw w2 wg
        have hpl : parent ig' < v.len := by rw [parent_eq]; omega
        have hpne : parent ig' ≠ i ∧ parent ig' ≠ ig' ∧ i ≠ ig' := by rw [parent_eq]; omega
        obtain ⟨k1, k2, k3⟩ := key_sw key v i ig'
        rcases h with ⟨hbt, e⟩ | ⟨hbt, e⟩
        · rw [hb] at hbt
          obtain ⟨l1, l2, l3⟩ := key_sw key (sw v i ig') (parent ig') ig'
          have hpre' := down_grand (k' := fun j => key ((sw (sw v i ig') (parent ig') ig').val j)) hs hi h1 (by omega) hgg hpre
            h2 hbest
            (by rw [l3 i (Ne.symm hpne.1) hpne.2.2, k1])
            (by rw [l1, k2, max_eq_left hbt.le])
            (by rw [l2, k3 _ hpne.1 hpne.2.1, min_eq_right hbt.le])
            (fun j j1 j2 j3 => by rw [l3 j j3 j2, k3 j j1 j2])
          obtain ⟨v', r1, r2, r3⟩ := ih (sw (sw v i ig') (parent ig') ig') ig' (by show v.len < _; omega) (by omega)
            (by rw [← par_grandparent (by omega), hgg, hs]) hpre'
            (fun hct => hswd (sw v i ig') (parent ig') ig' (hswd v i ig' (hd hct) hi h1) hpl h1)
          exact ⟨v', e.trans r1, r2, r3⟩
        · rw [hb, not_lt] at hbt
          have hpre' := down_grand (k' := fun j => key ((sw v i ig').val j)) hs hi h1 (by omega) hgg hpre
            h2 hbest k1
            (by rw [k3 _ hpne.1 hpne.2.1, max_eq_right hbt])
            (by rw [k2, min_eq_left hbt])
            (fun j j1 j2 _ => k3 j j1 j2)
          obtain ⟨v', r1, r2, r3⟩ := ih (sw v i ig') ig' (by show v.len < _; omega) (by omega)
            (by rw [← par_grandparent (by omega), hgg, hs]) hpre' (fun hct => hswd v i ig' (hd hct) hi h1)
          exact ⟨v', e.trans r1, r2, r3⟩
      · rw [hb, hb] at hn
        rcases h with ⟨h1, h2, e⟩ | ⟨hn2, e⟩
        · rw [hb] at h2
          have hbest : ∀ w, w < v.len → Below i w → key (v.val ic') ≤ key (v.val w) := by
            rintro w hw (⟨w0, wp⟩ | ⟨w2, wg⟩)
            · exact hcb w hw w0 wp
            · have h5 := hgb w hw w2 wg
              have h6 : ig' < v.len := by rw [grandparent_eq] at wg; omega
              by_contra h7
              rw [not_le] at h7
              exact hn ⟨h6, lt_of_le_of_lt h5 (lt_trans h7 h2), lt_of_le_of_lt h5 h7⟩
          obtain ⟨k1, k2, k3⟩ := key_sw key v i ic'
          have hord := down_child (k' := fun j => key ((sw v i ic').val j)) hs hi h1 (by omega) hpc hpre h2 hbest k1 k2 k3
          by_cases hct : cont = true
          · rw [if_pos hct] at e
            -- the child has no children
            have hnc : v.len ≤ 2 * ic' + 1 := by
              by_contra hlt
              rw [not_le] at hlt
              have hbel : Below i (2 * ic' + 1) := by
                right; rw [grandparent_eq]; omega
              have hsc := par_child_ne hs (by omega) hpc
              have h5 := (hpre.1 ic' (2 * ic' + 1) hlt (Or.inl ⟨by omega, by rw [parent_eq]; omega⟩) (by omega)).of_ne hsc
              have h6 := hbest _ hlt hbel
              exact hd hct ic' (2 * ic' + 1) h1 hlt (by omega) (le_antisymm h6 h5)
            rw [e]
            match fuel, hf with
            | 0, hf => omega
            | fuel + 1, _ =>
              obtain ⟨ic2, ig2, d1, d2, hh⟩ := heapDown_step better cont fuel (sw v i ic') ic' h1
              obtain ⟨_, c1', c2', c3', c4'⟩ := childBest_ok better (sw v i ic') ic'
              obtain ⟨_, g1', g2', g3', g4'⟩ := grandchildBest_ok better (sw v i ic') ic'
              have ec := Except.ok.inj (d1.symm.trans c1')
              have eg := Except.ok.inj (d2.symm.trans g1')
              have hlen : (sw v i ic').len = v.len := rfl
              rcases hh with ⟨hh, _⟩ | ⟨_, ⟨hh, _⟩ | ⟨_, hh⟩⟩
              · omega
              · omega
              · exact ⟨_, hh, rfl, hord⟩
          · rw [if_neg hct] at e
            exact ⟨_, e, rfl, hord⟩
        · rw [hb] at hn2
          refine ⟨v, e, rfl, down_stop hs hpre ?_⟩
          rintro w hw (⟨w0, wp⟩ | ⟨w2, wg⟩)
          · have hl : ic' < v.len := by rw [parent_eq] at wp; omega
            have : key (v.val i) ≤ key (v.val ic') := by
              by_contra h7; rw [not_le] at h7; exact hn2 ⟨hl, h7⟩
            exact le_trans this (hcb w hw w0 wp)
          · have hl : ig' < v.len := by rw [grandparent_eq] at wg; omega
            have hl2 : ic' < v.len := by rw [grandparent_eq] at wg; omega
            have h8 : key (v.val i) ≤ key (v.val ic') := by
              by_contra h7; rw [not_le] at h7; exact hn2 ⟨hl2, h7⟩
            have : key (v.val i) ≤ key (v.val ig') := by
              by_contra h7; rw [not_le] at h7; exact hn ⟨hl, h7, lt_of_lt_of_le h7 h8⟩
            exact le_trans this (hgb w hw w2 wg)
    · refine ⟨v, ?_, rfl, down_stop hs hpre ?_⟩
      · unfold heapDownLoop; rw [if_neg hi]; rfl
      · intro w hw hbe
        have := below_gt hbe
        omega

/-! ### Pushing -/

/-- All the constraints hold except those that limit `i` from above. -/
def PushPre (n : ℕ) (s : Bool) (k : ℕ → β) (i : ℕ) : Prop := ∀ u v, v < n → Below u v → v ≠ i → Le s k u v

theorem Ordered.upPre {n : ℕ} {s : Bool} {k : ℕ → β} {i : ℕ} (hs : par i = s) (hi : i < n) (h : Ordered n s k) : UpPre n s k i := by
  refine ⟨fun u v hv hb _ => h u v hv hb, fun h2 v hv hb => ?_⟩
  have h1 := (h _ i hi (Or.inr ⟨h2, rfl⟩)).of_eq (by rw [par_grandparent h2, hs])
  exact le_trans h1 ((h i v hv hb).of_eq hs)

theorem push_upPre {n : ℕ} {s : Bool} {k : ℕ → β} {i : ℕ} (hs : par i = s) (hn : n = i + 1) (h : PushPre n s k i)
    (hp : 0 < i → k i ≤ k (parent i)) : UpPre n s k i := by
  constructor
  · intro u v hv hb hne
    by_cases e : v = i
    · subst e
      rcases hb with ⟨h0, rfl⟩ | ⟨h2, rfl⟩
      · rw [le_ne (par_parent_ne hs h0)]; exact hp h0
      · exact absurd ⟨rfl, h2, rfl⟩ hne
    · exact h u v hv hb e
  · intro _ v hv hb
    have := below_gt hb
    omega

theorem push_swap {n : ℕ} {s : Bool} {k k' : ℕ → β} {i : ℕ} (hs : par i = s) (hn : n = i + 1) (h0 : 0 < i) (h : PushPre n s k i)
    (hk : k (parent i) ≤ k i) (e1 : k' i = k (parent i)) (e2 : k' (parent i) = k i)
    (e3 : ∀ j, j ≠ i → j ≠ parent i → k' j = k j) :
    UpPre n (!s) (fun j => OrderDual.toDual (k' j)) (parent i) := by
  have hpi : parent i < i := by rw [parent_eq]; omega
  have hpp := par_parent_ne hs h0
  have hps : par (parent i) = !s := by cases hq : par (parent i) <;> cases s <;> simp_all
  -- nodes below the parent
  have key : ∀ v, v < n → Below (parent i) v → k' v ≤ k (parent i) := by
    intro v hv hb
    have := below_gt hb
    by_cases ev : v = i
    · rw [ev, e1]
    · rw [e3 v ev (by omega)]; exact (h _ v hv hb ev).of_ne hpp
  have dual : ∀ u v, Le s k' u v → Le (!s) (fun j => OrderDual.toDual (k' j)) u v := by
    intro u v hle
    unfold Le at hle ⊢
    by_cases hu : par u = s
    · rw [if_pos hu] at hle; rw [if_neg (by rw [hu]; cases s <;> simp)]; exact hle
    · rw [if_neg hu] at hle; rw [if_pos (by cases hp : par u <;> cases s <;> simp_all)]; exact hle
  constructor
  · intro u v hv hb hne
    apply dual
    have huv := below_gt hb
    by_cases eu : u = parent i
    · subst eu
      rw [le_ne hpp, e2]; exact le_trans (key v hv hb) hk
    · have eui : u ≠ i := by omega
      by_cases ev : v = i
      · subst ev
        rcases hb with ⟨_, rfl⟩ | ⟨h2, rfl⟩
        · exact absurd rfl eu
        · rw [le_eq (by rw [par_grandparent h2, hs]), e1, e3 _ eui eu]
          refine (h _ (parent v) (by omega) (Or.inl ⟨?_, ?_⟩) (by omega)).of_eq (by rw [par_grandparent h2, hs])
          · rw [parent_eq]; omega
          · rw [grandparent_parent h2]
      · by_cases ep : v = parent i
        · subst ep
          rcases hb with ⟨hv0, rfl⟩ | ⟨hv2, rfl⟩
          · have hs' : par (parent (parent i)) = s := by
              have := par_parent hv0; rw [hps] at this; exact (Bool.not_inj this).symm
            rw [le_eq hs', e2, e3 _ eui eu]
            exact le_trans ((h _ (parent i) hv (Or.inl ⟨hv0, rfl⟩) (by omega)).of_eq hs') hk
          · exact absurd ⟨rfl, hv2, rfl⟩ hne
        · have hold := h u v hv hb ev
          unfold Le at hold ⊢
          rw [e3 u eui eu, e3 v ev ep]
          exact hold
  · intro h2 v hv hb
    have hg : grandparent (parent i) < parent i := by rw [grandparent_eq]; omega
    show k' v ≤ k' (grandparent (parent i))
    rw [e3 (grandparent (parent i)) (by omega) (by omega)]
    refine le_trans (key v hv hb) ?_
    exact (h _ (parent i) (by omega) (Or.inr ⟨h2, rfl⟩) (by omega)).of_ne (by rw [par_grandparent h2, hps]; cases s <;> simp)

/-- Going up from a position of equal key, in a state that satisfies the order, changes no key order. -/
theorem upLoop_tie (key : α → β) (cond : α → α → Bool) (h1 : ∀ x y, cond x y = true → key x ≤ key y)
    (h2 : ∀ x y, cond x y = false → key y ≤ key x) (s : Bool) (fuel : ℕ) (v : Vec α) (i t : ℕ) (hi : i < v.len)
    (hf : t < v.len → t + 1 < fuel) (h0 : 0 < fuel) (hs : t < v.len → par t = s)
    (ho : Ordered v.len s (fun j => key (v.val j))) (hle : t < v.len → key (v.val t) ≤ key (v.val i)) :
    ∃ v' i', upLoop cond fuel v i t = .ok (v', i') ∧ v'.len = v.len ∧ Ordered v'.len s (fun j => key (v'.val j)) := by
  match fuel, h0 with
  | fuel + 1, _ =>
    unfold upLoop
    by_cases ht : t < v.len
    · rw [if_pos ht, Vec.get_nat v hi, Vec.get_nat v ht]
      simp only [bind_ok]
      by_cases hc : cond (v.val i) (v.val t) = true
      · rw [if_pos hc, swap_ok hi ht]
        simp only [bind_ok]
        have heq : key (v.val i) = key (v.val t) := le_antisymm (h1 _ _ hc) (hle ht)
        obtain ⟨k1, k2, k3⟩ := key_sw key v i t
        have hsame : (fun j => key ((sw v i t).val j)) = fun j => key (v.val j) := by
          funext j
          by_cases e1 : j = i
          · rw [e1, k1, heq]
          · by_cases e2 : j = t
            · rw [e2, k2, heq]
            · exact k3 j e1 e2
        have hpre : UpPre (sw v i t).len s (fun j => key ((sw v i t).val j)) t := by
          rw [hsame]; exact ho.upPre (hs ht) ht
        obtain ⟨v', i', r1, r2, r3, -⟩ := upLoop_ordered key cond h1 h2 s fuel (sw v i t) t ht (by have := hf ht; omega) (hs ht) hpre
        exact ⟨v', i', r1, r3, r2⟩
      · rw [if_neg hc]
        exact ⟨v, i, rfl, rfl, ho⟩
    · rw [if_neg ht]
      exact ⟨v, i, rfl, rfl, ho⟩

/-- `heapUp` at the last position restores the order. -/
theorem heapUp_ordered (key : α → β) (cmp : α → α → Bool) (hc : ∀ x y, cmp x y = true ↔ key x < key y) (v : Vec α) (i : ℕ)
    (hn : v.len = i + 1) (hpre : PushPre v.len true (fun j => key (v.val j)) i) :
    ∃ v', heapUp cmp v i = .ok v' ∧ Ordered v'.len true (fun j => key (v'.val j)) := by
  have hi : i < v.len := by omega
  have a1 : ∀ x y, (fun a b => cmp a b) x y = true → key x ≤ key y := fun x y h => ((hc x y).1 h).le
  have a2 : ∀ x y, (fun a b => cmp a b) x y = false → key y ≤ key x := by
    intro x y h; rw [← not_lt, ← hc]; simpa using h
  have b1 : ∀ x y, (fun a b => !cmp a b) x y = true → OrderDual.toDual (key x) ≤ OrderDual.toDual (key y) := by
    intro x y h; rw [OrderDual.toDual_le_toDual, ← not_lt, ← hc]; simpa using h
  have b2 : ∀ x y, (fun a b => !cmp a b) x y = false → OrderDual.toDual (key y) ≤ OrderDual.toDual (key x) := by
    intro x y h; rw [OrderDual.toDual_le_toDual]; exact ((hc x y).1 (by simpa using h)).le
  have hpar : ∀ l, (level l % 2 == 0) = par l := fun _ => rfl
  unfold heapUp
  simp only [hpar]
  cases hp : par i with
  | true =>
    simp only [if_true]
    by_cases hk : 0 < i → key (v.val i) ≤ key (v.val (parent i))
    · obtain ⟨v1, i1, e1, o1, l1, p1, k1, r1⟩ := upLoop_ordered key _ a1 a2 true (i + 2) v i hi (by omega) hp
        (push_upPre hp hn hpre hk)
      rw [e1]
      simp only [bind_ok]
      have ht : (if hasParent i then parent i else v.len) < v1.len → 0 < i ∧ (if hasParent i then parent i else v.len) = parent i := by
        intro h
        by_cases h0 : 0 < i
        · exact ⟨h0, by simp [hasParent, h0]⟩
        · rw [if_neg (by simpa [hasParent] using h0)] at h; omega
      obtain ⟨v2, i2, e2, l2, o2⟩ := upLoop_tie (fun x => OrderDual.toDual (key x)) _ b1 b2 (!true) (i1 + v1.len + 2) v1 i1
        (if hasParent i then parent i else v.len) (by omega) (by omega) (by omega)
        (by intro h; obtain ⟨h0, e⟩ := ht h; rw [e]; have := par_parent h0; rw [hp] at this; simpa using this)
        (ordered_dual.1 o1)
        (by
          intro h; obtain ⟨h0, e⟩ := ht h
          rw [e, OrderDual.toDual_le_toDual, k1, r1 _ (par_parent_ne hp h0)]
          exact hk h0)
      rw [e2]
      exact ⟨v2, rfl, ordered_dual.2 o2⟩
    · rw [Classical.not_imp, not_le] at hk
      obtain ⟨h0, hk⟩ := hk
      have hpl : parent i < i := by rw [parent_eq]; omega
      have e1 : upLoop (fun a b => cmp a b) (i + 2) v i (if hasGrandparent i then grandparent i else v.len) = .ok (v, i) := by
        unfold upLoop
        by_cases h2 : 2 < i
        · have hg : grandparent i < i := by rw [grandparent_eq]; omega
          have hlt : ¬ cmp (v.val i) (v.val (grandparent i)) = true := by
            rw [hc, not_lt]
            refine le_trans ?_ hk.le
            refine (hpre _ (parent i) (by omega) (Or.inl ⟨?_, ?_⟩) (by omega)).of_eq (by rw [par_grandparent h2, hp])
            · rw [parent_eq]; omega
            · rw [grandparent_parent h2]
          rw [if_pos (show hasGrandparent i = true by simp [hasGrandparent, h2]), if_pos (by omega), Vec.get_nat v hi,
            Vec.get_nat v (by omega)]
          simp only [bind_ok]
          rw [if_neg hlt]
          rfl
        · rw [if_neg (show ¬ hasGrandparent i = true by simpa [hasGrandparent] using h2), if_neg (by omega)]; rfl
      rw [e1]
      simp only [bind_ok]
      rw [if_pos (show hasParent i = true by simp [hasParent, h0])]
      obtain ⟨k1, k2, k3⟩ := key_sw key v i (parent i)
      have hpre' := push_swap (k' := fun j => key ((sw v i (parent i)).val j)) hp hn h0 hpre hk.le k1 k2 k3
      obtain ⟨v2, i2, e2, o2, l2, -⟩ := upLoop_ordered (fun x => OrderDual.toDual (key x)) _ b1 b2 (!true) (i + v.len + 1)
        (sw v i (parent i)) (parent i) (by show _ < v.len; omega) (by omega)
        (by have := par_parent h0; rw [hp] at this; simpa using this) hpre'
      have hcond : (!cmp (v.val i) (v.val (parent i))) = true := by
        have : ¬ cmp (v.val i) (v.val (parent i)) = true := by rw [hc, not_lt]; exact hk.le
        simpa using this
      have e3 : upLoop (fun a b => !cmp a b) (i + v.len + 2) v i (parent i) = .ok (v2, i2) := by
        rw [upLoop, if_pos (by omega), Vec.get_nat v hi, Vec.get_nat v (by omega)]
        simp only [bind_ok]
        rw [if_pos hcond, swap_ok hi (by omega)]
        exact e2
      rw [e3]
      exact ⟨v2, rfl, ordered_dual.2 o2⟩
  | false =>
    simp only [Bool.false_eq_true, if_false]
    have h0 : 0 < i := by
      rcases Nat.eq_zero_or_pos i with rfl | h
      · rw [par_zero] at hp; cases hp
      · exact h
    have hpl : parent i < i := by rw [parent_eq]; omega
    have hpar' : par (parent i) = true := by have := par_parent h0; rw [hp] at this; simpa using this
    have hpreD : PushPre v.len false (fun j => OrderDual.toDual (key (v.val j))) i := by
      intro u w hw hb hne
      have := hpre u w hw hb hne
      unfold Le at this ⊢
      cases hu : par u <;> simp only [hu, if_true, Bool.false_eq_true, if_false] at this ⊢ <;> exact this
    rw [if_pos (show hasParent i = true by simp [hasParent, h0])]
    by_cases hcm : cmp (v.val i) (v.val (parent i)) = true
    · have hk := (hc _ _).1 hcm
      obtain ⟨k1, k2, k3⟩ := key_sw key v i (parent i)
      have hpre' := push_swap (k' := fun j => OrderDual.toDual (key ((sw v i (parent i)).val j))) hp hn h0 hpreD
        (show OrderDual.toDual (key (v.val (parent i))) ≤ OrderDual.toDual (key (v.val i)) from hk.le)
        (congrArg _ k1) (congrArg _ k2) (fun j j1 j2 => congrArg _ (k3 j j1 j2))
      obtain ⟨v1, i1, e1, o1, l1, p1, kk1, r1⟩ := upLoop_ordered key _ a1 a2 true (i + 1)
        (sw v i (parent i)) (parent i) (by show _ < v.len; omega) (by omega) hpar' hpre'
      have e3 : upLoop (fun a b => cmp a b) (i + 2) v i (parent i) = .ok (v1, i1) := by
        rw [upLoop, if_pos (by omega), Vec.get_nat v hi, Vec.get_nat v (by omega)]
        simp only [bind_ok]
        rw [if_pos hcm, swap_ok hi (by omega)]
        exact e1
      rw [e3]
      simp only [bind_ok]
      have l1' : v1.len = v.len := l1
      have p1' : i1 < v.len := p1
      have ht : (if hasGrandparent i then grandparent i else v.len) < v1.len → 2 < i ∧
          (if hasGrandparent i then grandparent i else v.len) = grandparent i := by
        intro h
        by_cases h2 : 2 < i
        · exact ⟨h2, by simp [hasGrandparent, h2]⟩
        · rw [if_neg (by simpa [hasGrandparent] using h2)] at h; omega
      obtain ⟨v2, i2, e2, l2, o2⟩ := upLoop_tie (fun x => OrderDual.toDual (key x)) _ b1 b2 (!true) (i1 + v1.len + 2) v1 i1
        (if hasGrandparent i then grandparent i else v.len) (by omega) (by omega) (by omega)
        (by intro h; obtain ⟨h2, e⟩ := ht h; rw [e, par_grandparent h2, hp]; rfl)
        (ordered_dual.1 o1)
        (by
          intro h; obtain ⟨h2, e⟩ := ht h
          have hg : grandparent i < i ∧ grandparent i ≠ parent i := by rw [grandparent_eq, parent_eq]; omega
          rw [e, OrderDual.toDual_le_toDual, kk1, k2, r1 _ (by rw [par_grandparent h2, hp]; simp), k3 _ (by omega) hg.2]
          refine le_trans hk.le ?_
          refine (hpre _ (parent i) (by omega) (Or.inl ⟨?_, ?_⟩) (by omega)).of_ne (by rw [par_grandparent h2, hp]; simp)
          · rw [parent_eq]; omega
          · rw [grandparent_parent h2])
      rw [e2]
      exact ⟨v2, rfl, ordered_dual.2 o2⟩
    · have e1 : upLoop (fun a b => cmp a b) (i + 2) v i (parent i) = .ok (v, i) := by
        rw [upLoop, if_pos (by omega), Vec.get_nat v hi, Vec.get_nat v (by omega)]
        simp only [bind_ok]
        rw [if_neg hcm]
        rfl
      rw [e1]
      simp only [bind_ok]
      have hk : key (v.val (parent i)) ≤ key (v.val i) := by rw [hc, not_lt] at hcm; exact hcm
      obtain ⟨v2, i2, e2, o2, -⟩ := upLoop_ordered (fun x => OrderDual.toDual (key x)) _ b1 b2 false (i + v.len + 2) v i hi
        (by omega) hp (push_upPre hp hn hpreD (fun _ => hk))
      rw [e2]
      exact ⟨v2, rfl, ordered_dual.2 o2⟩

/-! ### The extremes -/

theorem ordered_min {n : ℕ} {k : ℕ → β} (h : Ordered n true k) (v : ℕ) (hv : v < n) : k 0 ≤ k v := by
  induction v using Nat.strong_induction_on with
  | _ v ih =>
    rcases Nat.eq_zero_or_pos v with rfl | h0
    · exact le_refl _
    · by_cases h2 : 2 < v
      · have hg : grandparent v < v := by rw [grandparent_eq]; omega
        have hp : parent v < v := by rw [parent_eq]; omega
        cases hpar : par v with
        | true => exact le_trans (ih _ hg (by omega)) ((h _ v hv (Or.inr ⟨h2, rfl⟩)).of_eq (by rw [par_grandparent h2, hpar]))
        | false =>
          refine le_trans (ih _ hp (by omega)) ((h _ v hv (Or.inl ⟨h0, rfl⟩)).of_eq ?_)
          have := par_parent h0; rw [hpar] at this; simpa using this
      · have hp : parent v = 0 := by rw [parent_eq]; omega
        exact (h 0 v hv (Or.inl ⟨h0, hp⟩)).of_eq par_zero

theorem ordered_max {n : ℕ} {k : ℕ → β} (h : Ordered n true k) (v : ℕ) (hv : v < n) (h0 : 0 < v) :
    ∃ c, 0 < c ∧ c ≤ 2 ∧ c < n ∧ k v ≤ k c := by
  induction v using Nat.strong_induction_on with
  | _ v ih =>
    by_cases h2 : 2 < v
    · have hg : grandparent v < v := by rw [grandparent_eq]; omega
      have hp : parent v < v := by rw [parent_eq]; omega
      cases hpar : par v with
      | true =>
        obtain ⟨c, c1, c2, c3, c4⟩ := ih _ hp (by omega) (by rw [parent_eq]; omega)
        exact ⟨c, c1, c2, c3, le_trans ((h _ v hv (Or.inl ⟨h0, rfl⟩)).of_ne (par_parent_ne hpar h0)) c4⟩
      | false =>
        have hgp := par_grandparent h2
        have hg0 : 0 < grandparent v := by
          rcases Nat.eq_zero_or_pos (grandparent v) with e | e
          · rw [e, par_zero, hpar] at hgp; cases hgp
          · exact e
        obtain ⟨c, c1, c2, c3, c4⟩ := ih _ hg (by omega) hg0
        exact ⟨c, c1, c2, c3, le_trans ((h _ v hv (Or.inr ⟨h2, rfl⟩)).of_ne (by rw [hgp, hpar]; simp)) c4⟩
    · exact ⟨v, h0, by omega, hv, le_refl _⟩

/-! ### The operations -/

theorem par_one : par 1 = false := by
  have := par_parent (i := 1) (by omega); rw [this, show parent 1 = 0 from rfl, par_zero]; rfl
theorem par_two : par 2 = false := by
  have := par_parent (i := 2) (by omega); rw [this, show parent 2 = 0 from rfl, par_zero]; rfl

theorem push_ordered (key : α → β) (cmp : α → α → Bool) (hc : ∀ x y, cmp x y = true ↔ key x < key y) (v : Vec α) (x : α)
    (h : Ordered v.len true (fun j => key (v.val j))) :
    ∃ v', push cmp v x = .ok v' ∧ Ordered v'.len true (fun j => key (v'.val j)) := by
  unfold push
  have e : (v.push x).len = v.len + 1 := rfl
  have ev : ∀ j, j ≠ v.len → (v.push x).val j = v.val j := fun j hj => by simp [Vec.push, hj]
  simp only [e, Nat.add_sub_cancel]
  refine heapUp_ordered key cmp hc (v.push x) v.len e ?_
  intro u w hw hb hne
  have hlt := below_gt hb
  have := h u w (by omega) hb
  unfold Le at this ⊢
  beta_reduce at this ⊢
  rw [ev u (by omega), ev w hne]
  exact this

theorem popTop_ordered (key : α → β) (cmp : α → α → Bool) (hc : ∀ x y, cmp x y = true ↔ key x < key y) (v : Vec α)
    (h : Ordered v.len true (fun j => key (v.val j))) (hl : v.len ≠ 0)
    (hd : ∀ a b, a < v.len → b < v.len → a ≠ b → key (v.val a) ≠ key (v.val b)) :
    ∃ v', popTop cmp v = .ok v' ∧ Ordered v'.len true (fun j => key (v'.val j)) := by
  unfold popTop
  rw [if_neg hl, show (((v.len : ℕ) : ℕ) - 1 : ℕ) = v.len - 1 from rfl, swap_ok (by omega) (by omega)]
  simp only [bind_ok]
  unfold heapDownMin
  have hlen : (popBack (sw v 0 (v.len - 1))).len = v.len - 1 := rfl
  have hval : ∀ j, j ≠ 0 → j < v.len - 1 → (popBack (sw v 0 (v.len - 1))).val j = v.val j := by
    intro j h1 h2
    simp only [popBack, sw]
    rw [Equiv.swap_apply_of_ne_of_ne h1 (by omega)]
  have hpre : DownPre (popBack (sw v 0 (v.len - 1))).len true (fun j => key ((popBack (sw v 0 (v.len - 1))).val j)) 0 := by
    refine ⟨?_, fun h => by omega⟩
    intro u w hw hb hu
    have hlt := below_gt hb
    rw [hlen] at hw
    have := h u w (by omega) hb
    unfold Le at this ⊢
    beta_reduce at this ⊢
    rw [hval u hu (by omega), hval w (by omega) hw]
    exact this
  obtain ⟨v', r1, -, r3⟩ := heapDown_ordered key (fun a b => cmp a b) hc true true
    ((popBack (sw v 0 (v.len - 1))).len + 1) (popBack (sw v 0 (v.len - 1))) 0 (by omega) (by omega) par_zero hpre (by
      intro _ a b ha hb hab
      rw [hlen] at ha hb
      simp only [popBack, sw]
      refine hd _ _ ?_ ?_ (fun e => hab ((Equiv.swap _ _).injective e))
      · simp only [Equiv.swap_apply_def]; split_ifs <;> omega
      · simp only [Equiv.swap_apply_def]; split_ifs <;> omega)
  exact ⟨v', r1, r3⟩

theorem popBottom_ordered (key : α → β) (cmp : α → α → Bool) (hc : ∀ x y, cmp x y = true ↔ key x < key y) (v : Vec α)
    (h : Ordered v.len true (fun j => key (v.val j))) (hl : v.len ≠ 0) :
    ∃ v', popBottom cmp v = .ok v' ∧ Ordered v'.len true (fun j => key (v'.val j)) := by
  unfold popBottom
  rw [if_neg hl]
  by_cases h1 : v.len = 1
  · rw [if_pos h1]
    refine ⟨_, rfl, ?_⟩
    intro u w hw
    have : (popBack v).len = 0 := by show v.len - 1 = 0; omega
    omega
  · rw [if_neg h1]
    obtain ⟨im, i1, i2, i3, -⟩ := childBest_ok (fun a b => cmp b a) v 0
    have i3' := i3 (by omega)
    rw [childMax, i1]
    simp only [bind_ok]
    rw [swap_ok i3' (by omega)]
    simp only [bind_ok]
    unfold heapDownMax
    have hlen : (popBack (sw v im (v.len - 1))).len = v.len - 1 := rfl
    have hval : ∀ j, j ≠ im → j < v.len - 1 → (popBack (sw v im (v.len - 1))).val j = v.val j := by
      intro j h1 h2
      simp only [popBack, sw]
      rw [Equiv.swap_apply_of_ne_of_ne h1 (by omega)]
    have hvim : (popBack (sw v im (v.len - 1))).val im = v.val (v.len - 1) := by simp [popBack, sw]
    have hpim : par im = false := by rcases i2 with rfl | rfl; exacts [par_one, par_two]
    have hpre : DownPre (popBack (sw v im (v.len - 1))).len false
        (fun j => OrderDual.toDual (key ((popBack (sw v im (v.len - 1))).val j))) im := by
      refine ⟨?_, fun h => by omega⟩
      intro u w hw hb hu
      have hlt := below_gt hb
      rw [hlen] at hw
      by_cases ew : w = im
      · subst ew
        have hu0 : u = 0 := by
          rcases hb with ⟨_, rfl⟩ | ⟨_, _⟩
          · rw [parent_eq]; omega
          · omega
        subst hu0
        rw [le_ne (by rw [par_zero]; simp), OrderDual.toDual_le_toDual, hvim, hval 0 hu (by omega)]
        exact ordered_min h _ (by omega)
      · have := h u w (by omega) hb
        unfold Le at this ⊢
        beta_reduce at this ⊢
        rw [hval u hu (by omega), hval w ew hw]
        cases hpu : par u <;> simp only [hpu, if_true, Bool.false_eq_true, if_false] at this ⊢ <;> exact this
    obtain ⟨v', r1, -, r3⟩ := heapDown_ordered (fun x => OrderDual.toDual (key x)) (fun a b => cmp b a)
      (fun x y => (hc y x).trans Iff.rfl) false false
      ((popBack (sw v im (v.len - 1))).len + 1) (popBack (sw v im (v.len - 1))) im (by omega) (by omega) hpim hpre (by simp)
    exact ⟨v', r1, ordered_dual.2 r3⟩

end Verif.Heap
