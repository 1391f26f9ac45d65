import Verif.DisjointSet.WidthModel
import Verif.DisjointSet.Props

/-! Property theorems C133 (see properties.jsonl): the disjoint sets with the `int` counters of the code. -/
namespace Verif.DisjointSet
open Spec

theorem ofSize_small {n : ℕ} (h : n < 2147483648) : Cxx.ofSize n = (n : ℤ) := by
  unfold Cxx.ofSize
  rw [Int.bmod_def]
  split_ifs <;> omega

theorem ofSize_large {n : ℕ} (h : 2147483648 ≤ n % 4294967296) : Cxx.ofSize n < 0 := by
  unfold Cxx.ofSize
  rw [Int.bmod_def]
  split_ifs <;> omega

theorem int_ok {z : ℤ} (h1 : -2147483648 ≤ z) (h2 : z ≤ 2147483647) : Cxx.int z = .ok z := if_pos ⟨h1, h2⟩

theorem bind_cases {β γ : Type} {x : Outcome β} {f : β → Outcome γ} {r : γ} (h : (x >>= f) = .ok r) : ∃ y, x = .ok y ∧ f y = .ok r := by
  cases x with
  | error e => cases h
  | ok y => exact ⟨y, rfl, h⟩

theorem ok_bind {β γ : Type} (y : β) (f : β → Outcome γ) : ((Except.ok y : Outcome β) >>= f) = f y := rfl

theorem findW_eq (s : State) (n : ℤ) (h : s.nodes.len < 2147483648) : findW s n = find s n := by
  unfold findW find
  rw [ofSize_small h]

theorem sizeW_eq (s : State) (n : ℤ) (h : s.nodes.len < 2147483648) : sizeW s n = size s n := by
  unfold sizeW size
  rw [findW_eq s n h]

theorem makeSetW_eq (s : State) (h : s.nodes.len < 2147483648) : makeSetW s = makeSet s := by
  unfold makeSetW makeSet fresh
  rw [ofSize_small h]

theorem set_len {α : Type} {v v' : Vec α} {i : ℤ} {x : α} (h : v.set i x = .ok v') : v'.len = v.len := by
  unfold Vec.set at h
  split_ifs at h
  cases h
  rfl

theorem find_len {s s' : State} {n r : ℤ} (h : find s n = .ok (r, s')) : s'.nodes.len = s.nodes.len := by
  unfold find at h
  split_ifs at h
  · cases h; rfl
  · obtain ⟨t, -, h⟩ := bind_cases h
    obtain ⟨nd, -, h⟩ := bind_cases h
    obtain ⟨v, h1, h⟩ := bind_cases h
    cases h
    exact set_len h1

/-- A join whose result is in the range of the counters has the same result with the widths of the code. -/
theorem joinW_of_join {s s' : State} {a b r : ℤ} (hl : s.nodes.len < 2147483648) (h : join s a b = .ok (r, s'))
    (hn : -2147483648 ≤ s'.setNum) (hn2 : s'.setNum ≤ 2147483647) (hr : ∀ i < s'.nodes.len, 0 ≤ (s'.nodes.val i).rank ∧ (s'.nodes.val i).rank ≤ 2147483647) :
    joinW s a b = .ok (r, s') := by
  unfold join at h
  unfold joinW
  rw [findW_eq s a hl]
  obtain ⟨⟨r1, s1⟩, e1, h⟩ := bind_cases h
  have l1 := find_len e1
  rw [e1, ok_bind]
  obtain ⟨⟨r2, s2⟩, e2, h⟩ := bind_cases h
  have l2 := find_len e2
  show (findW s1 b >>= _) = _
  rw [findW_eq s1 b (by omega), e2, ok_bind]
  by_cases hq : r1 = r2
  · simp only [if_pos hq] at h ⊢
    rw [ofSize_small (by omega)]
    exact h
  · simp only [if_neg hq] at h ⊢
    obtain ⟨nd1, g1, h⟩ := bind_cases h
    obtain ⟨nd2, g2, h⟩ := bind_cases h
    have fin : s'.setNum = s2.setNum - 1 → Cxx.int (s2.setNum - 1) = .ok (s2.setNum - 1) := fun e => int_ok (by omega) (by omega)
    by_cases c1 : nd1.rank < nd2.rank
    · simp only [if_pos c1] at h
      obtain ⟨v1, k1, h⟩ := bind_cases h
      obtain ⟨v2, k2, h⟩ := bind_cases h
      cases h
      rw [fin rfl, ok_bind, g1, ok_bind, g2, ok_bind, if_pos c1, k1, ok_bind, k2, ok_bind]
      rfl
    · simp only [if_neg c1] at h
      by_cases c2 : nd1.rank > nd2.rank
      · simp only [if_pos c2] at h
        obtain ⟨v1, k1, h⟩ := bind_cases h
        obtain ⟨v2, k2, h⟩ := bind_cases h
        cases h
        rw [fin rfl, ok_bind, g1, ok_bind, g2, ok_bind, if_neg c1, if_pos c2, k1, ok_bind, k2, ok_bind]
        rfl
      · simp only [if_neg c2] at h
        obtain ⟨v1, k1, h⟩ := bind_cases h
        obtain ⟨v2, k2, h⟩ := bind_cases h
        cases h
        have hv : ∃ i < v2.len, (v2.val i).rank = nd1.rank + 1 := by
          unfold Vec.set at k2
          split_ifs at k2 with hi
          cases k2
          exact ⟨r.toNat, by show r.toNat < v1.len; omega, by simp⟩
        obtain ⟨i, hi, he⟩ := hv
        have hb := hr i hi
        have hk : Cxx.int (nd1.rank + 1) = .ok (nd1.rank + 1) := int_ok (by have := hb.1; show _ ≤ _; rw [← he]; exact le_trans (by norm_num) hb.1) (by rw [← he]; exact hb.2)
        rw [fin rfl, ok_bind, g1, ok_bind, g2, ok_bind, if_neg c1, if_neg c2, k1, ok_bind, hk, ok_bind, k2, ok_bind]
        rfl

theorem parentsLoop_ok (v : Vec Node) (k : ℕ) (hk : k ≤ v.len) (hl : v.len < 2147483648) :
    parentsLoop v k ((v.len - k : ℕ) : ℤ) = .ok ((List.range' (v.len - k) k).filterMap fun id => if (v.val id).parent = id then some (id : ℤ) else none) := by
  induction k with
  | zero => rfl
  | succ k ih =>
    unfold parentsLoop
    have e : ((v.len - (k + 1) : ℕ) : ℤ) + 1 = ((v.len - k : ℕ) : ℤ) := by omega
    have e' : v.len - (k + 1) + 1 = v.len - k := by omega
    rw [Vec.get_nat v (by omega), ok_bind, e, int_ok (by omega) (by omega), ok_bind, ih (by omega), ok_bind, List.range'_succ, e']
    by_cases hp : (v.val (v.len - (k + 1))).parent = ((v.len - (k + 1) : ℕ) : ℤ)
    · rw [if_pos hp, List.filterMap_cons_some (by rw [if_pos hp])]
      rfl
    · rw [if_neg hp, List.filterMap_cons_none (by rw [if_neg hp])]
      rfl

theorem parentsW_eq (s : State) (h : s.nodes.len < 2147483648) : parentsW s = .ok (parents s) := by
  have := parentsLoop_ok s.nodes s.nodes.len le_rfl h
  rw [Nat.sub_self] at this
  unfold parentsW parents
  rw [List.range_eq_range']
  exact this

/-- C133: with 2^31 nodes or more `parents` increments its counter beyond the largest `int`. -/
theorem C133_parents_violated (s : State) (h : 2147483648 ≤ s.nodes.len) : parentsW s = .error (.ub .overflow) := by
  have key : ∀ m : ℕ, m ≤ 2147483647 → parentsLoop s.nodes (s.nodes.len - (2147483647 - m)) ((2147483647 - m : ℕ) : ℤ) = .error (.ub .overflow) := by
    intro m
    induction m with
    | zero =>
      intro _
      obtain ⟨k, hk⟩ : ∃ k, s.nodes.len - (2147483647 - 0) = k + 1 := ⟨s.nodes.len - 2147483648, by omega⟩
      rw [hk]
      unfold parentsLoop
      rw [Vec.get_nat s.nodes (by omega), ok_bind]
      have e : Cxx.int (((2147483647 - 0 : ℕ) : ℤ) + 1) = .error (.ub .overflow) := if_neg (by omega)
      rw [e]
      rfl
    | succ m ih =>
      intro hm
      obtain ⟨k, hk⟩ : ∃ k, s.nodes.len - (2147483647 - (m + 1)) = k + 1 := ⟨s.nodes.len - (2147483647 - (m + 1)) - 1, by omega⟩
      have e2 : k = s.nodes.len - (2147483647 - m) := by omega
      rw [hk]
      unfold parentsLoop
      have e : (((2147483647 - (m + 1) : ℕ) : ℤ) + 1) = ((2147483647 - m : ℕ) : ℤ) := by omega
      rw [Vec.get_nat s.nodes (by omega), ok_bind, e, int_ok (by omega) (by omega), ok_bind, e2, ih (by omega)]
      rfl
  have := key 2147483647 le_rfl
  rw [Nat.sub_self, Nat.sub_zero] at this
  exact this

/-! ### C133 -/

/-- The arguments of the operation are `int` values. -/
def IntArgs : Op → Prop
  | .init num => -2147483648 ≤ num ∧ num ≤ 2147483647
  | .makeSet => True
  | .join a b => a ≤ 2147483647 ∧ b ≤ 2147483647
  | .find a | .size a => a ≤ 2147483647

/-- `find(a)` returns `r`, with the widths of the code. -/
def FindsW (s : State) (a r : ℤ) : Prop := ∃ s', findW s a = .ok (r, s')

/-- C133: with the widths of the code every history of valid calls returns and `find` decides connectivity. -/
def C133_statement : Prop := ∀ h : List Op, Valid h → (∀ o ∈ h, IntArgs o) → ∃ s, runW h = .ok s ∧
  ∀ a b : ℕ, a < (absOf h).n → b < (absOf h).n → a ≤ 2147483647 → b ≤ 2147483647 → ∃ r r', FindsW s a r ∧ FindsW s b r' ∧ (r = r' ↔ Conn (absOf h) a b)

theorem absOf_append (h : List Op) (o : Op) : absOf (h ++ [o]) = (absOf h).step o := by
  unfold absOf
  rw [List.foldl_append]
  rfl

theorem made_le (h : List Op) (hn : ∀ num, Op.init num ∈ h → 0 ≤ num) : (absOf h).made ≤ (absOf h).n ∧ (absOf h).neg = 0 := by
  induction h using List.reverseRecOn with
  | nil => exact ⟨le_rfl, rfl⟩
  | append_singleton h o ih =>
    rw [absOf_append]
    have := ih fun num hm => hn num (List.mem_append_left _ hm)
    cases o with
    | init num =>
      have h0 := hn num (by simp)
      exact ⟨Nat.zero_le _, min_eq_right h0⟩
    | makeSet => exact ⟨Nat.succ_le_succ this.1, this.2⟩
    | join a b => exact this
    | find a => exact this
    | size a => exact this

theorem valid_append {h1 h2 : List Op} : Valid (h1 ++ h2) ↔ Valid h1 ∧ HistValid (absOf h1) h2 := by
  unfold Valid absOf
  generalize (⟨0, [], 0, 0⟩ : Abs) = A
  induction h1 generalizing A with
  | nil => exact ⟨fun h => ⟨trivial, h⟩, fun h => h.2⟩
  | cons o t ih =>
    show OpValid A o ∧ HistValid (A.step o) (t ++ h2) ↔ (OpValid A o ∧ HistValid (A.step o) t) ∧ _
    rw [ih (A.step o)]
    exact and_assoc.symm

theorem rank_small {v : Vec Node} {root : ℕ → ℕ} (h : Inv v root) (hl : v.len < 2147483648) {i : ℕ} (hi : i < v.len) : 0 ≤ (v.val i).rank ∧ (v.val i).rank ≤ 2147483647 := by
  refine ⟨h.rank0 i hi, ?_⟩
  have h1 := h.rank_le_root i hi
  have h2 := rank_root_le_log h hi
  have h3 : ((Finset.range v.len).filter fun j => root j = root i).card ≤ v.len := by
    have := Finset.card_filter_le (Finset.range v.len) (fun j => root j = root i)
    rwa [Finset.card_range] at this
  have h4 := Nat.log_le_self 2 ((Finset.range v.len).filter fun j => root j = root i).card
  omega

/-- C133: while there are fewer than 2^31 nodes and no negative number of sets is asked for, every history of valid calls has, with the widths of the code, the result of the model with
unbounded counters, and so have all the calls that follow. -/
theorem C133_small_partial (h : List Op) (hv : Valid h) (hi : ∀ num, Op.init num ∈ h → 0 ≤ num)
    (hn : ∀ h1 h2, h = h1 ++ h2 → (absOf h1).n < 2147483648) : runW h = run h ∧ ∃ s, run h = .ok s ∧ parentsW s = .ok (parents s) ∧ makeSetW s = makeSet s ∧
      ∀ a : ℤ, findW s a = find s a ∧ sizeW s a = size s a ∧ ∀ b : ℤ, 0 ≤ a → a < (absOf h).n → 0 ≤ b → b < (absOf h).n → joinW s a b = join s a b := by
  have fits : ∀ h1 s root, (∀ num, Op.init num ∈ h1 → 0 ≤ num) → (absOf h1).n < 2147483648 → Sim s (absOf h1) root → -2147483648 ≤ s.setNum ∧ s.setNum ≤ 2147483647 := by
    intro h1 s root hi hn hs
    have hm := made_le h1 hi
    have hc : ((Finset.range (absOf h1).n).filter fun i => root i = i).card ≤ (absOf h1).n := by
      have := Finset.card_filter_le (Finset.range (absOf h1).n) (fun i => root i = i)
      rwa [Finset.card_range] at this
    have := hs.num
    rw [hm.2] at this
    omega
  have jn : ∀ h1 s root, Valid h1 → (∀ num, Op.init num ∈ h1 → 0 ≤ num) → (absOf h1).n < 2147483648 → Sim s (absOf h1) root → ∀ a b : ℤ,
      0 ≤ a → a < (absOf h1).n → 0 ≤ b → b < (absOf h1).n → joinW s a b = join s a b := by
    intro h1 s root hv hi hn hs a b a0 a1 b0 b1
    obtain ⟨a, rfl⟩ := Int.eq_ofNat_of_zero_le a0
    obtain ⟨b, rfl⟩ := Int.eq_ofNat_of_zero_le b0
    obtain ⟨s', root', e1, e2⟩ := step_sim hs (.join a b) ⟨⟨a0, a1⟩, b0, b1⟩
    obtain ⟨⟨r, s''⟩, e3, e4⟩ := bind_cases (show (join s a b >>= fun r => pure r.2) = .ok s' from e1)
    obtain rfl : s'' = s' := Except.ok.inj e4
    rw [← absOf_append] at e2
    have hi' : ∀ num, Op.init num ∈ h1 ++ [.join a b] → 0 ≤ num := fun num hm => hi num (by simpa using hm)
    have hn' : (absOf (h1 ++ [Op.join a b])).n < 2147483648 := by rw [absOf_append]; exact hn
    have hf := fits _ s'' root' hi' hn' e2
    rw [e3]
    exact joinW_of_join (by rw [hs.len]; exact hn) e3 hf.1 hf.2 fun i hi => rank_small e2.inv (by rw [e2.len]; exact hn') hi
  have key : ∀ h1, Valid h1 → (∀ num, Op.init num ∈ h1 → 0 ≤ num) → (∀ h2 h3, h1 = h2 ++ h3 → (absOf h2).n < 2147483648) → runW h1 = run h1 := by
    intro h1
    induction h1 using List.reverseRecOn with
    | nil =>
      intro _ _ _
      unfold runW run
      rw [List.foldlM_nil, List.foldlM_nil]
    | append_singleton t o ih =>
      intro hv hi hn
      have hvt := valid_append.1 hv
      have e := ih hvt.1 (fun num hm => hi num (List.mem_append_left _ hm)) (fun h2 h3 he => hn h2 (h3 ++ [o]) (by rw [he, List.append_assoc]))
      have hnt := hn t [o] rfl
      obtain ⟨s, root, hr, hs⟩ := run_sim t hvt.1
      unfold runW run at e ⊢
      rw [List.foldlM_append, List.foldlM_append, e]
      unfold run at hr
      rw [hr, ok_bind, ok_bind, List.foldlM_cons, List.foldlM_cons]
      have hl : s.nodes.len < 2147483648 := by rw [hs.len]; exact hnt
      have es : stepW s o = step s o := by
        cases o with
        | init num => rfl
        | makeSet => show (pure (makeSetW s).2 : Outcome State) = pure (makeSet s).2; rw [makeSetW_eq s hl]
        | join a b =>
          show (joinW s a b >>= fun r => pure r.2) = (join s a b >>= fun r => pure r.2)
          obtain ⟨⟨a0, a1⟩, b0, b1⟩ := hvt.2.1
          rw [jn t s root hvt.1 (fun num hm => hi num (List.mem_append_left _ hm)) hnt hs a b a0 a1 b0 b1]
        | find a => show (findW s a >>= fun r => pure r.2) = (find s a >>= fun r => pure r.2); rw [findW_eq s a hl]
        | size a => show (sizeW s a >>= fun r => pure r.2) = (size s a >>= fun r => pure r.2); rw [sizeW_eq s a hl]
      rw [es]
      refine bind_congr fun v => ?_
      rw [List.foldlM_nil, List.foldlM_nil]
  refine ⟨key h hv hi hn, ?_⟩
  obtain ⟨s, root, hr, hs⟩ := run_sim h hv
  have hnh := hn h [] (List.append_nil h).symm
  have hl : s.nodes.len < 2147483648 := by rw [hs.len]; exact hnh
  exact ⟨s, hr, parentsW_eq s hl, makeSetW_eq s hl, fun a => ⟨findW_eq s a hl, sizeW_eq s a hl, fun b => jn h s root hv hi hnh hs a b⟩⟩

/-- C133: when the number of nodes modulo 2^32 is 2^31 or more, `find` rejects every identifier, `join` joins nothing and `size` reads out of bounds. -/
theorem C133_large_violated (s : State) (h : 2147483648 ≤ s.nodes.len % 4294967296) (a : ℤ) : findW s a = .ok (Cxx.ofSize s.nodes.len, s) ∧
    (∀ b, joinW s a b = .ok (Cxx.ofSize s.nodes.len, s)) ∧ sizeW s a = .error (.ub .outOfBounds) := by
  have hneg := ofSize_large h
  have hf : ∀ a, findW s a = .ok (Cxx.ofSize s.nodes.len, s) := by
    intro a
    unfold findW
    rw [if_pos (by omega)]
    rfl
  refine ⟨hf a, fun b => ?_, ?_⟩
  · unfold joinW
    rw [hf a, ok_bind]
    show (findW s b >>= _) = _
    rw [hf b, ok_bind]
    simp only [if_true]
    rfl
  · unfold sizeW
    rw [hf a, ok_bind]
    show (s.nodes.get (Cxx.ofSize s.nodes.len) >>= _) = _
    rw [Vec.get_oob s.nodes (Or.inl hneg)]
    rfl

/-- C133: the number of sets of `initSets` may be any `int`; after the smallest one the first join of two nodes overflows. -/
theorem C133_overflow_violated : runW [.init (-2147483648), .makeSet, .makeSet, .join 0 1] = .error (.ub .overflow) := by
  have key : (match runW [.init (-2147483648), .makeSet, .makeSet, .join 0 1] with
      | .error e => some e
      | .ok _ => none) = some (.ub .overflow) := by decide +kernel
  cases e : runW [.init (-2147483648), .makeSet, .makeSet, .join 0 1] with
  | error x => rw [e] at key; rw [Option.some.inj key]
  | ok s => rw [e] at key; cases key

/-- C133 fails: with 2^31 nodes the results of `find` for 0 and 1 are the same although they were never joined. -/
theorem C133_violated : ¬ C133_statement ∧ ∃ s, runW [.init 2147483647, .makeSet] = .ok s ∧ ∀ a : ℤ, FindsW s a (-2147483648) := by
  obtain ⟨n, hn⟩ : ∃ n : ℤ, n = 2147483647 := ⟨_, rfl⟩
  rw [← hn]
  have hr : runW [.init n, .makeSet] = .ok (makeSetW (initSets n)).2 := rfl
  have hl : (makeSetW (initSets n)).2.nodes.len = 2147483648 := by show n.toNat + 1 = _; omega
  have ho : Cxx.ofSize 2147483648 = -2147483648 := by decide +kernel
  have hf : ∀ a : ℤ, FindsW (makeSetW (initSets n)).2 a (-2147483648) := fun a =>
    ⟨_, by rw [(C133_large_violated _ (by rw [hl]) a).1, hl, ho]⟩
  refine ⟨fun hst => ?_, _, hr, hf⟩
  obtain ⟨s, e1, e2⟩ := hst [.init n, .makeSet] (by simp [Valid, HistValid, OpValid]) (by
    intro o ho
    simp only [List.mem_cons, List.not_mem_nil, or_false] at ho
    rcases ho with rfl | rfl
    · exact ⟨by omega, by omega⟩
    · trivial)
  obtain rfl := Except.ok.inj (hr.symm.trans e1)
  have hA : absOf [Op.init n, Op.makeSet] = ⟨n.toNat + 1, [], 1, min n 0⟩ := rfl
  obtain ⟨r, r', ⟨_, f1⟩, ⟨_, f2⟩, f3⟩ := e2 0 1 (by rw [hA]; show 0 < n.toNat + 1; omega) (by rw [hA]; show 1 < n.toNat + 1; omega) (by omega) (by omega)
  obtain ⟨_, g1⟩ := hf 0
  obtain ⟨_, g2⟩ := hf 1
  have q1 := (Prod.mk.inj (Except.ok.inj (f1.symm.trans g1))).1
  have q2 := (Prod.mk.inj (Except.ok.inj (f2.symm.trans g2))).1
  have hc := f3.1 (q1.trans q2.symm)
  rw [hA] at hc
  have : ∀ i j : ℕ, Conn ⟨n.toNat + 1, [], 1, min n 0⟩ i j → i = j := by
    intro i j hc
    induction hc with
    | rel x y hxy => exact absurd hxy (List.not_mem_nil)
    | refl x => rfl
    | symm x y _ ih => exact ih.symm
    | trans x y z _ _ i1 i2 => exact i1.trans i2
  exact absurd (this 0 1 hc) (by omega)

/-- The history of the example of C22 with the widths of the code. -/
example : ((runW exampleHist).toOption.map fun s => (parentsW s).toOption) = some (some [0]) := by decide +kernel

end Verif.DisjointSet
