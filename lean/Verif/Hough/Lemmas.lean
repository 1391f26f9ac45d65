import Verif.Hough.Model
import Verif.Grid.Props
import Mathlib.Data.List.Count
import Mathlib.Algebra.BigOperators.Intervals
import Mathlib.Tactic.NormNum

/-! Lemmas for the Hough detectors. -/
namespace Verif.Hough
open Verif Functions Interval Interval.Spec

theorem bind_ok {α β : Type} (a : α) (f : α → Outcome β) : ((Except.ok a : Outcome α) >>= f) = f a := rfl

theorem foldlM_append' {σ τ : Type} (f : σ → τ → Outcome σ) (s : σ) (l : List τ) (x : τ) :
    (l ++ [x]).foldlM f s = (l.foldlM f s >>= fun s => f s x) := by
  rw [List.foldlM_append]
  congr 1
  funext s
  show (f s x >>= fun s => pure s) = _
  cases f s x <;> rfl

/-- Loop invariant. -/
theorem forN_inv {σ : Type} {f : ℤ → σ → Outcome σ} (I : ℤ → σ → Prop) {n : ℤ} (hn : 0 ≤ n) {s : σ} (h0 : I 0 s)
    (hs : ∀ i : ℤ, 0 ≤ i → i < n → ∀ s, I i s → ∃ s', f i s = .ok s' ∧ I (i + 1) s') : ∃ s', forN n f s = .ok s' ∧ I n s' := by
  have key : ∀ k : ℕ, (k : ℤ) ≤ n → ∃ s', (List.range k).foldlM (fun s (i : ℕ) => f i s) s = .ok s' ∧ I k s' := by
    intro k
    induction k with
    | zero => exact fun _ => ⟨s, rfl, h0⟩
    | succ k ih =>
      intro hk
      obtain ⟨s1, e1, i1⟩ := ih (by omega)
      obtain ⟨s2, e2, i2⟩ := hs k (by omega) (by omega) s1 i1
      refine ⟨s2, ?_, by push_cast; exact i2⟩
      rw [List.range_succ, foldlM_append', e1, bind_ok]
      exact e2
  obtain ⟨s', e, i⟩ := key n.toNat (by omega)
  exact ⟨s', e, by rwa [Int.toNat_of_nonneg hn] at i⟩

/-- The grid has the cells `0 ≤ i < dims` and the given content. -/
def GridOk {α : Type} (g : Grid.Grid α) (dims : List ℤ) (c : List ℤ → α) : Prop :=
  Grid.Valid g ∧ g.domain = dims.map (fun d => ⟨0, d⟩) ∧ Grid.Holds g c

theorem mem_iff (dims is : List ℤ) : Mem (dims.map (fun d => (⟨0, d⟩ : Axis))) is ↔ List.Forall₂ (fun d i => 0 ≤ i ∧ i < d) dims is := by
  unfold Mem
  rw [List.forall₂_map_left_iff]
  simp

/-- The index is a cell. -/
def Cell (dims is : List ℤ) : Prop := List.Forall₂ (fun d i => 0 ≤ i ∧ i < d) dims is

theorem cell3 {a b c i j k : ℤ} : Cell [a, b, c] [i, j, k] ↔ (0 ≤ i ∧ i < a) ∧ (0 ≤ j ∧ j < b) ∧ (0 ≤ k ∧ k < c) := by
  simp [Cell]

theorem cell2 {a b i j : ℤ} : Cell [a, b] [i, j] ↔ (0 ≤ i ∧ i < a) ∧ (0 ≤ j ∧ j < b) := by
  simp [Cell]

theorem cell3_cases {a b c : ℤ} {is : List ℤ} (h : Cell [a, b, c] is) : ∃ i j k, is = [i, j, k] := by
  have := h.length_eq
  match is, this with
  | [i, j, k], _ => exact ⟨i, j, k, rfl⟩

theorem cell2_cases {a b : ℤ} {is : List ℤ} (h : Cell [a, b] is) : ∃ i j, is = [i, j] := by
  have := h.length_eq
  match is, this with
  | [i, j], _ => exact ⟨i, j, rfl⟩

namespace GridOk
variable {α : Type} {g : Grid.Grid α} {dims : List ℤ} {c c' : List ℤ → α}

theorem read (h : GridOk g dims c) {is : List ℤ} (hm : Cell dims is) : Grid.read g is = .ok (c is) :=
  (h.2.2 is (by rw [h.2.1, mem_iff]; exact hm)).1

theorem congr (h : GridOk g dims c) (e : ∀ is, Cell dims is → c is = c' is) : GridOk g dims c' := by
  refine ⟨h.1, h.2.1, fun is hm => ?_⟩
  have hm' : Cell dims is := by rw [h.2.1, mem_iff] at hm; exact hm
  rw [← e is hm']
  exact h.2.2 is hm

theorem write (h : GridOk g dims c) {is : List ℤ} (hm : Cell dims is) (x : α) :
    ∃ g', Grid.write g is x = .ok g' ∧ GridOk g' dims (fun js => if js = is then x else c js) := by
  obtain ⟨g', e1, e2, e3, e4⟩ := Grid.step_ok h.1 h.2.2 (.write is x) (by rw [h.2.1]; exact (mem_iff dims is).2 hm)
  exact ⟨g', e1, e3, e2.trans h.2.1, e4⟩

theorem fill (h : GridOk g dims c) (x : α) : GridOk (Grid.fill g x) dims (fun _ => x) := by
  obtain ⟨g', e1, e2, e3, e4⟩ := Grid.step_ok h.1 h.2.2 (.fill x) trivial
  obtain rfl := Except.ok.inj e1
  exact ⟨e3, e2.trans h.2.1, e4⟩

end GridOk

theorem wrap_lt (n : ℕ) : wrap n < 18446744073709551616 := Nat.mod_lt _ (by norm_num)
theorem wrap_of_lt {n : ℕ} (h : n < 18446744073709551616) : wrap n = n := Nat.mod_eq_of_lt h
theorem wrap_add (a b : ℕ) : wrap (wrap a + b) = wrap (a + b) := Nat.mod_add_mod _ _ _
theorem wrap_add' (a b : ℕ) : wrap (a + wrap b) = wrap (a + b) := Nat.add_mod_mod _ _ _

variable {K : Type} [Field K] [LinearOrder K] [FloorRing K]

/-- The index computed for a point. -/
def bin (rhoMin rhoRes : K) (n p : V3 K) : ℤ := trunc ((project n p - rhoMin) / rhoRes)

/-- The conversion to `int` is defined for all the points. -/
def Castable (rhoMin rhoRes : K) (n : V3 K) (points : List (V3 K)) : Prop := ∀ p ∈ points, I32 (bin rhoMin rhoRes n p)

/-- The number of points with the given index. -/
def votes (rhoMin rhoRes : K) (n : V3 K) (points : List (V3 K)) (r : ℤ) : ℕ := points.countP fun p => decide (bin rhoMin rhoRes n p = r)

theorem castInt_ok {rhoMin rhoRes : K} (hr : rhoRes ≠ 0) {n p : V3 K} (h : I32 (bin rhoMin rhoRes n p)) :
    castInt (fdiv (project n p - rhoMin) rhoRes) = .ok (bin rhoMin rhoRes n p) := by
  unfold fdiv
  rw [if_neg hr]
  show Cxx.int _ = _
  exact if_pos h

/-- The votes of a list of points for one normal. -/
theorem voteAll_ok {rhoMin rhoRes : K} (hr : rhoRes ≠ 0) {a b rhoNum i j : ℤ} (hi : 0 ≤ i ∧ i < a) (hj : 0 ≤ j ∧ j < b) (n : V3 K)
    (points : List (V3 K)) (hp : Castable rhoMin rhoRes n points) (t : Grid.Grid ℕ) (c : List ℤ → ℕ) (ht : GridOk t [a, b, rhoNum] c)
    (hc : ∀ is, c is < 18446744073709551616) :
    ∃ t', voteAll rhoMin rhoRes rhoNum i j n points t = .ok t' ∧
      GridOk t' [a, b, rhoNum] (fun is => if is.take 2 = [i, j] then wrap (c is + votes rhoMin rhoRes n points (is.getD 2 0)) else c is) := by
  induction points generalizing t c with
  | nil =>
    refine ⟨t, rfl, ht.congr fun is _ => ?_⟩
    simp only [votes, List.countP_nil, add_zero, wrap_of_lt (hc is), ite_self]
  | cons p ps ih =>
    have hp1 := hp p (by simp)
    set r := bin rhoMin rhoRes n p with hrd
    have hv : ∀ k, votes rhoMin rhoRes n (p :: ps) k = votes rhoMin rhoRes n ps k + if r = k then 1 else 0 := fun k => by
      unfold votes
      rw [List.countP_cons]
      simp [hrd]
    have h1 : ∃ t1, vote rhoNum i j r t = .ok t1 ∧ GridOk t1 [a, b, rhoNum] (fun is => if is = [i, j, r] then wrap (c is + 1) else c is) := by
      unfold vote
      by_cases h : 0 ≤ r ∧ r < rhoNum
      · rw [if_pos h, ht.read (cell3.2 ⟨hi, hj, h⟩), bind_ok]
        obtain ⟨t1, e1, e2⟩ := ht.write (cell3.2 ⟨hi, hj, h⟩) (wrap (c [i, j, r] + 1))
        refine ⟨t1, e1, e2.congr fun is _ => ?_⟩
        by_cases he : is = [i, j, r]
        · rw [if_pos he, if_pos he, he]
        · rw [if_neg he, if_neg he]
      · rw [if_neg h]
        refine ⟨t, rfl, ht.congr fun is hm => ?_⟩
        rw [if_neg]
        rintro rfl
        exact h (cell3.1 hm).2.2
    obtain ⟨t1, e1, g1⟩ := h1
    obtain ⟨t2, e2, g2⟩ := ih (fun q hq => hp q (by simp [hq])) t1 _ g1 (fun is => by
      by_cases he : is = [i, j, r]
      · rw [if_pos he]; exact wrap_lt _
      · rw [if_neg he]; exact hc is)
    refine ⟨t2, ?_, g2.congr fun is hm => ?_⟩
    · unfold voteAll
      rw [List.foldlM_cons, castInt_ok hr hp1, bind_ok, e1, bind_ok]
      exact e2
    · obtain ⟨x, y, z, rfl⟩ := cell3_cases hm
      by_cases he : List.take 2 [x, y, z] = [i, j]
      · rw [if_pos he, if_pos he, hv]
        simp only [List.take_succ_cons, List.take_zero, List.cons.injEq, and_true] at he
        obtain ⟨rfl, rfl⟩ := he
        show wrap ((if [x, y, z] = [x, y, r] then _ else _) + votes rhoMin rhoRes n ps z) = wrap (_ + (votes rhoMin rhoRes n ps z + _))
        by_cases hz : z = r
        · rw [if_pos (by rw [hz]), wrap_add]
          show _ = wrap (_ + (_ + if r = z then 1 else 0))
          rw [if_pos hz.symm]
          congr 1
          omega
        · rw [if_neg (by simpa using hz)]
          show _ = wrap (_ + (_ + if r = z then 1 else 0))
          rw [if_neg (Ne.symm hz), add_zero]
      · rw [if_neg he, if_neg he, if_neg]
        intro h'
        exact he (by rw [h']; rfl)

/-- The sum of the squares along rho. -/
theorem energy_ok {t : Grid.Grid ℕ} {a b rhoNum i j : ℤ} {c : List ℤ → ℕ} (ht : GridOk t [a, b, rhoNum] c) (hi : 0 ≤ i ∧ i < a) (hj : 0 ≤ j ∧ j < b)
    (hr : 0 ≤ rhoNum) : energy t rhoNum i j = .ok (wrap (∑ r ∈ Finset.range rhoNum.toNat, c [i, j, (r : ℤ)] ^ 2)) := by
  obtain ⟨s, e1, e2⟩ := forN_inv (f := fun irho hs => do
    let v ← Grid.read t [i, j, irho]
    return wrap (hs + wrap (v * v))) (fun k s => s = wrap (∑ r ∈ Finset.range k.toNat, c [i, j, (r : ℤ)] ^ 2)) hr (s := 0) rfl (by
      intro k hk1 hk2 s hs
      refine ⟨_, by rw [ht.read (cell3.2 ⟨hi, hj, hk1, hk2⟩), bind_ok]; rfl, ?_⟩
      rw [hs, wrap_add', wrap_add, show (k + 1).toNat = k.toNat + 1 by omega, Finset.sum_range_succ, Int.toNat_of_nonneg hk1, pow_two])
  rw [← e2]
  exact e1

/-- The members of a detector agree: the grids have the right cells and hold the given contents. -/
structure PlaneOk (d : Plane K) (t s : List ℤ → ℕ) (l : List ℤ → V3 K) : Prop where
  transform : GridOk d.transform [d.thetaNum, d.phiNum, d.rhoNum] t
  spectrum : GridOk d.spectrum [d.thetaNum, d.phiNum] s
  lut : GridOk d.lut [d.thetaNum, d.phiNum] l
  counters : ∀ is, t is < 18446744073709551616
  theta : 0 < d.thetaNum
  phi : 0 < d.phiNum
  rho : 0 < d.rhoNum

/-- The transform after the insertion of points. -/
def newTransform (d : Plane K) (t : List ℤ → ℕ) (l : List ℤ → V3 K) (points : List (V3 K)) (is : List ℤ) : ℕ :=
  wrap (t is + votes d.rhoMin d.rhoRes (l (is.take 2)) points (is.getD 2 0))

/-- The spectrum after the insertion of points. -/
def newSpectrum (rhoNum : ℤ) (t : List ℤ → ℕ) (is : List ℤ) : ℕ :=
  wrap (∑ r ∈ Finset.range rhoNum.toNat, t (is ++ [(r : ℤ)]) ^ 2)

/-- Two nested loops that set the cells of a grid one row after the other. -/
theorem rows_inv {α : Type} {g : Grid.Grid α} {a b : ℤ} {dims : List ℤ} {c0 c1 : List ℤ → α} (ha : 0 ≤ a) (hb : 0 ≤ b)
    (hdim : ∀ is, Cell (a :: b :: dims) is → ∃ i j k, is = i :: j :: k) (hg : GridOk g (a :: b :: dims) c0) (f : ℤ → ℤ → Grid.Grid α → Outcome (Grid.Grid α))
    (hf : ∀ i j, (0 ≤ i ∧ i < a) → (0 ≤ j ∧ j < b) → ∀ g c, GridOk g (a :: b :: dims) c → (∀ is, c is = c0 is ∨ c is = c1 is) → (∀ is, is.take 2 = [i, j] → c is = c0 is) →
      ∃ g', f i j g = .ok g' ∧ GridOk g' (a :: b :: dims) (fun is => if is.take 2 = [i, j] then c1 is else c is)) :
    ∃ g', forN a (fun i g => forN b (fun j g => f i j g) g) g = .ok g' ∧ GridOk g' (a :: b :: dims) c1 := by
  obtain ⟨g', e1, e2⟩ := forN_inv (f := fun i g => forN b (fun j g => f i j g) g)
    (fun k g => GridOk g (a :: b :: dims) (fun is => if is.getD 0 0 < k then c1 is else c0 is)) ha (s := g)
    (hg.congr fun is hm => by
      obtain ⟨i, j, k, rfl⟩ := hdim is hm
      unfold Cell at hm
      rw [List.forall₂_cons] at hm
      rw [if_neg]
      simp only [List.getD_cons_zero]
      omega) (by
      intro i hi1 hi2 g hg
      obtain ⟨g', e1, e2⟩ := forN_inv (f := fun j g => f i j g)
        (fun k g => GridOk g (a :: b :: dims) (fun is => if is.getD 0 0 < i ∨ is.getD 0 0 = i ∧ is.getD 1 0 < k then c1 is else c0 is)) hb (s := g)
        (hg.congr fun is hm => by
          obtain ⟨x, y, z, rfl⟩ := hdim is hm
          unfold Cell at hm
          rw [List.forall₂_cons, List.forall₂_cons] at hm
          have : ¬ (y < 0) := by omega
          simp [this]) (by
          intro j hj1 hj2 g hg
          obtain ⟨g', e1, e2⟩ := hf i j ⟨hi1, hi2⟩ ⟨hj1, hj2⟩ g _ hg (fun is => by
            by_cases h : is.getD 0 0 < i ∨ is.getD 0 0 = i ∧ is.getD 1 0 < j
            · rw [if_pos h]; exact Or.inr rfl
            · rw [if_neg h]; exact Or.inl rfl) (fun is his => by
            rw [if_neg]
            match is, his with
            | x :: y :: z, his =>
              simp only [List.take_succ_cons, List.take_zero, List.cons.injEq, and_true] at his
              simp only [List.getD_cons_zero, List.getD_cons_succ]
              omega)
          refine ⟨g', e1, e2.congr fun is hm => ?_⟩
          obtain ⟨x, y, z, rfl⟩ := hdim is hm
          simp only [List.take_succ_cons, List.take_zero, List.cons.injEq, and_true, List.getD_cons_zero, List.getD_cons_succ]
          by_cases h1 : x = i ∧ y = j
          · rw [if_pos h1, if_pos (by omega)]
          · rw [if_neg h1]
            by_cases h2 : x < i ∨ x = i ∧ y < j
            · rw [if_pos h2, if_pos (by omega)]
            · rw [if_neg h2, if_neg (by omega)])
      refine ⟨g', e1, e2.congr fun is hm => ?_⟩
      obtain ⟨x, y, z, rfl⟩ := hdim is hm
      unfold Cell at hm
      rw [List.forall₂_cons, List.forall₂_cons] at hm
      simp only [List.getD_cons_zero, List.getD_cons_succ]
      by_cases h2 : x < i + 1
      · rw [if_pos h2, if_pos (by omega)]
      · rw [if_neg h2, if_neg (by omega)])
  refine ⟨g', e1, e2.congr fun is hm => ?_⟩
  obtain ⟨x, y, z, rfl⟩ := hdim is hm
  unfold Cell at hm
  rw [List.forall₂_cons] at hm
  simp only [List.getD_cons_zero]
  rw [if_pos hm.1.2]

end Verif.Hough
