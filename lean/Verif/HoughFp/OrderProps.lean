import Verif.HoughFp.Props
import Verif.Hough.FindProps
import Verif.PeakFinder.OrderProps

/-! Property theorems C142 (see properties.jsonl): the order and the grouping of the points inserted in a plane detector. -/
namespace Verif.HoughFp
open Verif Hough Ieee Fp Interval Interval.Spec Float.Model

/-! ### Loops that may fail -/

/-- A loop whose steps succeed from good states or fail with one error. -/
theorem foldlM_or {σ τ : Type} {f : σ → τ → Outcome σ} {I : σ → Prop} {e : Err} {l : List τ}
    (h : ∀ x ∈ l, ∀ s, I s → (∃ s', f s x = .ok s' ∧ I s') ∨ f s x = .error e) {s : σ} (hs : I s) :
    (∃ s', l.foldlM f s = .ok s' ∧ I s') ∨ l.foldlM f s = .error e := by
  induction l generalizing s with
  | nil => exact Or.inl ⟨s, rfl, hs⟩
  | cons x l ih =>
    rw [List.foldlM_cons]
    rcases h x (by simp) s hs with ⟨s', e1, h1⟩ | e1
    · rw [e1]
      exact ih (fun y hy => h y (by simp [hy])) h1
    · rw [e1]
      exact Or.inr rfl

/-- Every step of a loop that succeeds has succeeded. -/
theorem foldlM_each {σ τ : Type} {f : σ → τ → Outcome σ} {l : List τ} {s s' : σ} (h : l.foldlM f s = .ok s') :
    ∀ x ∈ l, ∃ a b, f a x = .ok b := by
  induction l generalizing s with
  | nil => simp
  | cons x l ih =>
    rw [List.foldlM_cons] at h
    obtain ⟨s1, e1, h⟩ := PeakFinder.bind_inv h
    intro y hy
    rcases List.mem_cons.1 hy with rfl | hy
    · exact ⟨s, s1, e1⟩
    · exact ih h y hy

theorem forN_or {σ : Type} {f : ℤ → σ → Outcome σ} {I : σ → Prop} {e : Err} {n : ℤ}
    (h : ∀ i, (0 ≤ i ∧ i < n) → ∀ s, I s → (∃ s', f i s = .ok s' ∧ I s') ∨ f i s = .error e) {s : σ} (hs : I s) :
    (∃ s', forN n f s = .ok s' ∧ I s') ∨ forN n f s = .error e :=
  foldlM_or (f := fun s (i : ℕ) => f i s) (l := List.range n.toNat) (fun x hx s hs => h x ⟨by omega, by have := List.mem_range.1 hx; omega⟩ s hs) hs

theorem forN_each {σ : Type} {f : ℤ → σ → Outcome σ} {n : ℤ} {s s' : σ} (h : forN n f s = .ok s') (i : ℤ) (hi : 0 ≤ i ∧ i < n) :
    ∃ a b, f i a = .ok b := by
  obtain ⟨a, b, e⟩ := foldlM_each h i.toNat (List.mem_range.2 (by omega))
  rw [Int.toNat_of_nonneg hi.1] at e
  exact ⟨a, b, e⟩

/-! ### The points that can be inserted -/

/-- Every point has an index for every normal. -/
def Defined (d : Plane Flt) (l : List ℤ → V3 Flt) (points : List (V3 Flt)) : Prop :=
  ∀ i j, (0 ≤ i ∧ i < d.thetaNum) → (0 ≤ j ∧ j < d.phiNum) → ∀ p ∈ points, ∃ r, index d.rhoMin d.rhoRes (l [i, j]) p = .ok r

/-- The index of a point for a normal, 0 if there is none. -/
def idx (d : Plane Flt) (l : List ℤ → V3 Flt) (is : List ℤ) (p : V3 Flt) : ℤ := match index d.rhoMin d.rhoRes (l is) p with
  | .ok i => i
  | .error _ => 0

theorem Defined.indices {d : Plane Flt} {l : List ℤ → V3 Flt} {points : List (V3 Flt)} (h : Defined d l points) : Indices d l points (idx d l) := by
  intro i j hi hj p hp
  obtain ⟨r, hr⟩ := h i j hi hj p hp
  unfold idx
  rw [hr]

theorem index_cases (rhoMin rhoRes : Flt) (n p : V3 Flt) : (∃ i, index rhoMin rhoRes n p = .ok i) ∨ index rhoMin rhoRes n p = .error (.ub .overflow) := by
  unfold index castInt
  cases toInt? ((project n p - rhoMin) / rhoRes) with
  | none => exact Or.inr rfl
  | some z =>
    by_cases hz : I32 z
    · exact Or.inl ⟨z, int_ok hz⟩
    · exact Or.inr (int_bad hz)

/-- The insertion succeeds when every point has an index for every normal, and is undefined otherwise. -/
theorem insert_cases {d : Plane Flt} {t s : List ℤ → ℕ} {l : List ℤ → V3 Flt} (h : PlaneOk d t s l) (h8 : 8 ≤ d.phiNum) (hI : I32 d.phiNum)
    (points : List (V3 Flt)) : (Defined d l points ∧ ∃ d', insert d points = .ok d') ∨ (¬ Defined d l points ∧ insert d points = .error (.ub .overflow)) := by
  by_cases hd : Defined d l points
  · obtain ⟨T, S, e, -⟩ := insert_ok h h8 hI points _ hd.indices
    exact Or.inl ⟨hd, _, e⟩
  refine Or.inr ⟨hd, ?_⟩
  have hdiv : Cxx.idiv d.phiNum 8 = .ok (d.phiNum.tdiv 8) := by
    unfold Cxx.idiv Cxx.int
    rw [if_neg (by norm_num), if_pos]
    unfold I32 at hI
    rw [Int.tdiv_eq_ediv_of_nonneg (by omega)]
    omega
  have hmod : ∀ j, (0 ≤ j ∧ j < d.phiNum) → Cxx.imod j (d.phiNum.tdiv 8) = .ok (j.tmod (d.phiNum.tdiv 8)) := by
    intro j hj
    unfold I32 at hI
    rw [Int.tdiv_eq_ediv_of_nonneg (by omega)]
    have hq : 0 < d.phiNum / 8 := by omega
    unfold Cxx.imod Cxx.idiv Cxx.int
    rw [if_neg (by omega), if_pos]
    · rfl
    · rw [Int.tdiv_eq_ediv_of_nonneg hj.1]
      have h1 := Int.ediv_nonneg hj.1 hq.le
      have h2 := Int.ediv_le_self (d.phiNum / 8) hj.1
      omega
  set I : Grid.Grid ℕ → Prop := fun g => ∃ c, GridOk g [d.thetaNum, d.phiNum, d.rhoNum] c ∧ ∀ is, c is < 18446744073709551616 with hIdef
  unfold insert
  rw [hdiv, bind_ok]
  have key := forN_or (n := d.thetaNum) (I := I) (e := .ub .overflow) (f := fun itheta t => forN d.phiNum (fun iphi t => do
    let _ ← Cxx.imod iphi (d.phiNum.tdiv 8)
    let n ← Grid.read d.lut [itheta, iphi]
    voteAll d.rhoMin d.rhoRes d.rhoNum itheta iphi n points t) t) (s := d.transform) (by
      intro i hi g hg
      refine forN_or (I := I) (fun j hj g hg => ?_) hg
      rw [hmod j hj, bind_ok, h.lut.read (cell2.2 ⟨hi, hj⟩), bind_ok]
      unfold voteAll
      refine foldlM_or (I := I) (fun p _ g hg => ?_) hg
      rcases index_cases d.rhoMin d.rhoRes (l [i, j]) p with ⟨r, hr⟩ | hr
      · obtain ⟨c, hc, hb⟩ := hg
        obtain ⟨g', e1, e2⟩ := voteAll_ok hi hj (l [i, j]) (fun _ => r) [p] (by simpa using hr) g c hc hb
        left
        refine ⟨g', ?_, _, e2, fun is => ?_⟩
        · unfold voteAll at e1
          rw [List.foldlM_cons, hr, bind_ok] at e1
          obtain ⟨g1, e3, e4⟩ := PeakFinder.bind_inv e1
          obtain rfl := Except.ok.inj e4
          rw [hr, bind_ok]
          exact e3
        · split_ifs
          · exact wrap_lt _
          · exact hb is
      · rw [hr]
        exact Or.inr rfl) ⟨t, h.transform, h.counters⟩
  rcases key with ⟨T, e, -⟩ | e
  · refine absurd (fun i j hi hj p hp => ?_) hd
    obtain ⟨a, b, e1⟩ := forN_each e i hi
    obtain ⟨a, b, e1⟩ := forN_each e1 j hj
    rw [hmod j hj, bind_ok, h.lut.read (cell2.2 ⟨hi, hj⟩), bind_ok] at e1
    obtain ⟨a, b, e1⟩ := foldlM_each e1 p hp
    obtain ⟨r, hr, -⟩ := PeakFinder.bind_inv e1
    exact ⟨r, hr⟩
  · rw [e]
    rfl

/-! ### C142 -/

/-- The two detectors have the same sizes, normals, counters and sums of squares. -/
def SameCounts (d e : Plane Flt) : Prop :=
  (e.thetaNum, e.phiNum, e.rhoNum, e.rhoMin, e.rhoRes) = (d.thetaNum, d.phiNum, d.rhoNum, d.rhoMin, d.rhoRes) ∧
  ∀ i j, (0 ≤ i ∧ i < d.thetaNum) → (0 ≤ j ∧ j < d.phiNum) → e.getNormal i j = d.getNormal i j ∧ e.getHoughSpectrum i j = d.getHoughSpectrum i j ∧
    ∀ r, (0 ≤ r ∧ r < d.rhoNum) → e.getHoughTransform i j r = d.getHoughTransform i j r

theorem sameCounts {d : Plane Flt} {t s : List ℤ → ℕ} {T S T' S' l} (g : PlaneOk { d with transform := T, spectrum := S } t s l)
    (g' : PlaneOk { d with transform := T', spectrum := S' } t s l) : SameCounts { d with transform := T, spectrum := S } { d with transform := T', spectrum := S' } := by
  refine ⟨rfl, fun i j hi hj => ⟨?_, ?_, fun r hr => ?_⟩⟩
  · rw [(get_ok g (r := 0) hi hj).1, (get_ok g' (r := 0) hi hj).1]
  · rw [(get_ok g (r := 0) hi hj).2.1, (get_ok g' (r := 0) hi hj).2.1]
  · rw [(get_ok g hi hj).2.2 hr, (get_ok g' hi hj).2.2 hr]

theorem votes_perm (f : V3 Flt → ℤ) {ps qs : List (V3 Flt)} (h : ps.Perm qs) (r : ℤ) : votes f ps r = votes f qs r := h.countP_eq _

/-- C142: the order in which the points are inserted is immaterial. -/
theorem C142_order {d : Plane Flt} {t s : List ℤ → ℕ} {l : List ℤ → V3 Flt} (h : PlaneOk d t s l) (h8 : 8 ≤ d.phiNum) (hI : I32 d.phiNum)
    {ps qs : List (V3 Flt)} (hp : ps.Perm qs) :
    (∃ d1 d2, insert d ps = .ok d1 ∧ insert d qs = .ok d2 ∧ SameCounts d1 d2) ∨
    (insert d ps = .error (.ub .overflow) ∧ insert d qs = .error (.ub .overflow)) := by
  have hiff : Defined d l ps ↔ Defined d l qs :=
    ⟨fun h i j hi hj p hpp => h i j hi hj p (hp.mem_iff.2 hpp), fun h i j hi hj p hpp => h i j hi hj p (hp.mem_iff.1 hpp)⟩
  rcases insert_cases h h8 hI ps with ⟨a1, -⟩ | ⟨a1, a2⟩
  · left
    obtain ⟨T, S, e, g⟩ := insert_ok h h8 hI ps _ a1.indices
    obtain ⟨T', S', e', g'⟩ := insert_ok h h8 hI qs _ (hiff.1 a1).indices
    refine ⟨_, _, e, e', sameCounts g ?_⟩
    have : newTransform t (idx d l) qs = newTransform t (idx d l) ps := funext fun is => by unfold newTransform; rw [votes_perm _ hp]
    rwa [this] at g'
  · right
    rcases insert_cases h h8 hI qs with ⟨b1, -⟩ | ⟨-, b2⟩
    · exact absurd (hiff.2 b1) a1
    · exact ⟨a2, b2⟩

/-- C142: inserting two sets of points one after the other is inserting them together. -/
theorem C142_append {d : Plane Flt} {t s : List ℤ → ℕ} {l : List ℤ → V3 Flt} (h : PlaneOk d t s l) (h8 : 8 ≤ d.phiNum) (hI : I32 d.phiNum)
    (ps qs : List (V3 Flt)) :
    (∃ d1 d2 d3, insert d (ps ++ qs) = .ok d1 ∧ insert d ps = .ok d2 ∧ insert d2 qs = .ok d3 ∧ SameCounts d1 d3) ∨
    (insert d (ps ++ qs) = .error (.ub .overflow) ∧ (insert d ps >>= fun d2 => insert d2 qs) = .error (.ub .overflow)) := by
  have hiff : Defined d l (ps ++ qs) ↔ Defined d l ps ∧ Defined d l qs := by
    refine ⟨fun h => ⟨fun i j hi hj p hpp => h i j hi hj p (by simp [hpp]), fun i j hi hj p hpp => h i j hi hj p (by simp [hpp])⟩, fun h i j hi hj p hpp => ?_⟩
    rcases List.mem_append.1 hpp with hpp | hpp
    · exact h.1 i j hi hj p hpp
    · exact h.2 i j hi hj p hpp
  by_cases h1 : Defined d l ps
  · obtain ⟨T, S, e, g⟩ := insert_ok h h8 hI ps _ h1.indices
    by_cases h2 : Defined d l qs
    · left
      obtain ⟨T1, S1, e1, g1⟩ := insert_ok h h8 hI (ps ++ qs) _ (hiff.2 ⟨h1, h2⟩).indices
      obtain ⟨T2, S2, e2, g2⟩ := insert_ok g h8 hI qs (idx d l) h2.indices
      refine ⟨_, _, _, e1, e, e2, sameCounts (d := d) g1 ?_⟩
      have : newTransform (newTransform t (idx d l) ps) (idx d l) qs = newTransform t (idx d l) (ps ++ qs) := funext fun is => by
        unfold newTransform
        rw [wrap_add]
        unfold votes
        rw [List.countP_append, Nat.add_assoc]
      rwa [this] at g2
    · right
      rcases insert_cases h h8 hI (ps ++ qs) with ⟨b1, -⟩ | ⟨-, b2⟩
      · exact absurd (hiff.1 b1).2 h2
      · refine ⟨b2, ?_⟩
        rw [e, bind_ok]
        rcases insert_cases g h8 hI qs with ⟨c1, -⟩ | ⟨-, c2⟩
        · exact absurd c1 h2
        · exact c2
  · right
    rcases insert_cases h h8 hI (ps ++ qs) with ⟨b1, -⟩ | ⟨-, b2⟩
    · exact absurd (hiff.1 b1).1 h1
    · refine ⟨b2, ?_⟩
      rcases insert_cases h h8 hI ps with ⟨c1, -⟩ | ⟨-, c2⟩
      · exact absurd c1 h1
      · rw [c2]
        rfl

/-- C142: detectors with the same counters and windows of non-negative size find the same normals and the same planes. -/
theorem C142_found {d e : Plane Flt} {t s t' s' : List ℤ → ℕ} {l l' : List ℤ → V3 Flt} (h : PlaneOk d t s l) (h' : PlaneOk e t' s' l') (hc : SameCounts d e)
    (hw : 0 ≤ d.ithetaWin ∧ 0 ≤ d.iphiWin ∧ 0 ≤ d.irhoWin) (hw' : (e.ithetaWin, e.iphiWin, e.irhoWin) = (d.ithetaWin, d.iphiWin, d.irhoWin)) :
    e.findSpectrumMax = d.findSpectrumMax ∧ ∀ i j, (0 ≤ i ∧ i < d.thetaNum) → (0 ≤ j ∧ j < d.phiNum) → e.findRho i j = d.findRho i j := by
  obtain ⟨h1, h2⟩ := hc
  simp only [Prod.mk.injEq] at h1 hw'
  obtain ⟨n1, n2, n3, -, -⟩ := h1
  obtain ⟨w1, w2, w3⟩ := hw'
  constructor
  · unfold Plane.findSpectrumMax
    rw [n1, n2, w1, w2]
    refine PeakFinder.C141_outside _ _ _ ?_ ?_ ?_ ?_
    · rw [finder_domain, ← h.spectrum.2.1]; exact h.spectrum.1.1
    · rw [finder_domain, ← h.spectrum.2.1]; exact h.spectrum.1.2.1
    · intro w hw1
      have : w ∈ [d.ithetaWin, d.iphiWin] := hw1
      simp only [List.mem_cons, List.not_mem_nil, or_false] at this
      rcases this with rfl | rfl
      · exact hw.1
      · exact hw.2.1
    · intro c hc
      rw [finder_domain, mem_iff] at hc
      obtain ⟨i, j, rfl⟩ := cell2_cases hc
      obtain ⟨hi, hj⟩ := cell2.1 hc
      have := (h2 i j hi hj).2.1
      rw [(get_ok h (r := 0) hi hj).2.1, (get_ok h' (r := 0) (by omega) (by omega)).2.1, Except.ok.injEq] at this
      unfold valueOf
      rw [h.spectrum.read (cell2.2 ⟨hi, hj⟩), h'.spectrum.read (cell2.2 ⟨by omega, by omega⟩), this]
  · intro i j hi hj
    have hr : ∀ (d : Plane Flt) (t s : List ℤ → ℕ) (l : List ℤ → V3 Flt), PlaneOk d t s l → (0 ≤ i ∧ i < d.thetaNum) → (0 ≤ j ∧ j < d.phiNum) →
        forN d.rhoNum (fun irho _ => do
          let _ ← Grid.read d.transform [i, j, irho]
          return ()) () = .ok () := by
      intro d t s l h hi hj
      obtain ⟨u, e, -⟩ := forN_inv (f := fun irho _ => do
          let _ ← Grid.read d.transform [i, j, irho]
          return ()) (fun _ _ => True) h.rho.le (s := ()) trivial (fun k hk1 hk2 u _ => by
            rw [h.transform.read (cell3.2 ⟨hi, hj, hk1, hk2⟩)]
            exact ⟨(), rfl, trivial⟩)
      exact e
    unfold Plane.findRho
    rw [hr d t s l h hi hj, hr e t' s' l' h' (by omega) (by omega), bind_ok, bind_ok, n3, w3]
    have hv := h.transform.1
    rw [Grid.Valid, h.transform.2.1] at hv
    have hp := hv.1 ⟨0, d.rhoNum⟩ (by simp)
    refine congrArg (· >>= _) (PeakFinder.C141_outside _ _ _ ?_ ?_ ?_ ?_)
    · rw [finder_domain]
      intro a ha
      simp only [List.map_cons, List.map_nil, List.mem_singleton] at ha
      rw [ha]
      exact hp
    · rw [finder_domain]
      have := hp.2.2.1.2
      simpa [card] using this
    · intro w hw1
      have : w ∈ [d.irhoWin] := hw1
      rw [List.mem_singleton] at this
      rw [this]
      exact hw.2.2
    · intro c hc
      rw [finder_domain, mem_iff] at hc
      have hl := hc.length_eq
      match c, hl, hc with
      | [r], _, hc =>
        have hr : 0 ≤ r ∧ r < d.rhoNum := by simpa using hc
        have := (h2 i j hi hj).2.2 r hr
        rw [(get_ok h hi hj).2.2 hr, (get_ok h' (by omega) (by omega)).2.2 (by omega), Except.ok.injEq] at this
        unfold valueOf
        rw [h.transform.read (cell3.2 ⟨hi, hj, hr⟩), h'.transform.read (cell3.2 ⟨by omega, by omega, by omega⟩), this]

/-- Points with and without indices in a detector of the examples. -/
theorem orders {p q b : V3 Flt} {i j : ℤ} (hp : index (fi (-5)) (fi 1) ux p = .ok i) (hq : index (fi (-5)) (fi 1) ux q = .ok j)
    (hb : index (fi (-5)) (fi 1) ux b = .error (.ub .overflow)) :
    ∃ d : Plane Flt, insert d [p, b] = .error (.ub .overflow) ∧ insert d [b, p] = .error (.ub .overflow) ∧
      ∃ d1 d2, insert d [p, q] = .ok d1 ∧ insert d [q, p] = .ok d2 ∧ SameCounts d1 d2 := by
  obtain ⟨d, h, h1, h2⟩ := detector (fi (-5)) (fi 1)
  generalize fi (-5) = m at *
  generalize fi 1 = r at *
  generalize ux = u at *
  simp only [Prod.mk.injEq] at h1 h2
  have h8 : 8 ≤ d.phiNum := by omega
  have hI : I32 d.phiNum := by unfold I32; omega
  have bad : ∀ ps : List (V3 Flt), b ∈ ps → insert d ps = .error (.ub .overflow) := by
    intro ps hps
    rcases insert_cases h h8 hI ps with ⟨a, -⟩ | ⟨-, a⟩
    · obtain ⟨k, hk⟩ := a 0 0 ⟨le_rfl, h.theta⟩ ⟨le_rfl, h.phi⟩ _ hps
      rw [h2.1, h2.2, hb] at hk
      cases hk
    · exact a
  refine ⟨d, bad _ (by simp), bad _ (by simp), ?_⟩
  rcases C142_order h h8 hI (List.Perm.swap q p []) with a | a
  · exact a
  · rcases insert_cases h h8 hI [p, q] with ⟨-, d', b⟩ | ⟨b, -⟩
    · rw [a.1] at b; cases b
    · refine absurd (fun i j _ _ x hx => ?_) b
      rw [h2.1, h2.2]
      simp only [List.mem_cons, List.not_mem_nil, or_false] at hx
      rcases hx with rfl | rfl
      · exact ⟨_, hp⟩
      · exact ⟨_, hq⟩

/-- The points at 1 and 2 in both orders, and with an infinite point. -/
example : ∃ d : Plane Flt, insert d [ux, (fi 1 / 0, 0, 0)] = .error (.ub .overflow) ∧ insert d [(fi 1 / 0, 0, 0), ux] = .error (.ub .overflow) ∧
    ∃ d1 d2, insert d [ux, (fi 2, 0, 0)] = .ok d1 ∧ insert d [(fi 2, 0, 0), ux] = .ok d2 ∧ SameCounts d1 d2 :=
  orders (i := 6) (j := 7) (by decide +kernel) (by decide +kernel) (by decide +kernel)

end Verif.HoughFp
