import Verif.PeakFinder.OrderProps

/-! Property theorems C161 (see properties.jsonl): moving the domain and the map by the same offset moves the peaks. -/
namespace Verif.PeakFinder
open Verif Verif.Interval Verif.Interval.Spec Verif.Heap Verif.PeakFinder.Spec
variable {V : Type}

/-- The cell moved by an offset. -/
def shiftC (τ c : List ℤ) : List ℤ := List.zipWith (· + ·) c τ

/-- The box moved by an offset. -/
def shiftI (τ : List ℤ) (iv : Interval) : Interval := List.zipWith (fun a t => ⟨a.min + t, a.dim⟩) iv τ

/-- Related values whenever both computations return. -/
def Both {γ δ : Type} (R : γ → δ → Prop) (x : Outcome γ) (y : Outcome δ) : Prop := ∀ a b, x = .ok a → y = .ok b → R a b

section
variable {γ δ γ' δ' : Type}

theorem Both.bind {R : γ → δ → Prop} {S : γ' → δ' → Prop} {x : Outcome γ} {y : Outcome δ} {F : γ → Outcome γ'} {G : δ → Outcome δ'}
    (h : Both R x y) (hF : ∀ a b, x = .ok a → y = .ok b → R a b → Both S (F a) (G b)) : Both S (x >>= F) (y >>= G) := by
  intro a b ha hb
  obtain ⟨a', h1, h2⟩ := bind_inv ha
  obtain ⟨b', h3, h4⟩ := bind_inv hb
  exact hF a' b' h1 h3 (h a' b' h1 h3) a b h2 h4

theorem Both.ok {R : γ → δ → Prop} {a : γ} {b : δ} (h : R a b) : Both R (.ok a) (.ok b) := by
  intro a' b' h1 h2
  obtain rfl := Except.ok.inj h1
  obtain rfl := Except.ok.inj h2
  exact h

theorem Both.ofSim {R : γ → δ → Prop} {x : Outcome γ} {y : Outcome δ} (h : Sim R x y) : Both R x y := by
  intro a b ha hb
  cases h with
  | ok h =>
    obtain rfl := Except.ok.inj ha
    obtain rfl := Except.ok.inj hb
    exact h
  | error e => cases ha

theorem Both.foldlM {R : γ → δ → Prop} {Q : γ' → δ' → Prop} {F : γ → γ' → Outcome γ} {G : δ → δ' → Outcome δ}
    (h : ∀ a b x y, R a b → Q x y → Both R (F a x) (G b y)) {xs : List γ'} {ys : List δ'} (hl : List.Forall₂ Q xs ys) {a : γ} {b : δ} (hab : R a b) :
    Both R (xs.foldlM F a) (ys.foldlM G b) := by
  induction hl generalizing a b with
  | nil => exact .ok hab
  | cons hx _ ih =>
    rw [List.foldlM_cons, List.foldlM_cons]
    exact (h _ _ _ _ hab hx).bind fun a b _ _ hab => ih hab

theorem Both.int {z w t : ℤ} (h : w = z + t) : Both (fun a b => b = a + t) (Cxx.int z) (Cxx.int w) := by
  intro a b ha hb
  obtain ⟨rfl, -⟩ := int_inv ha
  obtain ⟨rfl, -⟩ := int_inv hb
  exact h

end

theorem shiftI_length {τ : List ℤ} {iv : Interval} (h : τ.length = iv.length) : (shiftI τ iv).length = iv.length := by
  simp [shiftI, h]

theorem stacked_shift {τ : List ℤ} {W : Interval} (h : τ.length = W.length) (d : ℕ) (k : ℤ) :
    Both (fun r r' => r' = shiftI τ r) (stacked W d k) (stacked (shiftI τ W) d k) := by
  induction W generalizing τ d with
  | nil => intro a b ha; cases ha
  | cons a W ih =>
    match τ, h with
    | t :: τ, h =>
      show Both _ (stacked (a :: W) d k) (stacked (⟨a.min + t, a.dim⟩ :: shiftI τ W) d k)
      cases d with
      | zero =>
        unfold stacked
        split_ifs with hk
        · refine (Both.int (t := t) (by ring)).bind fun m m' _ _ e => .ok ?_
          rw [e]; rfl
        · refine (Both.int (t := t) (by ring)).bind fun m m' _ _ e => (Both.ofSim (Sim.refl _)).bind fun k k' _ _ e' => .ok ?_
          rw [e, e']; rfl
      | succ d =>
        unfold stacked
        refine (ih (by simpa using h) d).bind fun r r' _ _ e => .ok ?_
        rw [e]; rfl

theorem translate_shift {τ : List ℤ} {W : Interval} (h : τ.length = W.length) (d : ℕ) (k : ℤ) :
    Both (fun r r' => r' = shiftI τ r) (translate W d k) (translate (shiftI τ W) d k) := by
  induction W generalizing τ d with
  | nil => intro a b ha; cases ha
  | cons a W ih =>
    match τ, h with
    | t :: τ, h =>
      show Both _ (translate (a :: W) d k) (translate (⟨a.min + t, a.dim⟩ :: shiftI τ W) d k)
      cases d with
      | zero =>
        unfold translate
        refine (Both.int (t := t) (by ring)).bind fun m m' _ _ e => .ok ?_
        rw [e]; rfl
      | succ d =>
        unfold translate
        refine (ih (by simpa using h) d).bind fun r r' _ _ e => .ok ?_
        rw [e]; rfl

theorem centered_shift {τ c w : List ℤ} (h : τ.length = c.length) :
    Both (fun r r' => r' = shiftI τ r) (initCentered c w) (initCentered (shiftC τ c) w) := by
  induction c generalizing τ w with
  | nil =>
    obtain rfl := List.length_eq_zero_iff.1 h
    exact .ok rfl
  | cons x c ih =>
    match τ, h, w with
    | t :: τ, h, [] => intro a b ha; cases ha
    | t :: τ, h, y :: w =>
      show Both _ (initCentered (x :: c) (y :: w)) (initCentered ((x + t) :: shiftC τ c) (y :: w))
      unfold initCentered
      refine (Both.int (t := t) (by ring)).bind fun m m' _ _ e => (Both.ofSim (Sim.refl _)).bind fun k k' _ _ e' => ?_
      obtain rfl := e'
      refine (Both.ofSim (Sim.refl _)).bind fun d d' _ _ e' => ?_
      obtain rfl := e'
      refine (ih (by simpa using h)).bind fun r r' _ _ e' => .ok ?_
      rw [e, e']; rfl

theorem minMax_shift {τ a b : List ℤ} (h : τ.length = a.length) :
    Both (fun r r' => r' = shiftI τ r) (initMinMax a b) (initMinMax (shiftC τ a) (shiftC τ b)) := by
  induction a generalizing τ b with
  | nil =>
    obtain rfl := List.length_eq_zero_iff.1 h
    exact .ok rfl
  | cons x a ih =>
    match τ, h, b with
    | t :: τ, h, [] => intro a b ha; cases ha
    | t :: τ, h, y :: b =>
      show Both _ (initMinMax (x :: a) (y :: b)) (initMinMax ((x + t) :: shiftC τ a) ((y + t) :: shiftC τ b))
      unfold initMinMax
      refine (Both.int (t := 0) (by ring)).bind fun m m' _ _ e => ?_
      rw [add_zero] at e
      obtain rfl := e
      refine (Both.ofSim (Sim.refl _)).bind fun d d' _ _ e' => ?_
      obtain rfl := e'
      refine (ih (by simpa using h)).bind fun r r' _ _ e' => .ok ?_
      rw [e']; rfl

theorem intersectLoop_shift {τ : List ℤ} {s dom : Interval} (h : τ.length = s.length) :
    Both (fun r r' => r' = (shiftC τ r.1, shiftC τ r.2) ∧ r.1.length = s.length) (intersectLoop s dom) (intersectLoop (shiftI τ s) (shiftI τ dom)) := by
  induction s generalizing τ dom with
  | nil =>
    obtain rfl := List.length_eq_zero_iff.1 h
    exact .ok ⟨rfl, rfl⟩
  | cons a s ih =>
    match τ, h, dom with
    | t :: τ, h, [] => intro a b ha; cases ha
    | t :: τ, h, b :: dom =>
      show Both _ (intersectLoop (a :: s) (b :: dom)) (intersectLoop (⟨a.min + t, a.dim⟩ :: shiftI τ s) (⟨b.min + t, b.dim⟩ :: shiftI τ dom))
      unfold intersectLoop
      refine (Both.int (t := t) (by ring)).bind fun x x' _ _ e => (Both.int (t := t) (by ring)).bind fun y y' _ _ e' => ?_
      refine (Both.int (t := t) (by omega)).bind fun m m' _ _ e'' => ?_
      refine (ih (by simpa using h)).bind fun r r' _ _ e3 => ?_
      obtain ⟨r1, r2⟩ := r
      obtain ⟨e3, e4⟩ := e3
      rw [e3]
      refine .ok ⟨?_, by simpa using e4⟩
      have e5 : Max.max (a.min + t) (b.min + t) = Max.max a.min b.min + t := by omega
      dsimp only
      rw [e'', e5]
      rfl

theorem empty_shift {τ : List ℤ} {s : Interval} (h : τ.length = s.length) : empty (shiftI τ s) = empty s := by
  induction s generalizing τ with
  | nil => rw [List.length_eq_zero_iff.1 h]; rfl
  | cons a s ih =>
    match τ, h with
    | t :: τ, h =>
      show empty (⟨a.min + t, a.dim⟩ :: shiftI τ s) = _
      unfold empty
      rw [ih (by simpa using h)]

theorem map_shift {τ : List ℤ} (r : Interval) :
    (shiftI τ r).map (fun a => if a.dim < 0 then (⟨a.min, 0⟩ : Axis) else a) = shiftI τ (r.map fun a => if a.dim < 0 then ⟨a.min, 0⟩ else a) := by
  induction r generalizing τ with
  | nil => rfl
  | cons a r ih =>
    cases τ with
    | nil => rfl
    | cons t τ =>
      show _ :: (shiftI τ r).map _ = _ :: shiftI τ _
      rw [ih]
      congr 1
      dsimp only
      split_ifs <;> rfl

theorem intersect_shift {τ : List ℤ} {s dom : Interval} (h : τ.length = s.length) (h' : τ.length = dom.length) :
    Both (fun r r' => r' = shiftI τ r) (intersect s dom) (intersect (shiftI τ s) (shiftI τ dom)) := by
  unfold intersect
  rw [empty_shift h, empty_shift h']
  split_ifs
  · exact .ok rfl
  · exact .ok rfl
  · refine (intersectLoop_shift h).bind fun r r' _ _ e => ?_
    obtain ⟨rfl, e2⟩ := e
    obtain ⟨r1, r2⟩ := r
    refine (minMax_shift (h.trans e2.symm)).bind fun q q' _ _ e => .ok ?_
    rw [e, map_shift]

theorem minMax_length {a b : List ℤ} {r : Interval} (h : initMinMax a b = .ok r) : r.length = a.length := by
  induction a generalizing b r with
  | nil => obtain rfl := Except.ok.inj h; rfl
  | cons x a ih =>
    match b with
    | [] => cases h
    | y :: b =>
      unfold initMinMax at h
      obtain ⟨t, -, h⟩ := bind_inv h
      obtain ⟨d, -, h⟩ := bind_inv h
      obtain ⟨r', e, h⟩ := bind_inv h
      obtain rfl := Except.ok.inj h
      exact congrArg (· + 1) (ih e)

theorem intersectLoop_length {s dom : Interval} {r : List ℤ × List ℤ} (h : intersectLoop s dom = .ok r) : r.1.length = s.length := by
  induction s generalizing dom r with
  | nil => obtain rfl := Except.ok.inj h; rfl
  | cons a s ih =>
    match dom with
    | [] => cases h
    | b :: dom =>
      unfold intersectLoop at h
      obtain ⟨x, -, h⟩ := bind_inv h
      obtain ⟨y, -, h⟩ := bind_inv h
      obtain ⟨m, -, h⟩ := bind_inv h
      obtain ⟨⟨r1, r2⟩, e, h⟩ := bind_inv h
      obtain rfl := Except.ok.inj h
      exact congrArg (· + 1) (ih e)

theorem intersect_length {s dom r : Interval} (hl : s.length = dom.length) (h : intersect s dom = .ok r) : r.length = dom.length := by
  unfold intersect at h
  split_ifs at h
  · obtain rfl := Except.ok.inj h; exact hl
  · obtain rfl := Except.ok.inj h; rfl
  · obtain ⟨⟨r1, r2⟩, h1, h⟩ := bind_inv h
    obtain ⟨q, h2, h⟩ := bind_inv h
    obtain rfl := Except.ok.inj h
    rw [List.length_map, minMax_length h2, ← hl]
    exact intersectLoop_length h1

theorem inside_shift {τ : List ℤ} {W : Interval} {c : List ℤ} (h : τ.length = W.length) : Both Eq (inside W c) (inside (shiftI τ W) (shiftC τ c)) := by
  induction W generalizing τ c with
  | nil => rw [List.length_eq_zero_iff.1 h]; exact .ok rfl
  | cons a W ih =>
    match τ, h, c with
    | t :: τ, h, [] => intro a b ha; cases ha
    | t :: τ, h, x :: c =>
      show Both _ (inside (a :: W) (x :: c)) (inside (⟨a.min + t, a.dim⟩ :: shiftI τ W) ((x + t) :: shiftC τ c))
      unfold inside
      by_cases h1 : x < a.min
      · rw [if_pos h1, if_pos (by dsimp only; omega)]; exact .ok rfl
      · rw [if_neg h1, if_neg (by dsimp only; omega)]
        refine (Both.int (t := t) (by ring)).bind fun m m' _ _ e => ?_
        by_cases h2 : x ≥ m
        · rw [if_pos h2, if_pos (by omega)]; exact .ok rfl
        · rw [if_neg h2, if_neg (by omega)]; exact ih (by simpa using h)

theorem findIncrementLoop_shift {τ p c : List ℤ} (h : p.length = c.length) (h' : τ.length = c.length) (dm : ℕ) (im : ℤ) (d : ℕ) :
    findIncrementLoop dm im d (shiftC τ p) (shiftC τ c) = findIncrementLoop dm im d p c := by
  induction c generalizing τ p dm im d with
  | nil =>
    obtain rfl := List.length_eq_zero_iff.1 h
    obtain rfl := List.length_eq_zero_iff.1 h'
    rfl
  | cons x c ih =>
    match τ, h', p, h with
    | t :: τ, h', y :: p, h =>
      show findIncrementLoop dm im d ((y + t) :: shiftC τ p) ((x + t) :: shiftC τ c) = _
      unfold findIncrementLoop
      rw [show x + t - (y + t) = x - y by ring]
      simp only [fun a b c => ih (τ := τ) (p := p) (by simpa using h) (by simpa using h') a b c]

theorem cell_shift {τ : List ℤ} {iv : Interval} (h : τ.length = iv.length) (p : ℤ) : cell p (shiftI τ iv) = shiftC τ (cell p iv) := by
  induction iv generalizing τ p with
  | nil => rw [List.length_eq_zero_iff.1 h]; rfl
  | cons a iv ih =>
    match τ, h with
    | t :: τ, h =>
      show (a.min + t + p % a.dim) :: cell (p / a.dim) (shiftI τ iv) = (a.min + p % a.dim + t) :: shiftC τ (cell (p / a.dim) iv)
      rw [ih (by simpa using h)]
      congr 1
      ring

theorem digits_shift {τ : List ℤ} {iv : Interval} (h : τ.length = iv.length) (p : ℤ) : digits p (shiftI τ iv) = digits p iv := by
  induction iv generalizing τ p with
  | nil => rw [List.length_eq_zero_iff.1 h]; rfl
  | cons a iv ih =>
    match τ, h with
    | t :: τ, h =>
      show p % a.dim :: digits (p / a.dim) (shiftI τ iv) = _
      rw [ih (by simpa using h)]
      rfl

theorem fold_shift {τ : List ℤ} {iv : Interval} (h : τ.length = iv.length) (xs : List ℤ) : fold (shiftI τ iv) xs = shiftC τ (fold iv xs) := by
  induction iv generalizing τ xs with
  | nil => rw [List.length_eq_zero_iff.1 h]; cases xs <;> rfl
  | cons a iv ih =>
    match τ, h, xs with
    | t :: τ, h, [] => rfl
    | t :: τ, h, x :: xs =>
      show (if oddOf xs then a.dim - x - 1 + (a.min + t) else x + (a.min + t)) :: fold (shiftI τ iv) xs =
        ((if oddOf xs then a.dim - x - 1 + a.min else x + a.min) + t) :: shiftC τ (fold iv xs)
      rw [ih (by simpa using h)]
      congr 1
      split_ifs <;> ring

theorem at_shift {τ : List ℤ} {iv : Interval} (h : τ.length = iv.length) (p : ℕ) : at' (shiftI τ iv) p = shiftC τ (at' iv p) := by
  unfold at'
  rw [digits_shift h, fold_shift h]

theorem card_shift {τ : List ℤ} {iv : Interval} (h : τ.length = iv.length) : card (shiftI τ iv) = card iv := by
  induction iv generalizing τ with
  | nil => rw [List.length_eq_zero_iff.1 h]; rfl
  | cons a iv ih =>
    match τ, h with
    | t :: τ, h =>
      show card (⟨a.min + t, a.dim⟩ :: shiftI τ iv) = _
      rw [card_cons, card_cons, ih (by simpa using h)]

theorem mem_shift {τ : List ℤ} {iv : Interval} {c : List ℤ} (h : τ.length = iv.length) : Mem iv c → Mem (shiftI τ iv) (shiftC τ c) := by
  intro hc
  induction hc generalizing τ with
  | nil => rw [List.length_eq_zero_iff.1 h]; exact .nil
  | cons h1 _ ih =>
    match τ, h with
    | t :: τ, h => exact .cons (by dsimp only; omega) (ih (by simpa using h))

theorem pos_shift {τ : List ℤ} {iv : Interval} (h : τ.length = iv.length) {P : ℤ → Prop} : (∀ a ∈ shiftI τ iv, P a.dim) ↔ ∀ a ∈ iv, P a.dim := by
  induction iv generalizing τ with
  | nil => rw [List.length_eq_zero_iff.1 h]; simp [shiftI]
  | cons a iv ih =>
    match τ, h with
    | t :: τ, h =>
      show (∀ b ∈ ⟨a.min + t, a.dim⟩ :: shiftI τ iv, P b.dim) ↔ _
      rw [List.forall_mem_cons, List.forall_mem_cons, ih (by simpa using h)]

/-- The relation between the elements of the two heaps: a cell of the domain and the cell moved by the offset. -/
def Moved (τ : List ℤ) (dom : Interval) (x y : List ℤ) : Prop := y = shiftC τ x ∧ Mem dom x

theorem pushCells_shift {τ : List ℤ} {dom s : Interval} {c d : List ℤ → List ℤ → Bool} (hτ : τ.length = dom.length) (hc : Agree (Moved τ dom) c d)
    (hd : Proper dom) (hd' : Proper (shiftI τ dom)) (hcd : card dom ≤ 2147483647)
    (hl : s.length = dom.length) (h0 : ∀ a ∈ s, 0 ≤ a.dim) {r r' : Interval} (hr : intersect s dom = .ok r)
    (hr' : intersect (shiftI τ s) (shiftI τ dom) = .ok r') {v w : Vec (List ℤ)} (h : VecRel (Moved τ dom) v w) :
    Sim (VecRel (Moved τ dom)) (pushCells c v r) (pushCells d w r') := by
  have hrr : r' = shiftI τ r := intersect_shift (hτ.trans hl.symm) hτ r r' hr hr'
  have hrl : τ.length = r.length := by
    rw [intersect_length hl hr, hτ]
  obtain ⟨h1, h2⟩ := intersect_inv hl h0 hd hr
  obtain ⟨h1', h2'⟩ := intersect_inv (by rw [shiftI_length (hτ.trans hl.symm), shiftI_length hτ, hl]) ((pos_shift (P := (0 ≤ ·)) (hτ.trans hl.symm)).2 h0) hd' hr'
  have key : ∃ L, visit rasterGetIndices r (size r + 1) = .ok L ∧ visit rasterGetIndices r' (size r' + 1) = .ok (L.map (shiftC τ)) ∧ ∀ x ∈ L, Mem dom x := by
    by_cases hp : ∀ a ∈ r, 0 < a.dim
    · obtain ⟨p1, p2, p3⟩ := h2 hp
      have hp' : ∀ a ∈ r', 0 < a.dim := by rw [hrr]; exact (pos_shift (P := (0 < ·)) hrl).2 hp
      obtain ⟨q1, q2, -⟩ := h2' hp'
      rw [card_shift hτ] at q2
      obtain ⟨L, l1, -, l3, -⟩ := C33_raster_iteration r p1 (by omega) (size r + 1) (by have := size_ok p1 (by omega); omega)
      refine ⟨L, l1, ?_, fun x hx => p3 x ((l3 x).1 hx)⟩
      have e1 := visit_ok p1 (by omega) (fun p h0 hp => rasterGetIndices_ok p1 h0 hp) (size r + 1) (by have := size_ok p1 (by omega); omega)
      have e2 := visit_ok q1 (by omega) (fun p h0 hp => rasterGetIndices_ok q1 h0 hp) (size r' + 1) (by have := size_ok q1 (by omega); omega)
      rw [l1] at e1
      rw [e2, Except.ok.inj e1, hrr, card_shift hrl, List.map_map]
      congr 1
      refine List.map_congr_left fun j _ => ?_
      exact cell_shift hrl _
    · have he : empty r = true := by rw [empty_iff]; push Not at hp; exact hp
      obtain ⟨-, -, h⟩ := C38_partial r h1 he rasterGetIndices (size r)
      obtain ⟨-, -, h'⟩ := C38_partial r' h1' (by rw [hrr, empty_shift hrl, he]) rasterGetIndices (size r')
      exact ⟨[], h, h', by simp⟩
  obtain ⟨L, l1, l1', l2⟩ := key
  unfold pushCells
  rw [l1, l1']
  refine foldlM_rel (Q := Moved τ dom) (fun a b x y hab hxy => push_rel hc hab hxy) ?_ h
  clear l1 l1'
  induction L with
  | nil => exact .nil
  | cons x L ih => exact .cons ⟨rfl, l2 x (by simp)⟩ (ih fun y hy => l2 y (by simp [hy]))

theorem evict_shift {τ : List ℤ} {dom : Interval} {c d : List ℤ → List ℤ → Bool} (hc : Agree (Moved τ dom) c d) {W : Interval} (hW : τ.length = W.length)
    (fuel : ℕ) {v w : Vec (List ℤ)} (h : VecRel (Moved τ dom) v w) : Both (VecRel (Moved τ dom)) (evict c W fuel v) (evict d (shiftI τ W) fuel w) := by
  induction fuel generalizing v w with
  | zero => intro a b ha; cases ha
  | succ fuel ih =>
    unfold evict
    rw [← h.1]
    by_cases h0 : v.len = 0
    · rw [if_pos h0, if_pos h0]; exact .ok h
    · rw [if_neg h0, if_neg h0]
      refine (Both.ofSim (top_rel h)).bind fun t t' _ _ ht => ?_
      obtain ⟨rfl, -⟩ := ht
      refine (inside_shift hW).bind fun b b' _ _ e => ?_
      obtain rfl := e
      cases b with
      | true => exact .ok h
      | false => exact (Both.ofSim (popTop_rel hc h)).bind fun v w _ _ h => ih h

theorem drain_shift {τ : List ℤ} {dom : Interval} {c d : List ℤ → List ℤ → Bool} (hc : Agree (Moved τ dom) c d) (fuel : ℕ) {v w : Vec (List ℤ)}
    (h : VecRel (Moved τ dom) v w) : Sim (fun l l' => l' = l.map (shiftC τ)) (drain c fuel v) (drain d fuel w) := by
  induction fuel generalizing v w with
  | zero => exact .error _
  | succ fuel ih =>
    unfold drain
    rw [← h.1]
    by_cases h0 : v.len = 0
    · rw [if_pos h0, if_pos h0]; exact .ok rfl
    · rw [if_neg h0, if_neg h0]
      exact (top_rel h).bind fun t t' ht => (popTop_rel hc h).bind fun v w h => (ih h).bind fun l l' e => .ok (by rw [ht.1, e]; rfl)

/-- The finder and the map moved by an offset: same window and filter, moved domain, and the values of the cells move with them. -/
structure MovedBy (τ : List ℤ) (f : Finder V) (map : List ℤ → V) (g : Finder V) (map' : List ℤ → V) : Prop where
  length : τ.length = f.domain.length
  comp : g.comp = f.comp
  domain : g.domain = shiftI τ f.domain
  iwin : g.iwin = f.iwin
  valueMin : g.valueMin = f.valueMin
  enable : g.enableFilterMinValue = f.enableFilterMinValue
  values : ∀ c, Mem f.domain c → map' (shiftC τ c) = map c

section
variable {f g : Finder V} {map map' : List ℤ → V} {τ : List ℤ}

theorem MovedBy.agree (h : MovedBy τ f map g map') : Agree (Moved τ f.domain) (f.cmp map) (g.cmp map') := by
  rintro a b _ _ ⟨rfl, ha⟩ ⟨rfl, hb⟩
  unfold Finder.cmp
  rw [h.comp, h.values a ha, h.values b hb]

theorem isPeak_shift (h : MovedBy τ f map g map') {v w : Vec (List ℤ)} (hv : VecRel (Moved τ f.domain) v w) {c : List ℤ} (hc : Mem f.domain c) :
    Sim Eq (isPeak f map v c) (isPeak g map' w (shiftC τ c)) := by
  unfold isPeak
  rw [h.comp, h.values c hc, h.valueMin, h.enable, ← hv.1]
  by_cases hp : (!f.enableFilterMinValue || f.comp (map c) f.valueMin) = true
  · rw [if_pos hp, if_pos hp]
    by_cases h0 : v.len = 0
    · rw [if_pos h0, if_pos h0]; exact .ok rfl
    · rw [if_neg h0, if_neg h0]
      refine (top_rel hv).bind fun t t' ht => ?_
      obtain ⟨rfl, ht⟩ := ht
      rw [h.values t ht]
      split_ifs
      · exact .ok rfl
      · refine (nextTop_rel h.agree hv).bind fun n n' hn => ?_
        obtain ⟨rfl, hn⟩ := hn
        rw [h.values n hn]
        exact .ok rfl
  · rw [if_neg hp, if_neg hp]; exact .ok rfl

/-- The states of the two runs. -/
structure StateMoved (τ : List ℤ) (dom : Interval) (s t : State) : Prop where
  items : VecRel (Moved τ dom) s.items t.items
  maxima : VecRel (Moved τ dom) s.maxima t.maxima
  window : t.window = shiftI τ s.window
  prev : t.prev = shiftC τ s.prev
  prevMem : Mem dom s.prev
  length : s.window.length = dom.length
  pos : ∀ a ∈ s.window, 0 < a.dim

theorem body_shift (h : MovedBy τ f map g map') (hd : Proper f.domain) (hd' : Proper g.domain) (hcd : card f.domain ≤ 2147483647) {s t : State}
    (hs : StateMoved τ f.domain s t) {c : List ℤ} (hc : Mem f.domain c) : Both (StateMoved τ f.domain) (body f map s c) (body g map' t (shiftC τ c)) := by
  unfold body
  rw [hs.prev, hs.window, h.domain]
  rw [h.domain] at hd'
  have hW : τ.length = s.window.length := h.length.trans hs.length.symm
  have e1 : findIncrement (shiftC τ s.prev) (shiftC τ c) = findIncrement s.prev c :=
    findIncrementLoop_shift ((mem_length hs.prevMem).trans (mem_length hc).symm) (h.length.trans (mem_length hc).symm) 0 0 0
  rw [e1]
  refine (Both.ofSim (Sim.refl _)).bind fun dk dk' _ _ e => ?_
  obtain rfl := e
  obtain ⟨d, k⟩ := dk
  refine (stacked_shift hW d k).bind fun st st' hst _ e => ?_
  obtain rfl := e
  obtain ⟨l1, l2⟩ := stacked_inv hs.pos hst
  refine (intersect_shift (by rw [l1]; exact hW) h.length).bind fun nv nv' hnv hnv' _ => ?_
  refine (Both.ofSim (pushCells_shift h.length h.agree hd hd' hcd (l1.trans hs.length) l2 hnv hnv' hs.items)).bind fun v w _ _ hvw => ?_
  refine (translate_shift hW d k).bind fun W W' hW1 _ e => ?_
  obtain rfl := e
  obtain ⟨m1, m2⟩ := translate_inv hs.pos hW1
  rw [hvw.1]
  refine (evict_shift h.agree (by rw [m1]; exact hW) _ hvw).bind fun v w _ _ hvw => ?_
  refine (Both.ofSim (isPeak_shift h hvw hc)).bind fun b b' _ _ e => ?_
  obtain rfl := e
  refine Both.bind (R := VecRel (Moved τ f.domain)) ?_ fun x y _ _ hxy => .ok ⟨hvw, hxy, rfl, rfl, hc, m1.trans hs.length, m2⟩
  cases b with
  | true => exact .ofSim (push_rel h.agree hs.maxima ⟨rfl, hc⟩)
  | false => exact .ok hs.maxima

/-- C161: whenever `detect` returns for both domains, the peaks of the moved map are the moved peaks, in the same order. -/
theorem C161_moved (h : MovedBy τ f map g map') (hd : Proper f.domain) (hd' : Proper g.domain) (hcd : card f.domain ≤ 2147483647) (hw : ∀ w ∈ f.iwin, 0 ≤ w)
    {out out' : List (List ℤ)} (ho : detect f map = .ok out) (ho' : detect g map' = .ok out') : out' = out.map (shiftC τ) := by
  have hm := fun p => at_mem hd p
  have hcd' : card g.domain = card f.domain := by rw [h.domain, card_shift h.length]
  refine (?_ : Both (fun l l' => l' = l.map (shiftC τ)) (detect f map) (detect g map')) out out' ho ho'
  rw [detect_eq f map hd hcd, detect_eq g map' hd' (by omega), hcd']
  refine Both.bind (R := StateMoved τ f.domain) ?_ fun s t _ _ hs => Both.bind (R := StateMoved τ f.domain) ?_ fun s t _ _ hs => ?_
  · unfold initState
    rw [h.iwin]
    simp only [h.domain, at_shift h.length]
    rw [h.domain] at hd'
    refine (centered_shift (h.length.trans (mem_length (hm 0)).symm)).bind fun W W' hW _ e => ?_
    obtain rfl := e
    obtain ⟨c1, c2⟩ := centered_inv hw hW
    have hl : W.length = f.domain.length := c1.trans (mem_length (hm 0))
    have h0 : VecRel (Moved τ f.domain) (Vec.empty []) (Vec.empty []) := ⟨rfl, fun i hi => absurd hi (Nat.not_lt_zero i)⟩
    refine (intersect_shift (h.length.trans hl.symm) h.length).bind fun nv nv' hnv hnv' _ => ?_
    exact (Both.ofSim (pushCells_shift h.length h.agree hd hd' hcd hl (fun a ha => (c2 a ha).le) hnv hnv' h0)).bind
      fun v w _ _ hvw => .ok ⟨hvw, h0, rfl, rfl, hm 0, hl, c2⟩
  · refine Both.foldlM (Q := Moved τ f.domain) (fun a b x y hab hxy => ?_) ?_ hs
    · obtain ⟨rfl, hx⟩ := hxy
      exact body_shift h hd hd' hcd hab hx
    · simp only [h.domain, at_shift h.length]
      generalize List.range ((card f.domain).toNat - 1) = L
      induction L with
      | nil => exact .nil
      | cons x L ih => exact .cons ⟨rfl, hm _⟩ ih
  · rw [hs.maxima.1]
    exact .ofSim (drain_shift h.agree _ hs.maxima)

end

/-- The finder with the moved domain. -/
def Finder.moved (τ : List ℤ) (f : Finder V) : Finder V := ⟨f.comp, shiftI τ f.domain, f.iwin, f.valueMin, f.enableFilterMinValue⟩

theorem shiftC_neg {τ c : List ℤ} (h : τ.length = c.length) : shiftC (τ.map Neg.neg) (shiftC τ c) = c := by
  induction c generalizing τ with
  | nil => rw [List.length_eq_zero_iff.1 h]; rfl
  | cons x c ih =>
    match τ, h with
    | t :: τ, h =>
      show (x + t + -t) :: shiftC (τ.map Neg.neg) (shiftC τ c) = _
      rw [ih (by simpa using h), add_neg_cancel_right]

/-- C161: with representable windows in both places, and in particular in one and two dimensions, `detect` returns the moved peaks. -/
theorem C161_returns (f : Finder V) (map : List ℤ → V) (τ : List ℤ) (hτ : τ.length = f.domain.length) (hf : Fits f.domain f.iwin)
    (hf' : Fits (shiftI τ f.domain) f.iwin) (he : ∀ d, 1 ≤ d → ∀ h' : d + 1 < f.domain.length, f.domain[d].dim % 2 = 0) :
    ∃ out, detect f map = .ok out ∧ detect (f.moved τ) (fun c => map (shiftC (τ.map Neg.neg) c)) = .ok (out.map (shiftC τ)) := by
  obtain ⟨out, h1⟩ := C40_returns_partial f map hf he
  obtain ⟨out', h2⟩ := C40_returns_partial (f.moved τ) (fun c => map (shiftC (τ.map Neg.neg) c)) hf' fun d hd h' => by
    have hl : d + 1 < f.domain.length := by
      have := shiftI_length hτ
      simp only [Finder.moved] at h'
      omega
    have := he d hd hl
    simp only [Finder.moved, shiftI, List.getElem_zipWith]
    exact this
  refine ⟨out, h1, ?_⟩
  rw [h2]
  congr 1
  refine C161_moved (g := f.moved τ) (map' := fun c => map (shiftC (τ.map Neg.neg) c)) ⟨hτ, rfl, rfl, rfl, rfl, rfl, fun c hc => ?_⟩ hf.proper hf'.proper hf.card (fun w hw => ?_) h1 h2
  · rw [shiftC_neg (hτ.trans (mem_length hc).symm)]
  · have key : ∀ {l : Interval} {m : List ℤ}, List.Forall₂ (fun (a : Axis) w => 0 ≤ w ∧ I32 (a.min - w) ∧ I32 (a.min + a.dim + w) ∧ I32 (2 * w + 1)) l m →
        ∀ x ∈ m, 0 ≤ x := by
      intro l m h
      induction h with
      | nil => simp
      | cons h _ ih => exact List.forall_mem_cons.2 ⟨h.1, ih⟩
    exact key hf.win w hw

/-- C161, needed: at the end of the range of `int` the same detection overflows. -/
theorem C161_needed : ∃ (f : Finder ℕ) (map map' : List ℤ → ℕ) (τ : List ℤ), MovedBy τ f map (f.moved τ) map' ∧ Proper f.domain ∧ Proper (f.moved τ).domain ∧
    detect f map = .ok [[2]] ∧ detect (f.moved τ) map' = .error (.ub .overflow) := by
  refine ⟨finder [4] [1], row [3, 1, 4, 2], fun c => row [3, 1, 4, 2] (shiftC [-2147483644] c), [2147483644], ⟨rfl, rfl, rfl, rfl, rfl, rfl, fun c hc => ?_⟩, ?_, ?_, ?_, ?_⟩
  · exact congrArg _ (shiftC_neg (τ := [2147483644]) (by rw [mem_length hc]; rfl))
  · intro a ha
    obtain rfl : a = ⟨0, 4⟩ := by simpa [finder, Finder.new, Finder.setDomainSize, Finder.setPeakWindow, initBounds] using ha
    unfold I32; norm_num
  · intro a ha
    obtain rfl : a = ⟨2147483644, 4⟩ := by simpa [finder, Finder.new, Finder.setDomainSize, Finder.setPeakWindow, initBounds, Finder.moved, shiftI] using ha
    unfold I32; norm_num
  · decide +kernel
  · decide +kernel

/-- The table of an example moved to the left and down. -/
example : detect (finder [4, 3] [1, 1]) (table [[1, 2, 3, 1], [2, 9, 2, 8], [5, 1, 7, 3]]) = .ok [[1, 1], [3, 1]] ∧
    detect ((finder [4, 3] [1, 1]).moved [-7, 2]) (fun c => table [[1, 2, 3, 1], [2, 9, 2, 8], [5, 1, 7, 3]] (shiftC [7, -2] c)) = .ok [[-6, 3], [-4, 3]] := by
  decide +kernel

end Verif.PeakFinder
