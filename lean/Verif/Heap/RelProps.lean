import Verif.Heap.SortProps

/-! Property theorems C140 (see properties.jsonl): the heap uses its elements only through the comparator. -/
namespace Verif.Heap
open Verif Spec

variable {α β γ δ γ' δ' : Type}

/-- Two outcomes of the same kind, with related values. -/
inductive Sim (R : γ → δ → Prop) : Outcome γ → Outcome δ → Prop
  | ok {a b} : R a b → Sim R (.ok a) (.ok b)
  | error (e : Err) : Sim R (.error e) (.error e)

/-- Two vectors of the same length with related elements in the same positions. -/
def VecRel (E : α → β → Prop) (v : Vec α) (w : Vec β) : Prop := v.len = w.len ∧ ∀ i < v.len, E (v.val i) (w.val i)

/-- The two comparators agree on related pairs. -/
def Agree (E : α → β → Prop) (c : α → α → Bool) (d : β → β → Bool) : Prop := ∀ a b x y, E a x → E b y → c a b = d x y

theorem Agree.flip {E : α → β → Prop} {c : α → α → Bool} {d : β → β → Bool} (h : Agree E c d) : Agree E (fun a b => c b a) (fun a b => d b a) :=
  fun a b x y h1 h2 => h b a y x h2 h1

theorem Agree.not {E : α → β → Prop} {c : α → α → Bool} {d : β → β → Bool} (h : Agree E c d) : Agree E (fun a b => !c a b) (fun a b => !d a b) :=
  fun a b x y h1 h2 => congrArg (!·) (h a b x y h1 h2)

namespace Sim

theorem bind {R : γ → δ → Prop} {S : γ' → δ' → Prop} {x : Outcome γ} {y : Outcome δ} {F : γ → Outcome γ'} {G : δ → Outcome δ'}
    (h : Sim R x y) (hF : ∀ a b, R a b → Sim S (F a) (G b)) : Sim S (x >>= F) (y >>= G) := by
  cases h with
  | ok h => exact hF _ _ h
  | error e => exact .error e

theorem mono {R S : γ → δ → Prop} {x : Outcome γ} {y : Outcome δ} (h : Sim R x y) (hR : ∀ a b, R a b → S a b) : Sim S x y := by
  cases h with
  | ok h => exact .ok (hR _ _ h)
  | error e => exact .error e

theorem eq {x y : Outcome γ} (h : Sim Eq x y) : x = y := by
  cases h with
  | ok h => rw [h]
  | error e => rfl

theorem refl (x : Outcome γ) : Sim Eq x x := by
  cases x with
  | ok a => exact .ok rfl
  | error e => exact .error e

end Sim

section
variable {E : α → β → Prop} {c : α → α → Bool} {d : β → β → Bool} {v : Vec α} {w : Vec β}

theorem get_rel (h : VecRel E v w) (i : ℤ) : Sim E (v.get i) (w.get i) := by
  unfold Vec.get
  rw [← h.1]
  split_ifs with hi
  · exact .ok (h.2 _ (by omega))
  · exact .error _

theorem set_rel (h : VecRel E v w) (i : ℤ) {x : α} {y : β} (hx : E x y) : Sim (VecRel E) (v.set i x) (w.set i y) := by
  unfold Vec.set
  rw [← h.1]
  split_ifs with hi
  · refine .ok ⟨rfl, fun j hj => ?_⟩
    simp only
    split_ifs
    · exact hx
    · exact h.2 j hj
  · exact .error _

theorem swap_rel (h : VecRel E v w) (i j : ℕ) : Sim (VecRel E) (swap v i j) (swap w i j) := by
  unfold swap
  exact (get_rel h i).bind fun x x' hx => (get_rel h j).bind fun y y' hy => (set_rel h i hy).bind fun v w h => set_rel h j hx

theorem childBest_rel (hc : Agree E c d) (h : VecRel E v w) (i : ℕ) : Sim Eq (childBest c v i) (childBest d w i) := by
  unfold childBest
  simp only [← h.1]
  split_ifs
  · refine (get_rel h _).bind fun x x' hx => (get_rel h _).bind fun y y' hy => ?_
    rw [hc _ _ _ _ hx hy]
    exact .ok rfl
  · exact .ok rfl

theorem grandchildLoop_rel (hc : Agree E c d) (h : VecRel E v w) (n j b : ℕ) :
    Sim Eq (grandchildLoop c v n j b) (grandchildLoop d w n j b) := by
  induction n generalizing j b with
  | zero => exact .ok rfl
  | succ n ih =>
    unfold grandchildLoop
    rw [← h.1]
    split_ifs
    · refine (get_rel h _).bind fun x x' hx => (get_rel h _).bind fun y y' hy => ?_
      rw [hc _ _ _ _ hx hy]
      exact ih _ _
    · exact .ok rfl

theorem upLoop_rel (hc : Agree E c d) (fuel : ℕ) (h : VecRel E v w) (i t : ℕ) :
    Sim (fun a b => VecRel E a.1 b.1 ∧ a.2 = b.2) (upLoop c fuel v i t) (upLoop d fuel w i t) := by
  induction fuel generalizing v w i t with
  | zero => exact .error _
  | succ fuel ih =>
    unfold upLoop
    rw [← h.1]
    by_cases ht : t < v.len
    · rw [if_pos ht, if_pos ht]
      refine (get_rel h _).bind fun x x' hx => (get_rel h _).bind fun y y' hy => ?_
      rw [hc _ _ _ _ hx hy]
      by_cases hd : d x' y' = true
      · rw [if_pos hd, if_pos hd]
        refine (swap_rel h i t).bind fun v1 w1 h1 => ?_
        rw [h1.1]
        exact ih h1 _ _
      · rw [if_neg hd, if_neg hd]
        exact .ok ⟨h, rfl⟩
    · rw [if_neg ht, if_neg ht]
      exact .ok ⟨h, rfl⟩

theorem heapUp_rel (hc : Agree E c d) (h : VecRel E v w) (i : ℕ) : Sim (VecRel E) (heapUp c v i) (heapUp d w i) := by
  unfold heapUp
  simp only [← h.1]
  refine (upLoop_rel hc _ h _ _).bind fun a b hab => ?_
  obtain ⟨v1, i1⟩ := a
  obtain ⟨w1, i2⟩ := b
  obtain ⟨h1, rfl⟩ := hab
  simp only
  rw [← h1.1]
  exact (upLoop_rel hc.not _ h1 _ _).bind fun a b hab => .ok hab.1

theorem grandWins_rel (hc : Agree E c d) (h : VecRel E v w) (i j k : ℕ) : Sim Eq (grandWins c v i j k) (grandWins d w i j k) := by
  unfold grandWins
  rw [← h.1]
  by_cases hk : k < v.len
  · rw [if_pos hk, if_pos hk]
    refine (get_rel h _).bind fun x x' hx => (get_rel h _).bind fun y y' hy => ?_
    rw [hc _ _ _ _ hx hy]
    split_ifs
    · refine (get_rel h _).bind fun z z' hz => ?_
      rw [hc _ _ _ _ hx hz]
      exact .ok rfl
    · exact .ok rfl
  · rw [if_neg hk, if_neg hk]
    exact .ok rfl

theorem childWins_rel (hc : Agree E c d) (h : VecRel E v w) (i j : ℕ) : Sim Eq (childWins c v i j) (childWins d w i j) := by
  unfold childWins
  rw [← h.1]
  split_ifs
  · refine (get_rel h _).bind fun x x' hx => (get_rel h _).bind fun y y' hy => ?_
    rw [hc _ _ _ _ hx hy]
    exact .ok rfl
  · exact .ok rfl

theorem fixParent_rel (hc : Agree E c d) (h : VecRel E v w) (i : ℕ) : Sim (VecRel E) (fixParent c v i) (fixParent d w i) := by
  unfold fixParent
  refine (get_rel h _).bind fun x x' hx => (get_rel h _).bind fun y y' hy => ?_
  rw [hc _ _ _ _ hx hy]
  split_ifs
  · exact swap_rel h _ _
  · exact .ok h

theorem heapDown_rel (hc : Agree E c d) (cont : Bool) (fuel : ℕ) (h : VecRel E v w) (i : ℕ) :
    Sim (VecRel E) (heapDownLoop c cont fuel v i) (heapDownLoop d cont fuel w i) := by
  induction fuel generalizing v w i with
  | zero => exact .error _
  | succ fuel ih =>
    unfold heapDownLoop
    rw [← h.1]
    by_cases hi : i < v.len
    · rw [if_pos hi, if_pos hi]
      refine (childBest_rel hc h i).bind fun a a' e => ?_
      obtain rfl := e
      refine Sim.bind (R := Eq) (grandchildLoop_rel hc h _ _ _) fun b b' e => ?_
      obtain rfl := e
      refine (grandWins_rel hc h _ _ _).bind fun g g' e => ?_
      obtain rfl := e
      cases g with
      | true => exact (swap_rel h _ _).bind fun v1 w1 h1 => (fixParent_rel hc h1 _).bind fun v2 w2 h2 => ih h2 _
      | false =>
        refine (childWins_rel hc h _ _).bind fun g g' e => ?_
        obtain rfl := e
        cases g with
        | true =>
          refine (swap_rel h _ _).bind fun v1 w1 h1 => ?_
          cases cont with
          | true => exact ih h1 _
          | false => exact .ok h1
        | false => exact .ok h
    · rw [if_neg hi, if_neg hi]
      exact .ok h

theorem popBack_rel (h : VecRel E v w) : VecRel E (popBack v) (popBack w) :=
  ⟨congrArg (· - 1) h.1, fun i hi => h.2 i (by unfold popBack at hi; simp only at hi; omega)⟩

theorem push_rel (hc : Agree E c d) (h : VecRel E v w) {x : α} {y : β} (hx : E x y) : Sim (VecRel E) (push c v x) (push d w y) := by
  have hp : VecRel E (v.push x) (w.push y) := by
    refine ⟨congrArg (· + 1) h.1, fun i hi => ?_⟩
    unfold Vec.push at hi ⊢
    simp only [← h.1] at hi ⊢
    split_ifs with e
    · exact hx
    · exact h.2 i (by omega)
  unfold push
  simp only [← hp.1]
  exact heapUp_rel hc hp _

theorem popTop_rel (hc : Agree E c d) (h : VecRel E v w) : Sim (VecRel E) (popTop c v) (popTop d w) := by
  unfold popTop
  rw [← h.1]
  by_cases h0 : v.len = 0
  · rw [if_pos h0, if_pos h0]; exact .error _
  · rw [if_neg h0, if_neg h0]
    refine (swap_rel h _ _).bind fun v1 w1 h1 => ?_
    unfold heapDownMin
    have h2 := popBack_rel h1
    rw [← h2.1]
    exact heapDown_rel hc _ _ h2 _

theorem popBottom_rel (hc : Agree E c d) (h : VecRel E v w) : Sim (VecRel E) (popBottom c v) (popBottom d w) := by
  unfold popBottom
  rw [← h.1]
  by_cases h0 : v.len = 0
  · rw [if_pos h0, if_pos h0]; exact .error _
  · rw [if_neg h0, if_neg h0]
    by_cases h1 : v.len = 1
    · rw [if_pos h1, if_pos h1]; exact .ok (popBack_rel h)
    · rw [if_neg h1, if_neg h1]
      refine Sim.bind (R := Eq) (childBest_rel hc.flip h 0) fun a b e => ?_
      obtain rfl := e
      refine (swap_rel h _ _).bind fun v1 w1 h1 => ?_
      unfold heapDownMax
      have h2 := popBack_rel h1
      rw [← h2.1]
      exact heapDown_rel hc.flip _ _ h2 _

theorem top_rel (h : VecRel E v w) : Sim E (top v) (top w) := by
  unfold top
  rw [← h.1]
  split_ifs
  · exact .error _
  · exact get_rel h 0

theorem bottom_rel (hc : Agree E c d) (h : VecRel E v w) : Sim E (bottom c v) (bottom d w) := by
  unfold bottom
  rw [← h.1]
  split_ifs
  · exact .error _
  · exact get_rel h 0
  · exact (childBest_rel hc.flip h 0).bind fun a b e => e ▸ get_rel h a

theorem nextTop_rel (hc : Agree E c d) (h : VecRel E v w) : Sim E (nextTop c v) (nextTop d w) := by
  unfold nextTop
  rw [← h.1]
  split_ifs
  · exact .error _
  · exact get_rel h 0
  · exact (childBest_rel hc h 0).bind fun a b e => e ▸ get_rel h a
  · exact Sim.bind (R := Eq) (grandchildLoop_rel hc h _ _ _) fun a b e => e ▸ get_rel h a

theorem nextBottom_rel (hc : Agree E c d) (h : VecRel E v w) : Sim E (nextBottom c v) (nextBottom d w) := by
  unfold nextBottom
  rw [← h.1]
  split_ifs
  · exact .error _
  · exact get_rel h 0
  · exact (childBest_rel hc h 0).bind fun a b e => e ▸ get_rel h a

end

/-- Two operations of the same kind, the pushed elements being related. -/
inductive OpRel (E : α → β → Prop) : Op α → Op β → Prop
  | push {x y} : E x y → OpRel E (.push x) (.push y)
  | popTop : OpRel E .popTop .popTop
  | popBottom : OpRel E .popBottom .popBottom

theorem foldlM_rel {R : γ → δ → Prop} {Q : γ' → δ' → Prop} {F : γ → γ' → Outcome γ} {G : δ → δ' → Outcome δ}
    (h : ∀ a b x y, R a b → Q x y → Sim R (F a x) (G b y)) {xs : List γ'} {ys : List δ'} (hl : List.Forall₂ Q xs ys) {a : γ} {b : δ} (hab : R a b) :
    Sim R (xs.foldlM F a) (ys.foldlM G b) := by
  induction hl generalizing a b with
  | nil => exact .ok hab
  | cons hx _ ih =>
    rw [List.foldlM_cons, List.foldlM_cons]
    exact (h _ _ _ _ hab hx).bind fun a b hab => ih hab

/-- C140: two heaps that hold related elements and receive the same operations on related elements end with related elements in the same positions, and
report related elements, when their comparators agree on related pairs; or both stop in the same way. The elements are never inspected otherwise. -/
theorem C140_related {E : α → β → Prop} {c : α → α → Bool} {d : β → β → Bool} (hc : Agree E c d) {h : List (Op α)} {k : List (Op β)}
    (hk : List.Forall₂ (OpRel E) h k) (z : α) (z' : β) :
    Sim (fun v w => VecRel E v w ∧ Sim E (top v) (top w) ∧ Sim E (bottom c v) (bottom d w) ∧ Sim E (nextTop c v) (nextTop d w) ∧
      Sim E (nextBottom c v) (nextBottom d w)) (run c z h) (run d z' k) := by
  have key : Sim (VecRel E) (run c z h) (run d z' k) := by
    refine foldlM_rel (Q := OpRel E) (fun a b x y hab hxy => ?_) hk ⟨rfl, fun i hi => absurd hi (Nat.not_lt_zero i)⟩
    cases hxy with
    | push hx => exact push_rel hc hab hx
    | popTop => exact popTop_rel hc hab
    | popBottom => exact popBottom_rel hc hab
  exact key.mono fun v w hvw => ⟨hvw, top_rel hvw, bottom_rel hc hvw, nextTop_rel hc hvw, nextBottom_rel hc hvw⟩

/-- An operation on the image of an element. -/
def Op.map (f : α → β) : Op α → Op β
  | .push x => .push (f x)
  | .popTop => .popTop
  | .popBottom => .popBottom

/-- C140: a relabelling that preserves the order of the pushed elements relabels the heap: a heap over keys that are transformed by an increasing function, or
over identifiers with a table of keys, is arranged as the heap over the keys. -/
theorem C140_relabelled (f : α → β) (c : α → α → Bool) (d : β → β → Bool) (z : α) (z' : β) (h : List (Op α))
    (hf : ∀ x y, .push x ∈ h → .push y ∈ h → d (f x) (f y) = c x y) :
    (∀ v, run c z h = .ok v → ∃ w, run d z' (h.map (Op.map f)) = .ok w ∧ w.toList = v.toList.map f) ∧
    (∀ e, run c z h = .error e → run d z' (h.map (Op.map f)) = .error e) := by
  have hr : List.Forall₂ (OpRel fun a b => b = f a ∧ .push a ∈ h) h (h.map (Op.map f)) := by
    have : ∀ l, (∀ o ∈ l, o ∈ h) → List.Forall₂ (OpRel fun a b => b = f a ∧ .push a ∈ h) l (l.map (Op.map f)) := by
      intro l hl
      induction l with
      | nil => exact .nil
      | cons o l ih =>
        refine .cons ?_ (ih fun x hx => hl x (by simp [hx]))
        cases o with
        | push x => exact .push ⟨rfl, hl _ (by simp)⟩
        | popTop => exact .popTop
        | popBottom => exact .popBottom
    exact this h fun _ ho => ho
  have hs := C140_related (c := c) (d := d) (fun a b x y ha hb => by rw [ha.1, hb.1, hf a b ha.2 hb.2]) hr z z'
  constructor
  · intro v hv
    rw [hv] at hs
    generalize hw : run d z' (h.map (Op.map f)) = r at hs
    cases hs with
    | @ok _ w hs =>
      refine ⟨w, rfl, ?_⟩
      unfold Vec.toList
      rw [← hs.1.1, List.map_map]
      exact List.map_congr_left fun i hi => (hs.1.2 i (List.mem_range.1 hi)).1
  · intro e he
    rw [he] at hs
    generalize run d z' (h.map (Op.map f)) = r at hs
    cases hs
    rfl

/-- C140: the comparator is used on the pushed elements only: two comparators that agree on them build the same heap. -/
theorem C140_comparator (c d : α → α → Bool) (z : α) (h : List (Op α)) (hf : ∀ x y, .push x ∈ h → .push y ∈ h → d x y = c x y) :
    (∀ v, run c z h = .ok v → ∃ w, run d z h = .ok w ∧ w.toList = v.toList) ∧ (∀ e, run c z h = .error e → run d z h = .error e) := by
  have := C140_relabelled id c d z z h hf
  rwa [show (Op.map id : Op α → Op α) = id from funext fun o => by cases o <;> rfl, List.map_id, funext fun l : List α => (List.map_id l : l.map id = l)] at this

/-- Squares of natural numbers are arranged as the numbers. -/
example : (run ltNat 0 [.push 3, .push 1, .push 4, .push 1, .push 5, .popTop]).toOption.map Vec.toList = some [1, 5, 4, 3] ∧
    (run ltNat 7 [.push 9, .push 1, .push 16, .push 1, .push 25, .popTop]).toOption.map Vec.toList = some [1, 25, 16, 9] := by decide +kernel

/-- An order-reversing relabelling arranges the elements otherwise. -/
example : (run (fun a b : ℤ => a < b) 0 [.push 3, .push 1, .push 4]).toOption.map Vec.toList = some [1, 3, 4] ∧
    (run (fun a b : ℤ => a < b) 0 [.push (-3), .push (-1), .push (-4)]).toOption.map Vec.toList = some [-4, -1, -3] := by decide +kernel

end Verif.Heap
