import Verif.MortonTree.SetProps

/-! Property theorems C179 (see properties.jsonl): the items with a given value are found together, from the position of `findItem` on. -/
namespace Verif.MortonTree
open Verif
variable {V : Type}

/-- Neither value is ordered before the other. -/
def Equiv (cmp : V → V → Bool) (a b : V) : Bool := !cmp a b && !cmp b a

/-- In a list where `f` holds up to some position and not after it, it holds at as many positions as there are items with `f`. -/
theorem lt_countP_iff {α : Type} (f : α → Bool) (l : List α) (h : l.Pairwise fun a b => f b = true → f a = true) (i : ℕ) (x : α) (hx : l[i]? = some x) : f x = true ↔ i < l.countP f := by
  induction l generalizing i with
  | nil => simp at hx
  | cons a l ih =>
    rw [List.pairwise_cons] at h
    rw [List.countP_cons]
    cases i with
    | zero =>
      rw [List.getElem?_cons_zero] at hx
      obtain rfl := Option.some.inj hx
      constructor
      · intro hf; rw [if_pos hf]; omega
      · intro hlt
        by_contra hf
        rw [if_neg hf, Nat.add_zero, List.countP_pos_iff] at hlt
        obtain ⟨b, hb, hfb⟩ := hlt
        exact hf (h.1 b hb hfb)
    | succ i =>
      rw [List.getElem?_cons_succ] at hx
      have := ih h.2 i hx
      constructor
      · intro hf
        have h1 := this.1 hf
        rw [if_pos (h.1 x (List.mem_of_getElem? hx) hf)]
        omega
      · intro hlt
        refine this.2 ?_
        split at hlt <;> omega

/-- **C179**: the items equivalent to the query are exactly the ones at the position found and at the next ones, as many as such values were inserted. -/
theorem C179_block (cmp : V → V → Bool) (hw : Spec.StrictWeak cmp) (srt : List (Item V) → List (Item V)) (hs : IsSort cmp srt) (h : List (Op V)) (q : V) :
    let r := findItem srt cmp (run srt cmp h) q
    r.2 + (h.flatMap valuesOf).countP (Equiv cmp q) ≤ r.1.items.length ∧
    ∀ i x, r.1.items[i]? = some x → (Equiv cmp q x.values = true ↔ r.2 ≤ i ∧ i < r.2 + (h.flatMap valuesOf).countP (Equiv cmp q)) := by
  intro r
  obtain ⟨p1, p2, p3, p4, p5⟩ := C14_findItem_generic cmp hw srt hs h q
  have hpos := C144_position cmp hw srt hs h q
  have hperm : (r.1.items.map Item.values).Perm (h.flatMap valuesOf) := (p1.map _).trans (C13_values cmp srt hs h)
  have hcount : ∀ l : List V, l.countP (fun v => !cmp q v) = l.countP (fun v => cmp v q) + l.countP (Equiv cmp q) := by
    intro l
    induction l with
    | nil => rfl
    | cons v l ih =>
      rw [List.countP_cons, List.countP_cons, List.countP_cons, ih]
      unfold Equiv
      cases h1 : cmp q v <;> cases h2 : cmp v q <;> simp <;> try omega
      exact absurd (hw.trans q v q h1 h2) (by rw [hw.irrefl]; simp)
  have hc : r.1.items.countP (fun x => !cmp q x.values) = r.2 + (h.flatMap valuesOf).countP (Equiv cmp q) := by
    have e : r.1.items.countP (fun x => !cmp q x.values) = (r.1.items.map Item.values).countP (fun v => !cmp q v) := by
      rw [List.countP_map]; rfl
    rw [e, hperm.countP_eq, hcount]
    exact congrArg (· + _) hpos.symm
  refine ⟨?_, fun i x hx => ?_⟩
  · rw [← hc]
    exact List.countP_le_length
  · have hdown : r.1.items.Pairwise fun a b => (!cmp q b.values) = true → (!cmp q a.values) = true := by
      refine p2.imp fun {a b} hab hb => ?_
      simp only [Bool.not_eq_true'] at hb ⊢
      exact hw.negTrans _ _ _ hb hab
    have key := lt_countP_iff (fun x : Item V => !cmp q x.values) r.1.items hdown i x hx
    rw [hc] at key
    rw [← key]
    unfold Equiv
    have hlow : r.2 ≤ i ↔ cmp x.values q = false := by
      constructor
      · exact fun hi => p5 i x hi hx
      · intro hf
        by_contra hlt
        have := p4 i x (not_le.1 hlt) hx
        rw [hf] at this
        cases this
    rw [hlow]
    simp only [Bool.and_eq_true, Bool.not_eq_true']
    exact and_comm

/-- **C179**, membership: an equivalent value was inserted if and only if the position found is not the end and the item there does not come after the query. -/
theorem C179_member (cmp : V → V → Bool) (hw : Spec.StrictWeak cmp) (srt : List (Item V) → List (Item V)) (hs : IsSort cmp srt) (h : List (Op V)) (q : V) :
    let r := findItem srt cmp (run srt cmp h) q
    (∃ v ∈ h.flatMap valuesOf, Equiv cmp q v = true) ↔ ∃ x, r.1.items[r.2]? = some x ∧ cmp q x.values = false := by
  intro r
  obtain ⟨b1, b2⟩ := C179_block cmp hw srt hs h q
  obtain ⟨p1, p2, p3, p4, p5⟩ := C14_findItem_generic cmp hw srt hs h q
  constructor
  · rintro ⟨v, hv, he⟩
    have hpos : 0 < (h.flatMap valuesOf).countP (Equiv cmp q) := List.countP_pos_iff.2 ⟨v, hv, he⟩
    have hlt : r.2 < r.1.items.length := by
      have : r.2 + (h.flatMap valuesOf).countP (Equiv cmp q) ≤ r.1.items.length := b1
      omega
    refine ⟨r.1.items[r.2], List.getElem?_eq_getElem hlt, ?_⟩
    have := (b2 r.2 _ (List.getElem?_eq_getElem hlt)).2 ⟨le_rfl, Nat.lt_add_of_pos_right hpos⟩
    unfold Equiv at this
    simp only [Bool.and_eq_true, Bool.not_eq_true'] at this
    exact this.1
  · rintro ⟨x, hx, hf⟩
    have hxm : x.values ∈ h.flatMap valuesOf := ((p1.map Item.values).trans (C13_values cmp srt hs h)).mem_iff.1 (List.mem_map.2 ⟨x, List.mem_of_getElem? hx, rfl⟩)
    refine ⟨x.values, hxm, ?_⟩
    unfold Equiv
    rw [hf, p5 r.2 x le_rfl hx]
    rfl

open Verif.Morton NumericTraits

theorem mcode_congr {t : ITy} {dim : ℕ} {a b : ℕ → BitVec t.w} (h : Morton.Spec.SameVec dim a b) : Morton.Spec.mcode t dim a = Morton.Spec.mcode t dim b := by
  unfold Morton.Spec.mcode Morton.Spec.code
  refine congrArg _ (funext fun i => ?_)
  have hd : 0 < dim := Nat.pos_of_ne_zero fun e => by
    subst e
    exact absurd i.isLt (by simp)
  simp only
  rw [h (dim - 1 - i.val % dim) (by omega)]

theorem equiv_int (t : ITy) (dim : ℕ) (h0 : 0 < dim) (h1 : dim ≤ 2 ^ t.w) (a b : ℕ → BitVec t.w) : Equiv (mortonCmpInt t dim) a b = true ↔ Morton.Spec.SameVec dim a b := by
  unfold Equiv
  simp only [Bool.and_eq_true, Bool.not_eq_true']
  constructor
  · rintro ⟨e1, e2⟩
    by_contra hne
    rcases (C09_order_partial t dim h0 h1).2.2.2 a b hne with h | h
    · rw [e1] at h; cases h
    · rw [e2] at h; cases h
  · intro hs
    have key := fun v1 v2 => mortonCmpInt_iff t dim v1 v2 h0 h1
    have he : Morton.Spec.mcode t dim a = Morton.Spec.mcode t dim b := mcode_congr hs
    constructor <;> rw [Bool.eq_false_iff, ne_eq, key] <;> omega

/-- **C179** for integer coordinates: the items with the searched coordinates are exactly the ones at the position found and at the next ones, as many as were inserted; the first one tells if there are any. -/
theorem C179_int (t : ITy) (dim : ℕ) (h0 : 0 < dim) (h1 : dim ≤ 2 ^ t.w) (srt : List (Item (ℕ → BitVec t.w)) → List (Item (ℕ → BitVec t.w))) (hs : IsSort (mortonCmpInt t dim) srt)
    (h : List (Op (ℕ → BitVec t.w))) (q : ℕ → BitVec t.w) :
    let r := findItem srt (mortonCmpInt t dim) (run srt (mortonCmpInt t dim) h) q
    (∃ n, (∃ f : (ℕ → BitVec t.w) → Bool, (∀ v, f v = true ↔ Morton.Spec.SameVec dim q v) ∧ n = (h.flatMap valuesOf).countP f) ∧
      ∀ i x, r.1.items[i]? = some x → (Morton.Spec.SameVec dim q x.values ↔ r.2 ≤ i ∧ i < r.2 + n)) ∧
    ((∃ v ∈ h.flatMap valuesOf, Morton.Spec.SameVec dim q v) ↔ ∃ x, r.1.items[r.2]? = some x ∧ Morton.Spec.SameVec dim q x.values) := by
  intro r
  have hw := mortonCmpInt_strictWeak t dim h0 h1
  have e := equiv_int t dim h0 h1
  obtain ⟨b1, b2⟩ := C179_block (mortonCmpInt t dim) hw srt hs h q
  refine ⟨⟨_, ⟨Equiv (mortonCmpInt t dim) q, e q, rfl⟩, fun i x hx => by rw [← e]; exact b2 i x hx⟩, ?_⟩
  obtain ⟨m1, m2⟩ := C179_member (mortonCmpInt t dim) hw srt hs h q
  obtain ⟨-, -, -, -, p5⟩ := C14_findItem_generic (mortonCmpInt t dim) hw srt hs h q
  constructor
  · rintro ⟨v, hv, hsv⟩
    obtain ⟨x, hx, hf⟩ := m1 ⟨v, hv, (e q v).2 hsv⟩
    refine ⟨x, hx, (e q x.values).1 ?_⟩
    unfold Equiv
    rw [hf, p5 r.2 x le_rfl hx]
    rfl
  · rintro ⟨x, hx, hsv⟩
    obtain ⟨v, hv, he⟩ := m2 ⟨x, hx, by
      have := (e q x.values).2 hsv
      unfold Equiv at this
      simp only [Bool.and_eq_true, Bool.not_eq_true'] at this
      exact this.1⟩
    exact ⟨v, hv, (e q v).1 he⟩

/-- Example: the point (1, 1) inserted twice is at two consecutive positions. -/
example :
    let s := isort (mortonCmpInt .i32 2)
    let r := findItem s (mortonCmpInt .i32 2) (run s (mortonCmpInt .i32 2) [.insert ⟨v2 9 9, 0⟩ true, .insert ⟨v2 1 1, 0⟩ true, .insertRange [⟨v2 2 2, 0⟩, ⟨v2 1 1, 0⟩, ⟨v2 (-1) 3, 0⟩] true]) (v2 1 1)
    (r.1.items.map Item.id, r.2) = ([4, 1, 3, 2, 0], 1) := by decide +kernel

end Verif.MortonTree
