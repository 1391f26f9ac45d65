import Mathlib.Data.Multiset.AddSub

/-! Specification of the min-max heap, independent of the model: a bag of elements with extremes. -/
namespace Verif.Heap.Spec
variable {α : Type}

/-- The comparator is a strict weak order. -/
structure StrictWeak (cmp : α → α → Bool) : Prop where
  irrefl : ∀ a, cmp a a = false
  trans : ∀ a b c, cmp a b = true → cmp b c = true → cmp a c = true
  negTrans : ∀ a b c, cmp a b = false → cmp b c = false → cmp a c = false

/-- `x` belongs to the bag and no element of the bag precedes it. -/
def IsFirst (cmp : α → α → Bool) (s : Multiset α) (x : α) : Prop := x ∈ s ∧ ∀ y ∈ s, cmp y x = false

/-- `x` belongs to the bag and it precedes no element of the bag. -/
def IsLast (cmp : α → α → Bool) (s : Multiset α) (x : α) : Prop := x ∈ s ∧ ∀ y ∈ s, cmp x y = false

/-- Neither element precedes the other. -/
def Equivalent (cmp : α → α → Bool) (x y : α) : Prop := cmp x y = false ∧ cmp y x = false

/-- The bag holds no two equivalent elements (in particular no duplicates). -/
def NoTies (cmp : α → α → Bool) (s : Multiset α) : Prop := ∀ x y t, s = x ::ₘ y ::ₘ t → ¬ Equivalent cmp x y

end Verif.Heap.Spec
