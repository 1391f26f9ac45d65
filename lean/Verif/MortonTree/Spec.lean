import Mathlib.Data.Nat.Notation
import Mathlib.Data.Int.Notation

/-! Specification of the Morton tree: a list of pairs (values, identifier) and an order on the values. -/
namespace Verif.MortonTree.Spec
variable {V : Type}

/-- `cmp` is a strict weak order. -/
structure StrictWeak (cmp : V → V → Bool) : Prop where
  irrefl : ∀ a, cmp a a = false
  trans : ∀ a b c, cmp a b = true → cmp b c = true → cmp a c = true
  negTrans : ∀ a b c, cmp a b = false → cmp b c = false → cmp a c = false

/-- Insertion of a sequence: with `resetId` the identifiers are the consecutive positions. -/
def insert (st : List (V × ℤ)) (xs : List (V × ℤ)) (resetId : Bool) : List (V × ℤ) :=
  st ++ xs.mapIdx fun k x => if resetId then (x.1, ((st.length + k : ℕ) : ℤ)) else x

end Verif.MortonTree.Spec
