import Verif.Cxx.Basic

/-!
`std::vector` as a length and a total function; every access goes through the checked `get` / `set`, an access outside
`[0, len)` being undefined behaviour (`operator[]`).
-/
namespace Verif

/-- A `std::vector<α>`; only the values at indices below `len` are meaningful. -/
structure Vec (α : Type) where
  len : Nat
  val : Nat → α

namespace Vec
variable {α : Type}

/-- `v[i]` (read). -/
def get (v : Vec α) (i : Int) : Outcome α :=
  if 0 ≤ i ∧ i < v.len then .ok (v.val i.toNat) else .error (.ub .outOfBounds)

/-- `v[i] = x`. -/
def set (v : Vec α) (i : Int) (x : α) : Outcome (Vec α) :=
  if 0 ≤ i ∧ i < v.len then .ok ⟨v.len, fun j => if j = i.toNat then x else v.val j⟩ else .error (.ub .outOfBounds)

/-- `v.push_back(x)`. -/
def push (v : Vec α) (x : α) : Vec α := ⟨v.len + 1, fun j => if j = v.len then x else v.val j⟩

/-- The empty vector (`z` stands for the meaningless values). -/
def empty (z : α) : Vec α := ⟨0, fun _ => z⟩

/-- The elements in order. -/
def toList (v : Vec α) : List α := (List.range v.len).map v.val

theorem get_nat (v : Vec α) {i : Nat} (h : i < v.len) : v.get (i : Int) = .ok (v.val i) := by
  unfold get; rw [if_pos (by omega)]; rfl

theorem set_nat (v : Vec α) {i : Nat} (h : i < v.len) (x : α) :
    v.set (i : Int) x = .ok ⟨v.len, fun j => if j = i then x else v.val j⟩ := by
  unfold set; rw [if_pos (by omega)]; rfl

theorem get_oob (v : Vec α) {i : Int} (h : i < 0 ∨ (v.len : Int) ≤ i) : v.get i = .error (.ub .outOfBounds) := by
  unfold get; rw [if_neg (by omega)]

theorem set_oob (v : Vec α) {i : Int} (h : i < 0 ∨ (v.len : Int) ≤ i) (x : α) : v.set i x = .error (.ub .outOfBounds) := by
  unfold set; rw [if_neg (by omega)]

end Vec
end Verif
