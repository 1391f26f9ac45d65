import Mathlib.Logic.Relation
import Mathlib.Data.Finset.Image
import Mathlib.Data.Finset.Card
import Mathlib.Data.Int.Notation
import Verif.DisjointSet.Model

/-! Independent specification: items `0 … n-1` and the equivalence generated by the joins of the history. -/
namespace Verif.DisjointSet.Spec

/-- Abstract state: number of items, joined pairs since the last initialisation; the two counters describe the drift of
`setNum` (calls of `makeSet`, and the argument of `initSets` when negative). -/
structure Abs where
  n : ℕ
  pairs : List (ℕ × ℕ)
  made : ℕ
  neg : ℤ

/-- Abstract effect of an operation. -/
def Abs.step (A : Abs) : Op → Abs
  | .init num => ⟨num.toNat, [], 0, min num 0⟩
  | .makeSet => ⟨A.n + 1, A.pairs, A.made + 1, A.neg⟩
  | .join a b => { A with pairs := (a.toNat, b.toNat) :: A.pairs }
  | .find _ | .size _ => A

/-- Abstract state after a history. -/
def absOf (h : List Op) : Abs := h.foldl Abs.step ⟨0, [], 0, 0⟩

/-- The identifiers of an operation are valid. -/
def OpValid (A : Abs) : Op → Prop
  | .init _ | .makeSet => True
  | .join a b => (0 ≤ a ∧ a < A.n) ∧ (0 ≤ b ∧ b < A.n)
  | .find a | .size a => 0 ≤ a ∧ a < A.n

/-- All the identifiers used along the history are valid. -/
def HistValid : Abs → List Op → Prop
  | _, [] => True
  | A, op :: h => OpValid A op ∧ HistValid (A.step op) h

/-- A history of valid calls from the default constructor. -/
def Valid (h : List Op) : Prop := HistValid ⟨0, [], 0, 0⟩ h

/-- Connected by the joins: the equivalence relation generated by the joined pairs. -/
def Conn (A : Abs) (i j : ℕ) : Prop := Relation.EqvGen (fun x y => (x, y) ∈ A.pairs) i j

open Classical in
/-- The set of the items connected to `i`. -/
noncomputable def cls (A : Abs) (i : ℕ) : Finset ℕ := (Finset.range A.n).filter fun j => Conn A i j

/-- The partition. -/
noncomputable def classes (A : Abs) : Finset (Finset ℕ) := (Finset.range A.n).image (cls A)

end Verif.DisjointSet.Spec
