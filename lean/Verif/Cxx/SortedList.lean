/-
`std::set<int>` (and the sorted ranges of the set algorithms) as strictly increasing lists.
Each function follows the definition of the C++17 standard ([set], [alg.set.operations]).
-/
namespace Verif.SortedList

/-- `std::set::insert(x)`: inserts in order, unless already present. -/
def insert (x : Int) : List Int → List Int
  | [] => [x]
  | y :: l => if x < y then x :: y :: l else if y < x then y :: insert x l else y :: l

/-- `std::set::erase(x)` by value. -/
def erase (x : Int) : List Int → List Int
  | [] => []
  | y :: l => if x < y then y :: l else if y < x then y :: erase x l else l

/-- `std::set::find(x) != end()`. -/
def contains (x : Int) : List Int → Bool
  | [] => false
  | y :: l => if x < y then false else if y < x then contains x l else true

/-- Construction of a `std::set` from a range, or insertion of a range by `std::inserter`. -/
def insertRange (s : List Int) (l : List Int) : List Int := l.foldl (fun s x => insert x s) s

/-- `std::set_union`: the sequence of written elements. -/
def setUnion : List Int → List Int → List Int
  | [], l2 => l2
  | l1, [] => l1
  | x :: l1, y :: l2 =>
    if y < x then y :: setUnion (x :: l1) l2
    else if x < y then x :: setUnion l1 (y :: l2)
    else x :: setUnion l1 l2
termination_by l1 l2 => l1.length + l2.length

/-- `std::set_intersection`: the sequence of written elements. -/
def setIntersection : List Int → List Int → List Int
  | [], _ => []
  | _, [] => []
  | x :: l1, y :: l2 =>
    if x < y then setIntersection l1 (y :: l2)
    else if y < x then setIntersection (x :: l1) l2
    else x :: setIntersection l1 l2
termination_by l1 l2 => l1.length + l2.length

/-- `std::set_difference`: the sequence of written elements. -/
def setDifference : List Int → List Int → List Int
  | [], _ => []
  | l1, [] => l1
  | x :: l1, y :: l2 =>
    if x < y then x :: setDifference l1 (y :: l2)
    else if y < x then setDifference (x :: l1) l2
    else setDifference l1 l2
termination_by l1 l2 => l1.length + l2.length

end Verif.SortedList
