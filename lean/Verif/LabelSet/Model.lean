import Verif.Cxx.Basic
import Verif.Cxx.SortedList

/-! Model of `rofl::LabelSet`, common/include/rofl/common/label_set.h and common/src/label_set.cpp. -/
namespace Verif.LabelSet
open Verif

/-- The attribute `labels_`, label_set.h:160-161, in the order of iteration (`begin()`, `end()`, label_set.cpp:44-50). -/
structure LabelSet where
  labels : List Int
  deriving DecidableEq, Repr

/-- Constructor and `clear`, label_set.cpp:23-24, 32-34. -/
def empty : LabelSet := ⟨[]⟩

/-- Constructor from a range, label_set.h:48-50. -/
def ofRange (l : List Int) : LabelSet := ⟨SortedList.insertRange [] l⟩

/-- `size`, label_set.cpp:36-38. -/
def size (a : LabelSet) : Nat := a.labels.length

/-- `empty`, label_set.cpp:40-42. -/
def isEmpty (a : LabelSet) : Bool := a.labels.isEmpty

/-- `inside`, label_set.cpp:52-54. -/
def inside (a : LabelSet) (x : Int) : Bool := SortedList.contains x a.labels

/-- `std::equal(first1, last1, first2)`: the second range has no end; dereferencing its end is undefined, label_set.cpp:57, 61. -/
def equal3 : List Int → List Int → Outcome Bool
  | [], _ => .ok true
  | _ :: _, [] => .error (.ub .outOfBounds)
  | x :: l1, y :: l2 => if x = y then equal3 l1 l2 else .ok false

/-- `operator==`, label_set.cpp:56-58. -/
def eq (a b : LabelSet) : Outcome Bool := equal3 a.labels b.labels

/-- `operator!=`, label_set.cpp:60-62. -/
def ne (a b : LabelSet) : Outcome Bool := do return !(← equal3 a.labels b.labels)

/-- `insert`, label_set.cpp:64-70: returned value and new state. -/
def insert (a : LabelSet) (x : Int) : Bool × LabelSet :=
  let itemIn := inside a x
  (itemIn, if !itemIn then ⟨SortedList.insert x a.labels⟩ else a)

/-- `remove`, label_set.cpp:72-74. -/
def remove (a : LabelSet) (x : Int) : LabelSet := ⟨SortedList.erase x a.labels⟩

/-- `unionSet(Label)`, label_set.cpp:76-80. -/
def unionLabel (a : LabelSet) (x : Int) : LabelSet := (insert a x).2

/-- `unionSet(LabelSet)`, label_set.cpp:82-89: the copy of `this` receives the elements written by `set_union`. -/
def union (a b : LabelSet) : LabelSet := ⟨SortedList.insertRange a.labels (SortedList.setUnion a.labels b.labels)⟩

/-- `intersectionSet`, label_set.cpp:91-105. -/
def intersection (a b : LabelSet) : LabelSet := ofRange (SortedList.setIntersection a.labels b.labels)

/-- `differenceSet(Label)`, label_set.cpp:107-111. -/
def differenceLabel (a : LabelSet) (x : Int) : LabelSet := ⟨SortedList.erase x a.labels⟩

/-- `differenceSet(LabelSet)`, label_set.cpp:113-123. -/
def difference (a b : LabelSet) : LabelSet := ofRange (SortedList.setDifference a.labels b.labels)

end Verif.LabelSet
