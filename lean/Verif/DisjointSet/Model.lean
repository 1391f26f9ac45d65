import Verif.Cxx.Vec

/-!
Model of `rofl::DisjointSet`, common/include/rofl/common/disjoint_set.h and common/src/disjoint_set.cpp.
Simplification: `int`/`size_t` counters are unbounded (fewer than 2^31 nodes; WidthModel.lean has the counters of the code).
-/
namespace Verif.DisjointSet

/-- `DisjointSet::Node`, disjoint_set.h:30-34. -/
structure Node where
  parent : Int
  rank : Int
  size : Nat
  deriving DecidableEq, Repr

/-- The attributes, disjoint_set.h:107-109. -/
structure State where
  nodes : Vec Node
  setNum : Int

/-- A fresh node `{parent, rank = 0, size = 1}`, disjoint_set.cpp:28-30. -/
def fresh (i : Nat) : Node := ⟨i, 0, 1⟩

/-- `DisjointSet()`, disjoint_set.cpp:22-23. -/
def new : State := ⟨Vec.empty ⟨0, 0, 0⟩, 0⟩

/-- `initSets(num)`, disjoint_set.cpp:38-48 (and the constructor `DisjointSet(num)`, lines 25-33):
the loop pushes nothing for `num ≤ 0`. -/
def initSets (num : Int) : State := ⟨⟨num.toNat, fresh⟩, num⟩

/-- `makeSet()`, disjoint_set.cpp:50-57. -/
def makeSet (s : State) : Int × State := (s.nodes.len, ⟨s.nodes.push (fresh s.nodes.len), s.setNum⟩)

/-- The `while` loop of `find`, disjoint_set.cpp:66-68; `fuel` bounds the evaluations of the condition. -/
def findLoop (nodes : Vec Node) : Nat → Int → Outcome Int
  | 0, _ => .error .fuel
  | fuel + 1, tmp => do
    let nd ← nodes.get tmp
    if tmp ≠ nd.parent then findLoop nodes fuel nd.parent else return tmp

/-- `find(n)`, disjoint_set.cpp:59-71. The fuel is the number of nodes: a path that visits more nodes has a cycle. -/
def find (s : State) (n : Int) : Outcome (Int × State) := do
  if n < 0 ∨ n ≥ s.nodes.len then return (s.nodes.len, s)
  let tmp ← findLoop s.nodes s.nodes.len n
  let nd ← s.nodes.get n
  let nodes ← s.nodes.set n { nd with parent := tmp }
  return (tmp, ⟨nodes, s.setNum⟩)

/-- `join(n1, n2)`, disjoint_set.cpp:75-96. -/
def join (s : State) (n1 n2 : Int) : Outcome (Int × State) := do
  let (root1, s) ← find s n1
  let (root2, s) ← find s n2
  if root1 = root2 then return (s.nodes.len, s)
  let setNum := s.setNum - 1
  let nd1 ← s.nodes.get root1
  let nd2 ← s.nodes.get root2
  if nd1.rank < nd2.rank then
    let nodes ← s.nodes.set root1 { nd1 with parent := root2 }
    let nodes ← nodes.set root2 { nd2 with size := nd2.size + nd1.size }
    return (root2, ⟨nodes, setNum⟩)
  else if nd1.rank > nd2.rank then
    let nodes ← s.nodes.set root2 { nd2 with parent := root1 }
    let nodes ← nodes.set root1 { nd1 with size := nd1.size + nd2.size }
    return (root1, ⟨nodes, setNum⟩)
  else
    let nodes ← s.nodes.set root2 { nd2 with parent := root1 }
    let nodes ← nodes.set root1 { nd1 with size := nd1.size + nd2.size, rank := nd1.rank + 1 }
    return (root1, ⟨nodes, setNum⟩)

/-- `size(n)`, disjoint_set.h:83-86. -/
def size (s : State) (n : Int) : Outcome (Nat × State) := do
  let (root, s) ← find s n
  let nd ← s.nodes.get root
  return (nd.size, s)

/-- `parents(it)`, disjoint_set.h:97-105: the sequence of identifiers assigned to the insert iterator. -/
def parents (s : State) : List Int :=
  (List.range s.nodes.len).filterMap fun id => if (s.nodes.val id).parent = id then some (id : Int) else none

/-- The operations of the class that change the state, disjoint_set.h:38-65. -/
inductive Op
  | init (num : Int)
  | makeSet
  | join (a b : Int)
  | find (a : Int)
  | size (a : Int)
  deriving DecidableEq, Repr

/-- Execution of one operation, disjoint_set.h:38-65. -/
def step (s : State) : Op → Outcome State
  | .init num => return initSets num
  | .makeSet => return (makeSet s).2
  | .join a b => do let r ← join s a b; return r.2
  | .find a => do let r ← find s a; return r.2
  | .size a => do let r ← size s a; return r.2

/-- Execution of a history, from the default constructor, disjoint_set.h:38-65. -/
def run (h : List Op) : Outcome State := h.foldlM step new

end Verif.DisjointSet
