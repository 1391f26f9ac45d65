import Verif.DisjointSet.Model

/-!
Model of `rofl::DisjointSet`, common/include/rofl/common/disjoint_set.h and common/src/disjoint_set.cpp as in Model.lean, but with the `int` identifiers and counters of the code:
`nodes_.size()` is converted to `int`, and an `int` that leaves its range is undefined behaviour. A negative index of `nodes_` is out of bounds after its conversion to `size_t`.
-/
namespace Verif.DisjointSet

/-- `makeSet()`, disjoint_set.cpp:50-57. -/
def makeSetW (s : State) : Int × State :=
  let id := Cxx.ofSize s.nodes.len
  (id, ⟨s.nodes.push ⟨id, 0, 1⟩, s.setNum⟩)

/-- `find(n)`, disjoint_set.cpp:59-71. -/
def findW (s : State) (n : Int) : Outcome (Int × State) := do
  if n < 0 ∨ n ≥ Cxx.ofSize s.nodes.len then return (Cxx.ofSize s.nodes.len, s)
  let tmp ← findLoop s.nodes s.nodes.len n
  let nd ← s.nodes.get n
  let nodes ← s.nodes.set n { nd with parent := tmp }
  return (tmp, ⟨nodes, s.setNum⟩)

/-- `join(n1, n2)`, disjoint_set.cpp:75-96. -/
def joinW (s : State) (n1 n2 : Int) : Outcome (Int × State) := do
  let (root1, s) ← findW s n1
  let (root2, s) ← findW s n2
  if root1 = root2 then return (Cxx.ofSize s.nodes.len, s)
  let setNum ← Cxx.int (s.setNum - 1)
  let nd1 ← s.nodes.get root1
  let nd2 ← s.nodes.get root2
  if nd1.rank < nd2.rank then
    let nodes ← s.nodes.set root1 { nd1 with parent := root2 }
    let nodes ← nodes.set root2 { nd2 with size := nd2.size + nd1.size }
    return (root2, ⟨nodes, setNum⟩)
  else if nd1.rank > nd2.rank then
    let nodes ← s.nodes.set root2 { nd2 with parent := root1 }
    let nodes ← nodes.set root1 { nd1 with size := nd1.size + nd2.size }
    return (root1, ⟨nodes, setNum⟩)
  else
    let nodes ← s.nodes.set root2 { nd2 with parent := root1 }
    let rank ← Cxx.int (nd1.rank + 1)
    let nodes ← nodes.set root1 { nd1 with size := nd1.size + nd2.size, rank := rank }
    return (root1, ⟨nodes, setNum⟩)

/-- `size(n)`, disjoint_set.h:83-86. -/
def sizeW (s : State) (n : Int) : Outcome (Nat × State) := do
  let (root, s) ← findW s n
  let nd ← s.nodes.get root
  return (nd.size, s)

/-- The loop of `parents(it)`, disjoint_set.h:101-105: `k` nodes are left, `id` is the counter. -/
def parentsLoop (nodes : Vec Node) : Nat → Int → Outcome (List Int)
  | 0, _ => .ok []
  | k + 1, id => do
    let nd ← nodes.get (nodes.len - (k + 1) : Nat)
    let next ← Cxx.int (id + 1)
    let rest ← parentsLoop nodes k next
    return if nd.parent = id then id :: rest else rest

/-- `parents(it)`, disjoint_set.h:97-105. -/
def parentsW (s : State) : Outcome (List Int) := parentsLoop s.nodes s.nodes.len 0

/-- Execution of one operation, disjoint_set.h:38-65. -/
def stepW (s : State) : Op → Outcome State
  | .init num => return initSets num
  | .makeSet => return (makeSetW s).2
  | .join a b => do let r ← joinW s a b; return r.2
  | .find a => do let r ← findW s a; return r.2
  | .size a => do let r ← sizeW s a; return r.2

/-- Execution of a history, from the default constructor, disjoint_set.h:38-65. -/
def runW (h : List Op) : Outcome State := h.foldlM stepW new

end Verif.DisjointSet
