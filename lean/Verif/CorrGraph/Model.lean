import Verif.LabelSet.Model
import Verif.Cxx.Vec
import Mathlib.Order.Defs.LinearOrder

/-!
Model of `rofl::CorrespondenceGraphAssociation`, geometry/include/rofl/geometry/correspondence_graph_association.h and
geometry/src/correspondence_graph_association.cpp.

Simplifications. The distances belong to any type with a comparison, an addition and a subtraction; the properties are about linear orders (C63, C64) and finite
floating point numbers (C122), see `Ordered`. The distance functor is a function of the positions of the two items. `std::sort` is a parameter. Memory exhaustion and more than
`INT_MAX` items are not modelled. The member `color`, never used, is left out. What `executeBronKerbosch` prints
as "maximum clique", its only effect, is recorded in a list; the other printed text is not.
-/
namespace Verif.CorrGraph
open Verif LabelSet

/-- `PairDistance`, correspondence_graph_association.h:60-72. -/
structure PairDistance (K : Type) where
  i0 : Int
  i1 : Int
  distance : K
  deriving DecidableEq, Repr

/-- `CorrespondenceNode`, correspondence_graph_association.h:74-82. -/
structure Node where
  index : Int
  isrc : Int
  idst : Int
  adjacents : LabelSet
  deriving DecidableEq, Repr

/-- Attributes, correspondence_graph_association.h:173-179. -/
structure Graph (K : Type) where
  nodes : Vec Node
  distancesSrc : List (PairDistance K)
  distancesDst : List (PairDistance K)
  numSrc : Nat
  numDst : Nat
  distTol : K
  distMin : K

variable {K : Type}

/-- Default constructor, correspondence_graph_association.cpp:27-29: the tolerance is `0.1`, the minimum `0`. -/
def Graph.new (tol min : K) : Graph K := ⟨Vec.empty ⟨0, 0, 0, empty⟩, [], [], 0, 0, tol, min⟩

/-- `setTolerance`, correspondence_graph_association.cpp:34-36. -/
def Graph.setTolerance (g : Graph K) (tol : K) : Graph K := { g with distTol := tol }

/-- `setDistanceMin`, correspondence_graph_association.cpp:38-40. -/
def Graph.setDistanceMin (g : Graph K) (dmin : K) : Graph K := { g with distMin := dmin }

/-- The elements appended by `insertPairDistances`, correspondence_graph_association.h:181-194, for `n` items. -/
def pairDistances (n : Nat) (dist : Nat → Nat → K) : List (PairDistance K) :=
  (List.range n).flatMap fun i0 => (List.range (n - (i0 + 1))).map fun k => ⟨i0, (i0 + 1 + k : Nat), dist i0 (i0 + 1 + k)⟩

/-- `insertSrc`, correspondence_graph_association.h:121-137. -/
def Graph.insertSrc (srt : List (PairDistance K) → List (PairDistance K)) (g : Graph K) (n : Nat) (dist : Nat → Nat → K) : Graph K :=
  { g with numSrc := n, distancesSrc := srt (g.distancesSrc ++ pairDistances n dist) }

/-- `insertDst`, correspondence_graph_association.h:151-166. -/
def Graph.insertDst (srt : List (PairDistance K) → List (PairDistance K)) (g : Graph K) (n : Nat) (dist : Nat → Nat → K) : Graph K :=
  { g with numDst := n, distancesDst := srt (g.distancesDst ++ pairDistances n dist) }

/-- `is * numDst_ + id` in `size_t`, converted to `int`, correspondence_graph_association.cpp:62, 87-88, 93-94. -/
def nodeIndex (numDst : Nat) (is id : Int) : Int := Cxx.ofSize ((Cxx.toSize is * numDst + Cxx.toSize id) % 18446744073709551616)

/-- The creation of the nodes, correspondence_graph_association.cpp:52-65: the old nodes are kept. -/
def Graph.pushNodes (g : Graph K) : Graph K :=
  { g with nodes := (List.range g.numSrc).foldl (fun v (is : Nat) => (List.range g.numDst).foldl (fun v (id : Nat) =>
      v.push ⟨nodeIndex g.numDst is id, is, id, empty⟩) v) g.nodes }

/-- `nodes_[index0].adjacents.insert(index1)`, correspondence_graph_association.cpp:91. -/
def insertAdjacent (nodes : Vec Node) (index0 index1 : Int) : Outcome (Vec Node) := do
  let node ← nodes.get (Cxx.toSize index0)
  nodes.set (Cxx.toSize index0) { node with adjacents := (insert node.adjacents index1).2 }

/-- An edge, correspondence_graph_association.cpp:89-92 and 95-98. -/
def addEdge (nodes : Vec Node) (index0 index1 : Int) : Outcome (Vec Node) := do
  Cxx.assert (Cxx.toSize index0 < nodes.len)
  Cxx.assert (Cxx.toSize index1 < nodes.len)
  let nodes ← insertAdjacent nodes index0 index1
  insertAdjacent nodes index1 index0

/-- The body of the inner loop, correspondence_graph_association.cpp:84-99. -/
def addPair (numDst : Nat) (nodes : Vec Node) (s d : PairDistance K) : Outcome (Vec Node) := do
  let nodes ← addEdge nodes (nodeIndex numDst s.i0 d.i0) (nodeIndex numDst s.i1 d.i1)
  addEdge nodes (nodeIndex numDst s.i0 d.i1) (nodeIndex numDst s.i1 d.i0)

/-- `[upper_bound(dmin), end)` on a sorted vector: the elements after the last one with distance at most `dmin`,
correspondence_graph_association.cpp:68-71, 75-78. -/
def upperBound [LT K] [DecidableLT K] (l : List (PairDistance K)) (dmin : K) : List (PairDistance K) :=
  l.dropWhile fun p => !decide (dmin < p.distance)

/-- The two loops on the pairs, correspondence_graph_association.cpp:67-101. -/
def Graph.addEdges [LT K] [DecidableLT K] [Add K] [Sub K] (g : Graph K) : Outcome (Graph K) := do
  let nodes ← (upperBound g.distancesSrc g.distMin).foldlM (fun nodes s =>
    ((upperBound g.distancesDst (s.distance - g.distTol)).takeWhile fun d => decide (d.distance < s.distance + g.distTol)).foldlM
      (fun nodes d => addPair g.numDst nodes s d) nodes) g.nodes
  return { g with nodes := nodes }

/-- The body of the loop of `executeBronKerbosch`, correspondence_graph_association.cpp:195-204; `call` is the recursive call. The loop visits the elements of `candidateNodes`
and erases the visited element; then it reads the erased element (line 203) and increments the iterator pointing to it: undefined behaviour. With `lax` the erased
element is still there to be read and the iterator goes to the following one, as if the loop visited a copy. -/
def visit (lax : Bool) (nodes : Vec Node) (call : LabelSet → LabelSet → LabelSet → Int × List LabelSet → Outcome (Int × List LabelSet)) (cliqueCur : LabelSet)
    (r : (Int × List LabelSet) × LabelSet × LabelSet) (n : Int) : Outcome ((Int × List LabelSet) × LabelSet × LabelSet) := do
  let node ← nodes.get (Cxx.toSize n)
  let st ← call (unionLabel cliqueCur n) (intersection r.2.1 node.adjacents) (intersection r.2.2 node.adjacents) r.1
  if lax then return (st, remove r.2.1 n, (insert r.2.2 n).2) else .error (.ub .iterInvalid)

/-- `executeBronKerbosch`, correspondence_graph_association.cpp:180-205: new `iterCount` (a static variable) and printed cliques.
The recursion ends because of the test on `iterCount`: the fuel is enough, see `bronKerbosch_fuel`. -/
def bronKerbosch (lax : Bool) (nodes : Vec Node) : (fuel : Nat) → (cliqueCur candidates excluded : LabelSet) → Int × List LabelSet → Outcome (Int × List LabelSet)
  | 0, _, _, _, _ => .error .fuel
  | fuel + 1, cliqueCur, candidates, excluded, (iterCount, printed) => do
    let iterCount ← Cxx.int (iterCount + 1)
    if iterCount ≥ 200 then return (iterCount, printed)
    if isEmpty candidates && isEmpty excluded then return (iterCount, printed ++ [cliqueCur])
    let r ← candidates.labels.foldlM (visit lax nodes (bronKerbosch lax nodes fuel) cliqueCur) ((iterCount, printed), candidates, excluded)
    return r.1

/-- The candidates of the search, correspondence_graph_association.cpp:118-121. -/
def allNodes (n : Nat) : LabelSet := (List.range n).foldl (fun s (i : Nat) => (insert s i).2) empty

/-- `associate(std::vector<LabelSet>&)`, correspondence_graph_association.cpp:42-148: the object, the counter and the printed cliques; the argument `cliquesMax` is returned. -/
def Graph.associateCliques [LT K] [DecidableLT K] [Add K] [Sub K] (lax : Bool) (g : Graph K) (iterCount : Int) (cliquesMax : List LabelSet) :
    Outcome (Graph K × (Int × List LabelSet) × List LabelSet) := do
  let g ← g.pushNodes.addEdges
  let r ← bronKerbosch lax g.nodes 200 empty (allNodes g.nodes.len) empty (iterCount, [])
  return (g, r, cliquesMax)

/-- `convertToAssociation`, correspondence_graph_association.cpp:163-168. -/
def Graph.convertToAssociation (g : Graph K) (correspNodes : LabelSet) : Outcome (List (Int × Int)) :=
  correspNodes.labels.mapM fun node => do
    let n ← g.nodes.get (Cxx.toSize node)
    return (n.isrc, n.idst)

/-- `associate(std::vector<AssociationHypothesis>&)`, correspondence_graph_association.cpp:150-161. -/
def Graph.associate [LT K] [DecidableLT K] [Add K] [Sub K] (lax : Bool) (g : Graph K) (iterCount : Int) :
    Outcome (Graph K × (Int × List LabelSet) × List (List (Int × Int))) := do
  let (g, r, cliquesMax) ← g.associateCliques lax iterCount []
  let associations ← cliquesMax.mapM g.convertToAssociation
  return (g, r, associations)

end Verif.CorrGraph
