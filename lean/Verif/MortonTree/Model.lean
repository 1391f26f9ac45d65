import Verif.Morton.Model

/-!
Model of common/include/rofl/common/morton_tree.h. The class is a template in the scalar type and uses it only through
`MortonTraits`; the model is generic in the same way: `V` is the type of `Item::values`, `cmp`, `dist` and `split` are
`Traits::compare`, `Traits::distance` and `Traits::split`. The instances for integer coordinates are at the end.
Iterators are positions; dereferencing `end()` is undefined behaviour. The output macros (`ROFL_VAR`, `ROFL_MSG`) are always
active: the printing itself is not modelled, the dereferences made to print are.
`std::sort` is the parameter `srt`. A tree holds fewer than 2^31 items (identifiers are `int`).
-/
namespace Verif.MortonTree
open Verif

variable {V : Type}

/-- `Item`, morton_tree.h:41-70. -/
structure Item (V : Type) where
  values : V
  id : Int
  deriving DecidableEq, Repr

/-- `items_` and `ordered_`, morton_tree.h:330-331. -/
structure Tree (V : Type) where
  items : List (Item V)
  ordered : Bool
  deriving DecidableEq, Repr

/-- Constructor, morton_tree.h:81. -/
def new : Tree V := ⟨[], true⟩

/-- `compareItems`, morton_tree.h:333-335. -/
def compareItems (cmp : V → V → Bool) (a b : Item V) : Bool := cmp a.values b.values

/-- `insert(item, resetId)`, morton_tree.h:175-183: the copy starts with the identifier `-1` of the default constructor
(line 47) and `item.id` is not read. -/
def insert (t : Tree V) (item : Item V) (resetId : Bool) : Tree V :=
  ⟨t.items ++ [⟨item.values, if resetId then t.items.length else -1⟩], false⟩

/-- Loop of the range insertion, morton_tree.h:202-207 (`id` is written to the input range, then inserted). -/
def insertLoop (t : Tree V) (id : Int) (resetId : Bool) : List (Item V) → Tree V
  | [] => t
  | x :: xs =>
    let x := if resetId then { x with id := id } else x
    insertLoop (insert t x resetId) (id + 1) resetId xs

/-- `insert(beg, end, resetId)`, morton_tree.h:194-209. -/
def insertRange (t : Tree V) (xs : List (Item V)) (resetId : Bool) : Tree V :=
  let r := insertLoop t t.items.length resetId xs
  ⟨r.items, false⟩

/-- Loop of the insertion with conversion, morton_tree.h:235-241. -/
def insertConvLoop {W : Type} (conv : W → Item V) (resetId : Bool) : List (Item V) → List W → List (Item V)
  | items, [] => items
  | items, x :: xs =>
    let item := conv x
    let item := if resetId then { item with id := items.length } else item
    insertConvLoop conv resetId (items ++ [item]) xs

/-- `insert(beg, end, converter, resetId)`, morton_tree.h:227-243. -/
def insertConv {W : Type} (conv : W → Item V) (t : Tree V) (xs : List W) (resetId : Bool) : Tree V :=
  ⟨insertConvLoop conv resetId t.items xs, false⟩

/-- `sort()`, morton_tree.h:248-255. -/
def sort (srt : List (Item V) → List (Item V)) (t : Tree V) : Tree V := ⟨srt t.items, true⟩

/-- `if (!ordered_) sort();`, morton_tree.h:132-134, 152-154, 263-265. -/
def ensureSorted (srt : List (Item V) → List (Item V)) (t : Tree V) : Tree V := if !t.ordered then sort srt t else t

/-- `std::lower_bound` (`cond x` is `comp(x, val)`) and `std::upper_bound` (`cond x` is `!comp(val, x)`): bisection of
`[first, first + len)`, morton_tree.h:140, 272-273, 343-348. -/
def bisect {α : Type} (l : List α) (cond : α → Bool) (first len : Nat) : Nat :=
  if len = 0 then first
  else
    let half := len >>> 1
    let middle := first + half
    match l[middle]? with
    | some x => if cond x then bisect l cond (middle + 1) (len - half - 1) else bisect l cond first half
    | none => first
termination_by len
decreasing_by all_goals (simp only [Nat.shiftRight_eq_div_pow] at *; omega)

/-- `std::lower_bound(begin, end, q, compareItems)`, morton_tree.h:140, 273, 343-344. -/
def lowerBound (cmp : V → V → Bool) (items : List (Item V)) (q : V) : Nat :=
  bisect items (fun x => cmp x.values q) 0 items.length

/-- `std::upper_bound(begin, end, q, compareItems)`, morton_tree.h:272, 348. -/
def upperBound (cmp : V → V → Bool) (items : List (Item V)) (q : V) : Nat :=
  bisect items (fun x => !cmp q x.values) 0 items.length

/-- `findItem`, morton_tree.h:131-141. -/
def findItem (srt : List (Item V) → List (Item V)) (cmp : V → V → Bool) (t : Tree V) (q : V) : Tree V × Nat :=
  let t := ensureSorted srt t
  (t, lowerBound cmp t.items q)

/-- `*it`, morton_tree.h:163, 270-276, 341. -/
def deref (items : List (Item V)) (p : Nat) : Outcome (Item V) :=
  match items[p]? with
  | some x => .ok x
  | none => .error (.ub .outOfBounds)

/-- `computeLevel(first, last)`, morton_tree.h:151-164; decreasing `begin()` is undefined behaviour. -/
def computeLevel (srt : List (Item V) → List (Item V)) (dist : V → V → Int) (t : Tree V) (first last : Nat) :
    Outcome (Tree V × Int) := do
  let t := ensureSorted srt t
  let last ← if last ≠ first then (if last = 0 then .error (.ub .iterInvalid) else .ok (last - 1)) else .ok last
  let a ← deref t.items first
  let b ← deref t.items last
  return (t, dist a.values b.values)

/-- Result of `Traits::split`: the corners `low`, `mid`, `upp`, morton_tree.h:341. -/
structure Corners (V : Type) where
  low : V
  mid : V
  upp : V

/-- `findTreeBucket`, morton_tree.h:337-353; line 349 dereferences the three results. -/
def findTreeBucket (cmp : V → V → Bool) (split : V → V → Outcome (Corners V)) (items : List (Item V)) (first last : Nat) :
    Outcome (Nat × Nat × Nat) := do
  let f ← deref items first
  let l ← deref items last
  let c ← split f.values l.values
  let low := lowerBound cmp items c.low
  let mid := lowerBound cmp items c.mid
  let upp := upperBound cmp items c.upp
  let _ ← deref items low
  let _ ← deref items mid
  let _ ← deref items upp
  return (low, mid, upp)

/-- The `while` loop of `searchInBox`, morton_tree.h:279-312; `n` is `10 - count`; the head of the list is the back of the
queue. -/
def searchLoop (cmp : V → V → Bool) (split : V → V → Outcome (Corners V)) (items : List (Item V)) :
    Nat → List (Nat × Nat) → List Nat → Outcome (List Nat)
  | 0, _, out => .ok out
  | _ + 1, [], out => .ok out
  | n + 1, cur :: queue, out => do
    let (low, mid, upp) ← findTreeBucket cmp split items cur.1 cur.2
    if cur.1 = low ∧ cur.2 = upp then
      if low ≤ upp then searchLoop cmp split items n queue (out ++ List.range' low (upp - low))
      else .error (.ub .outOfBounds)
    else
      let queue := if cur.1 ≠ mid then (cur.1, mid) :: queue else queue
      let queue := if mid ≠ cur.2 then (mid, cur.2) :: queue else queue
      searchLoop cmp split items n queue out

/-- `searchInBox(boxMin, boxMax, items)`, morton_tree.h:257-313: the positions appended to `items`. -/
def searchInBox (srt : List (Item V) → List (Item V)) (cmp : V → V → Bool) (split : V → V → Outcome (Corners V)) (t : Tree V)
    (boxMin boxMax : V) : Outcome (Tree V × List Nat) := do
  let t := ensureSorted srt t
  let first := upperBound cmp t.items boxMin
  let second := lowerBound cmp t.items boxMax
  let _ ← deref t.items first
  let _ ← deref t.items second
  let out ← searchLoop cmp split t.items 10 [(first, second)] []
  return (t, out)

/-! ### Integer coordinates: MortonTraits, morton_sort.h:463-489 -/

open Verif.Morton Verif.NumericTraits

/-- `MortonTraits<I, Dim>::split`, morton_sort.h:480-487. -/
def splitInt (shlNeg : Outcome Int) (t : ITy) (dim : Nat) (v1 v2 : Nat → BitVec t.w) : Outcome (Corners (Nat → BitVec t.w)) := do
  let s ← mortonSplitInt shlNeg t dim v1 v2
  return ⟨s.low, s.mid, s.upp⟩

/-- The operations that change a tree, morton_tree.h:175-255. -/
inductive Op (V : Type)
  | insert (x : Item V) (resetId : Bool)
  | insertRange (xs : List (Item V)) (resetId : Bool)
  | insertConv (xs : List (Item V)) (resetId : Bool)
  | findItem (q : V)

/-- One operation (the converter is applied beforehand), morton_tree.h:175-255. -/
def step (srt : List (Item V) → List (Item V)) (cmp : V → V → Bool) (t : Tree V) : Op V → Tree V
  | .insert x r => insert t x r
  | .insertRange xs r => insertRange t xs r
  | .insertConv xs r => insertConv id t xs r
  | .findItem q => (findItem srt cmp t q).1

/-- A history, morton_tree.h:175-255. -/
def run (srt : List (Item V) → List (Item V)) (cmp : V → V → Bool) (h : List (Op V)) : Tree V := h.foldl (step srt cmp) new

end Verif.MortonTree
