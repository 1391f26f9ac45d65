import Verif.Heap.Model

/-!
Model of common/include/rofl/common/min_max_heap.h as in Model.lean, which also counts the calls of the comparator.
-/
namespace Verif.Heap
open Verif
variable {α : Type}

/-- A computation that counts the calls of `cmp_`, min_max_heap.h:177. -/
abbrev Counted (β : Type) := StateT Nat (Except Err) β

/-- A call of `cmp_`, min_max_heap.h:251, 264, 278, 295, 333, 343, 363-369, 387-396. -/
def ask (better : α → α → Bool) (a b : α) : Counted Bool := fun n => .ok (better a b, n + 1)

/-- An operation without comparisons (access, `std::swap`), min_max_heap.h:335. -/
def free {β : Type} (x : Outcome β) : Counted β := fun n => match x with
  | .ok r => .ok (r, n)
  | .error e => .error e

/-- `childMin` and `childMax`, min_max_heap.h:248-268. -/
def childBestC (better : α → α → Bool) (v : Vec α) (i : Nat) : Counted Nat := do
  let ibest := childLeft i
  let ichild := ibest + 1
  if ichild < v.len then
    let c ← free (v.get ichild)
    let b ← free (v.get ibest)
    let w ← ask better c b
    return if w then ichild else ibest
  else return ibest

/-- Loop of `grandchildMin` and `grandchildMax`, min_max_heap.h:277-281, 293-298. -/
def grandchildLoopC (better : α → α → Bool) (v : Vec α) : Nat → Nat → Nat → Counted Nat
  | 0, _, ibest => return ibest
  | n + 1, j, ibest =>
    if j < v.len then do
      let c ← free (v.get j)
      let b ← free (v.get ibest)
      let w ← ask better c b
      grandchildLoopC better v n (j + 1) (if w then j else ibest)
    else return ibest

/-- `grandchildMin` and `grandchildMax`, min_max_heap.h:274-301. -/
def grandchildBestC (better : α → α → Bool) (v : Vec α) (i : Nat) : Counted Nat :=
  grandchildLoopC better v 3 (grandchild i 0 + 1) (grandchild i 0)

/-- The two `while` loops of `heapUp`, min_max_heap.h:333-351. -/
def upLoopC (cond : α → α → Bool) : Nat → Vec α → Nat → Nat → Counted (Vec α × Nat)
  | 0, _, _, _ => free (.error .fuel)
  | fuel + 1, v, i, t =>
    if t < v.len then do
      let x ← free (v.get i)
      let y ← free (v.get t)
      let w ← ask cond x y
      if w then
        let v ← free (swap v i t)
        upLoopC cond fuel v t (if hasGrandparent t then grandparent t else v.len)
      else return (v, i)
    else return (v, i)

/-- `heapUp`, min_max_heap.h:312-352. -/
def heapUpC (cmp : α → α → Bool) (v : Vec α) (i : Nat) : Counted (Vec α) := do
  let onLevelMin := level i % 2 == 0
  let imin :=
    if onLevelMin then (if hasGrandparent i then grandparent i else v.len) else (if hasParent i then parent i else v.len)
  let imax :=
    if onLevelMin then (if hasParent i then parent i else v.len) else (if hasGrandparent i then grandparent i else v.len)
  let (v, i) ← upLoopC (fun a b => cmp a b) (i + 2) v i imin
  let (v, _) ← upLoopC (fun a b => !cmp a b) (i + v.len + 2) v i imax
  return v

/-- Condition of the first branch of `heapDownMin` and `heapDownMax`, min_max_heap.h:363, 387. -/
def grandWinsC (better : α → α → Bool) (v : Vec α) (icurr ichild igrand : Nat) : Counted Bool :=
  if igrand < v.len then do
    let g ← free (v.get igrand)
    let c ← free (v.get icurr)
    let w ← ask better g c
    if w then
      let h ← free (v.get ichild)
      ask better g h
    else return false
  else return false

/-- Condition of the second branch, min_max_heap.h:369, 396. -/
def childWinsC (better : α → α → Bool) (v : Vec α) (icurr ichild : Nat) : Counted Bool :=
  if ichild < v.len then do
    let h ← free (v.get ichild)
    let c ← free (v.get icurr)
    ask better h c
  else return false

/-- Exchange of the moved element with its new parent, min_max_heap.h:365-367, 391-394. -/
def fixParentC (better : α → α → Bool) (v : Vec α) (igrand : Nat) : Counted (Vec α) := do
  let p ← free (v.get (parent igrand))
  let g ← free (v.get igrand)
  let w ← ask better p g
  if w then free (swap v (parent igrand) igrand) else return v

/-- `heapDownMin` and `heapDownMax`, min_max_heap.h:354-403. -/
def heapDownLoopC (better : α → α → Bool) (cont : Bool) : Nat → Vec α → Nat → Counted (Vec α)
  | 0, _, _ => free (.error .fuel)
  | fuel + 1, v, icurr =>
    if icurr < v.len then do
      let ichild ← childBestC better v icurr
      let igrand ← grandchildBestC better v icurr
      let g ← grandWinsC better v icurr ichild igrand
      if g then
        let v ← free (swap v icurr igrand)
        let v ← fixParentC better v igrand
        heapDownLoopC better cont fuel v igrand
      else
        let c ← childWinsC better v icurr ichild
        if c then
          let v ← free (swap v icurr ichild)
          if cont then heapDownLoopC better cont fuel v ichild else return v
        else return v
    else return v

/-- `push`, min_max_heap.h:81-84. -/
def pushC (cmp : α → α → Bool) (v : Vec α) (x : α) : Counted (Vec α) :=
  let v := v.push x
  heapUpC cmp v (v.len - 1)

/-- `popTop`, min_max_heap.h:88-93. -/
def popTopC (cmp : α → α → Bool) (v : Vec α) : Counted (Vec α) :=
  if v.len = 0 then free (.error .abort) else do
    let v ← free (swap v 0 (v.len - 1))
    heapDownLoopC (fun a b => cmp a b) true ((popBack v).len + 1) (popBack v) 0

/-- `popBottom`, min_max_heap.h:97-107. -/
def popBottomC (cmp : α → α → Bool) (v : Vec α) : Counted (Vec α) :=
  if v.len = 0 then free (.error .abort)
  else if v.len = 1 then return popBack v
  else do
    let imax ← childBestC (fun a b => cmp b a) v 0
    let v ← free (swap v imax (v.len - 1))
    heapDownLoopC (fun a b => cmp b a) false ((popBack v).len + 1) (popBack v) imax

/-- One operation, min_max_heap.h:81-107. -/
def stepC (cmp : α → α → Bool) (v : Vec α) : Op α → Counted (Vec α)
  | .push x => pushC cmp v x
  | .popTop => popTopC cmp v
  | .popBottom => popBottomC cmp v

/-- A history, from the empty heap (min_max_heap.h:47-56); `z` stands for the meaningless values. -/
def runC (cmp : α → α → Bool) (z : α) (h : List (Op α)) : Counted (Vec α) := h.foldlM (stepC cmp) (Vec.empty z)

end Verif.Heap
