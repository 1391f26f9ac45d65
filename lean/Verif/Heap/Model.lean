import Verif.Cxx.Vec

/-!
Model of common/include/rofl/common/min_max_heap.h with `Container = std::vector`.
`cmp` is the comparator functor `cmp_`. The mixed `int`/`size_t` positions are natural numbers: the heap holds at most
2^31 elements (WidthModel.lean has the positions of the code). Every access to the storage is checked; `ROFL_ASSERT` stops the program (macros.h).
The functions that come in a "min" and a "max" version with exchanged arguments of the comparator share a helper with the
parameter `better` (`better a b`: `a` is to be preferred to `b`).
-/
namespace Verif.Heap
open Verif
variable {α : Type}

/-- `parent`, min_max_heap.h:188-190, for positive arguments. -/
def parent (c : Nat) : Nat := (c - 1) >>> 1

/-- `level`, min_max_heap.h:179-186. -/
def level (i : Nat) : Nat := if i > 0 then level (parent i) + 1 else 0
termination_by i
decreasing_by unfold parent; rw [Nat.shiftRight_eq_div_pow]; omega

/-- `childLeft`, min_max_heap.h:196-198. -/
def childLeft (p : Nat) : Nat := (p <<< 1) + 1

/-- `grandparent`, min_max_heap.h:204-206, for arguments greater than 2. -/
def grandparent (c : Nat) : Nat := (c - 3) >>> 2

/-- `grandchild(p, pos)`, min_max_heap.h:208-210. -/
def grandchild (p pos : Nat) : Nat := (p <<< 2) + 3 + pos

/-- `hasParent`, min_max_heap.h:228-230. -/
def hasParent (i : Nat) : Bool := decide (i > 0)

/-- `hasGrandparent`, min_max_heap.h:232-234. -/
def hasGrandparent (i : Nat) : Bool := decide (i > 2)

/-- `std::swap(data_[i], data_[j])`, min_max_heap.h:90, 103, 335, 345, 364. -/
def swap (v : Vec α) (i j : Nat) : Outcome (Vec α) := do
  let x ← v.get i
  let y ← v.get j
  let v ← v.set i y
  v.set j x

/-- Common part of `childMin` and `childMax`, min_max_heap.h:248-268. -/
def childBest (better : α → α → Bool) (v : Vec α) (i : Nat) : Outcome Nat := do
  let ibest := childLeft i
  let ichild := ibest + 1
  if ichild < v.len then
    let c ← v.get ichild
    let b ← v.get ibest
    return if better c b then ichild else ibest
  else return ibest

/-- `childMin`, min_max_heap.h:248-255. -/
def childMin (cmp : α → α → Bool) (v : Vec α) (i : Nat) : Outcome Nat := childBest (fun a b => cmp a b) v i

/-- `childMax`, min_max_heap.h:261-268. -/
def childMax (cmp : α → α → Bool) (v : Vec α) (i : Nat) : Outcome Nat := childBest (fun a b => cmp b a) v i

/-- Loop of `grandchildMin` and `grandchildMax`; `n` is the number of remaining iterations, `igch + 4 - j`, min_max_heap.h:277-281, 293-298. -/
def grandchildLoop (better : α → α → Bool) (v : Vec α) : Nat → Nat → Nat → Outcome Nat
  | 0, _, ibest => .ok ibest
  | n + 1, j, ibest =>
    if j < v.len then do
      let c ← v.get j
      let b ← v.get ibest
      grandchildLoop better v n (j + 1) (if better c b then j else ibest)
    else .ok ibest

/-- Common part of `grandchildMin` and `grandchildMax`, min_max_heap.h:274-301. -/
def grandchildBest (better : α → α → Bool) (v : Vec α) (i : Nat) : Outcome Nat :=
  grandchildLoop better v 3 (grandchild i 0 + 1) (grandchild i 0)

/-- `grandchildMin`, min_max_heap.h:274-283. -/
def grandchildMin (cmp : α → α → Bool) (v : Vec α) (i : Nat) : Outcome Nat := grandchildBest (fun a b => cmp a b) v i

/-- `grandchildMax`, min_max_heap.h:289-301. -/
def grandchildMax (cmp : α → α → Bool) (v : Vec α) (i : Nat) : Outcome Nat := grandchildBest (fun a b => cmp b a) v i

/-- The two `while` loops of `heapUp`, min_max_heap.h:333-341 (`cond a b` is `cmp_(a, b)`) and 343-351 (`!cmp_(a, b)`):
`t` is `imin` or `imax`. Result: the storage and the position `i`. -/
def upLoop (cond : α → α → Bool) : Nat → Vec α → Nat → Nat → Outcome (Vec α × Nat)
  | 0, _, _, _ => .error .fuel
  | fuel + 1, v, i, t =>
    if t < v.len then do
      let x ← v.get i
      let y ← v.get t
      if cond x y then
        let v ← swap v i t
        upLoop cond fuel v t (if hasGrandparent t then grandparent t else v.len)
      else return (v, i)
    else return (v, i)

/-- `heapUp`, min_max_heap.h:312-352. -/
def heapUp (cmp : α → α → Bool) (v : Vec α) (i : Nat) : Outcome (Vec α) := do
  let onLevelMin := level i % 2 == 0
  let imin :=
    if onLevelMin then (if hasGrandparent i then grandparent i else v.len) else (if hasParent i then parent i else v.len)
  let imax :=
    if onLevelMin then (if hasParent i then parent i else v.len) else (if hasGrandparent i then grandparent i else v.len)
  let (v, i) ← upLoop (fun a b => cmp a b) (i + 2) v i imin
  let (v, _) ← upLoop (fun a b => !cmp a b) (i + v.len + 2) v i imax
  return v

/-- Condition of the first branch of `heapDownMin` (min_max_heap.h:363) and `heapDownMax` (387), with short-circuit. -/
def grandWins (better : α → α → Bool) (v : Vec α) (icurr ichild igrand : Nat) : Outcome Bool :=
  if igrand < v.len then do
    let g ← v.get igrand
    let c ← v.get icurr
    if better g c then do
      let h ← v.get ichild
      return better g h
    else return false
  else return false

/-- Condition of the second branch, min_max_heap.h:369, 396. -/
def childWins (better : α → α → Bool) (v : Vec α) (icurr ichild : Nat) : Outcome Bool :=
  if ichild < v.len then do
    let h ← v.get ichild
    let c ← v.get icurr
    return better h c
  else return false

/-- Exchange of the moved element with its new parent, min_max_heap.h:365-367, 391-394. -/
def fixParent (better : α → α → Bool) (v : Vec α) (igrand : Nat) : Outcome (Vec α) := do
  let p ← v.get (parent igrand)
  let g ← v.get igrand
  if better p g then swap v (parent igrand) igrand else return v

/-- Common part of `heapDownMin` and `heapDownMax`; `cont` says if the loop goes on after the exchange with a child, min_max_heap.h:354-403. -/
def heapDownLoop (better : α → α → Bool) (cont : Bool) : Nat → Vec α → Nat → Outcome (Vec α)
  | 0, _, _ => .error .fuel
  | fuel + 1, v, icurr =>
    if icurr < v.len then do
      let ichild ← childBest better v icurr
      let igrand ← grandchildBest better v icurr
      let g ← grandWins better v icurr ichild igrand
      if g then
        let v ← swap v icurr igrand
        let v ← fixParent better v igrand
        heapDownLoop better cont fuel v igrand
      else
        let c ← childWins better v icurr ichild
        if c then
          let v ← swap v icurr ichild
          if cont then heapDownLoop better cont fuel v ichild else return v
        else return v
    else return v

/-- `heapDownMin`, min_max_heap.h:354-376: the loop goes on from the child (line 371). -/
def heapDownMin (cmp : α → α → Bool) (v : Vec α) (i : Nat) : Outcome (Vec α) :=
  heapDownLoop (fun a b => cmp a b) true (v.len + 1) v i

/-- `heapDownMax`, min_max_heap.h:378-403: the loop stops after the exchange with a child (line 398). -/
def heapDownMax (cmp : α → α → Bool) (v : Vec α) (i : Nat) : Outcome (Vec α) :=
  heapDownLoop (fun a b => cmp b a) false (v.len + 1) v i

/-- `data_.pop_back()`, min_max_heap.h:91, 100, 104. -/
def popBack (v : Vec α) : Vec α := ⟨v.len - 1, v.val⟩

/-- `push`, min_max_heap.h:81-84. -/
def push (cmp : α → α → Bool) (v : Vec α) (x : α) : Outcome (Vec α) :=
  let v := v.push x
  heapUp cmp v (v.len - 1)

/-- `popTop`, min_max_heap.h:88-93. -/
def popTop (cmp : α → α → Bool) (v : Vec α) : Outcome (Vec α) :=
  if v.len = 0 then .error .abort else do
    let v ← swap v 0 (v.len - 1)
    heapDownMin cmp (popBack v) 0

/-- `popBottom`, min_max_heap.h:97-107. -/
def popBottom (cmp : α → α → Bool) (v : Vec α) : Outcome (Vec α) :=
  if v.len = 0 then .error .abort
  else if v.len = 1 then .ok (popBack v)
  else do
    let imax ← childMax cmp v 0
    let v ← swap v imax (v.len - 1)
    heapDownMax cmp (popBack v) imax

/-- `top`, min_max_heap.h:111-114. -/
def top (v : Vec α) : Outcome α := if v.len = 0 then .error .abort else v.get 0

/-- `bottom`, min_max_heap.h:118-125. -/
def bottom (cmp : α → α → Bool) (v : Vec α) : Outcome α :=
  if v.len = 0 then .error .abort
  else if v.len = 1 then v.get 0
  else do
    let i ← childMax cmp v 0
    v.get i

/-- `nextTop`, min_max_heap.h:129-138. -/
def nextTop (cmp : α → α → Bool) (v : Vec α) : Outcome α :=
  if v.len = 0 then .error .abort
  else if v.len = 1 then v.get 0
  else if v.len < 4 then do
    let i ← childMin cmp v 0
    v.get i
  else do
    let i ← grandchildMin cmp v 0
    v.get i

/-- `nextBottom`, min_max_heap.h:142-149. -/
def nextBottom (cmp : α → α → Bool) (v : Vec α) : Outcome α :=
  if v.len = 0 then .error .abort
  else if v.len < 3 then v.get 0
  else do
    let i ← childMin cmp v 0
    v.get i

/-- The operations that change the heap, min_max_heap.h:81-107. -/
inductive Op (α : Type)
  | push (x : α)
  | popTop
  | popBottom
  deriving DecidableEq, Repr

/-- One operation, min_max_heap.h:81-107. -/
def step (cmp : α → α → Bool) (v : Vec α) : Op α → Outcome (Vec α)
  | .push x => push cmp v x
  | .popTop => popTop cmp v
  | .popBottom => popBottom cmp v

/-- A history, from the empty heap (constructor, min_max_heap.h:47-56); `z` stands for the meaningless values. -/
def run (cmp : α → α → Bool) (z : α) (h : List (Op α)) : Outcome (Vec α) := h.foldlM (step cmp) (Vec.empty z)

end Verif.Heap
