import Verif.Heap.Model

/-!
Model of common/include/rofl/common/min_max_heap.h as in Model.lean, but with the positions as the `int` and `size_t` values of the code: `heapUp`, `heapDownMin` and `heapDownMax` take
an `int`, the positions of children are computed in `size_t` (64 bits). `parent` and `grandparent` are only called with positive arguments and arguments above 2, for which nothing wraps.
-/
namespace Verif.Heap
open Verif
variable {α : Type}

/-- `childLeft` in `size_t`, min_max_heap.h:196-198. -/
def childLeftW (p : Nat) : Nat := ((p <<< 1) + 1) % 18446744073709551616

/-- `childMin` and `childMax` in `size_t`, min_max_heap.h:248-268. -/
def childBestW (better : α → α → Bool) (v : Vec α) (i : Nat) : Outcome Nat := do
  let ibest := childLeftW i
  let ichild := (ibest + 1) % 18446744073709551616
  if ichild < v.len then
    let c ← v.get ichild
    let b ← v.get ibest
    return if better c b then ichild else ibest
  else return ibest

/-- Loop of `grandchildMin` and `grandchildMax` in `size_t`; `stop` is `igch + 4`, min_max_heap.h:277-281, 293-298. -/
def grandchildLoopW (better : α → α → Bool) (v : Vec α) (stop : Nat) : Nat → Nat → Nat → Outcome Nat
  | 0, _, _ => .error .fuel
  | fuel + 1, j, ibest =>
    if j < stop ∧ j < v.len then do
      let c ← v.get j
      let b ← v.get ibest
      grandchildLoopW better v stop fuel ((j + 1) % 18446744073709551616) (if better c b then j else ibest)
    else .ok ibest

/-- `grandchildMin` and `grandchildMax` in `size_t`, min_max_heap.h:208-210, 274-301. -/
def grandchildBestW (better : α → α → Bool) (v : Vec α) (i : Nat) : Outcome Nat :=
  let igch := ((i <<< 2) + 3) % 18446744073709551616
  grandchildLoopW better v ((igch + 4) % 18446744073709551616) 4 ((igch + 1) % 18446744073709551616) igch

/-- The two `while` loops of `heapUp`, min_max_heap.h:333-351: `i` is an `int`, `t` (`imin` or `imax`) a `size_t`. -/
def upLoopW (cond : α → α → Bool) : Nat → Vec α → Int → Nat → Outcome (Vec α × Int)
  | 0, _, _, _ => .error .fuel
  | fuel + 1, v, i, t =>
    if t < v.len then do
      let x ← v.get (Cxx.toSize i)
      let y ← v.get t
      if cond x y then
        let v ← swap v (Cxx.toSize i) t
        upLoopW cond fuel v (Cxx.ofSize t) (if hasGrandparent t then grandparent t else v.len)
      else return (v, i)
    else return (v, i)

/-- `heapUp(int i)`, min_max_heap.h:312-352. -/
def heapUpW (cmp : α → α → Bool) (v : Vec α) (i : Int) : Outcome (Vec α) := do
  let j := Cxx.toSize i
  let onLevelMin := level j % 2 == 0
  let imin :=
    if onLevelMin then (if hasGrandparent j then grandparent j else v.len) else (if hasParent j then parent j else v.len)
  let imax :=
    if onLevelMin then (if hasParent j then parent j else v.len) else (if hasGrandparent j then grandparent j else v.len)
  let (v, i) ← upLoopW (fun a b => cmp a b) (j + 2) v i imin
  let (v, _) ← upLoopW (fun a b => !cmp a b) (Cxx.toSize i + v.len + 2) v i imax
  return v

/-- The loop of `heapDownMin` and `heapDownMax` in `size_t`, min_max_heap.h:357-375, 381-402. -/
def heapDownLoopW (better : α → α → Bool) (cont : Bool) : Nat → Vec α → Nat → Outcome (Vec α)
  | 0, _, _ => .error .fuel
  | fuel + 1, v, icurr =>
    if icurr < v.len then do
      let ichild ← childBestW better v icurr
      let igrand ← grandchildBestW better v icurr
      let g ← grandWins better v icurr ichild igrand
      if g then
        let v ← swap v icurr igrand
        let v ← fixParent better v igrand
        heapDownLoopW better cont fuel v igrand
      else
        let c ← childWins better v icurr ichild
        if c then
          let v ← swap v icurr ichild
          if cont then heapDownLoopW better cont fuel v ichild else return v
        else return v
    else return v

/-- `heapDownMin(int i)`, min_max_heap.h:354-376. -/
def heapDownMinW (cmp : α → α → Bool) (v : Vec α) (i : Int) : Outcome (Vec α) :=
  heapDownLoopW (fun a b => cmp a b) true (v.len + 1) v (Cxx.toSize i)

/-- `heapDownMax(int i)`, min_max_heap.h:378-403. -/
def heapDownMaxW (cmp : α → α → Bool) (v : Vec α) (i : Int) : Outcome (Vec α) :=
  heapDownLoopW (fun a b => cmp b a) false (v.len + 1) v (Cxx.toSize i)

/-- `push`, min_max_heap.h:81-84: `data_.size() - 1` is converted to `int`. -/
def pushW (cmp : α → α → Bool) (v : Vec α) (x : α) : Outcome (Vec α) :=
  let v := v.push x
  heapUpW cmp v (Cxx.ofSize (v.len - 1))

/-- `popTop`, min_max_heap.h:88-93. -/
def popTopW (cmp : α → α → Bool) (v : Vec α) : Outcome (Vec α) :=
  if v.len = 0 then .error .abort else do
    let v ← swap v 0 (v.len - 1)
    heapDownMinW cmp (popBack v) 0

/-- `popBottom`, min_max_heap.h:97-107: `imax` is converted to `int`. -/
def popBottomW (cmp : α → α → Bool) (v : Vec α) : Outcome (Vec α) :=
  if v.len = 0 then .error .abort
  else if v.len = 1 then .ok (popBack v)
  else do
    let imax ← childBestW (fun a b => cmp b a) v 0
    let v ← swap v imax (v.len - 1)
    heapDownMaxW cmp (popBack v) (Cxx.ofSize imax)

/-- One operation, min_max_heap.h:81-107. -/
def stepW (cmp : α → α → Bool) (v : Vec α) : Op α → Outcome (Vec α)
  | .push x => pushW cmp v x
  | .popTop => popTopW cmp v
  | .popBottom => popBottomW cmp v

/-- A history, from the empty heap (min_max_heap.h:47-56); `z` stands for the meaningless values. -/
def runW (cmp : α → α → Bool) (z : α) (h : List (Op α)) : Outcome (Vec α) := h.foldlM (stepW cmp) (Vec.empty z)

end Verif.Heap
