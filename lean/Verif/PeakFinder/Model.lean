import Verif.Interval.Model
import Verif.Heap.Model

/-!
Model of common/include/rofl/common/peak_finder_d.h for `Index = int`: a window slides over the cells of the domain in
boustrophedon order, a min-max heap holds the cells of the window (and stale cells), a second heap the peaks found.
The values `map(indices)` are a total function: its values outside of the domain are immaterial (C141).
The raster loops first list the cells and then push them (`push` cannot fail, so that the order is immaterial).
-/
namespace Verif.PeakFinder
open Verif Verif.Interval
variable {V : Type}

/-- Members of `PeakFinderD`, peak_finder_d.h:197-201. -/
structure Finder (V : Type) where
  comp : V → V → Bool
  domain : Interval
  iwin : List Int
  valueMin : V
  enableFilterMinValue : Bool

/-- Constructors, peak_finder_d.h:59-68; `zero` is `Value(0)`. -/
def Finder.new (dim : Nat) (zero : V) (comp : V → V → Bool) : Finder V := ⟨comp, Interval.new dim, List.replicate dim 0, zero, false⟩

/-- `setDomain(imin, imax)`, peak_finder_d.h:84-86. -/
def Finder.setDomainMinMax (f : Finder V) (imin imax : List Int) : Outcome (Finder V) := do
  let d ← initMinMax imin imax
  return { f with domain := d }

/-- `setDomain(isize)`, peak_finder_d.h:94-98. -/
def Finder.setDomainSize (f : Finder V) (isize : List Int) : Finder V :=
  { f with domain := initBounds (List.replicate isize.length 0) isize }

/-- `setDomainCentered`, peak_finder_d.h:107-109. -/
def Finder.setDomainCentered (f : Finder V) (icenter isize : List Int) : Outcome (Finder V) := do
  let d ← initCentered icenter isize
  return { f with domain := d }

/-- `setPeakWindow`, peak_finder_d.h:115-117. -/
def Finder.setPeakWindow (f : Finder V) (iwin : List Int) : Finder V := { f with iwin := iwin }

/-- `enableFilterPeakMin`, peak_finder_d.h:119-122. -/
def Finder.enableFilterPeakMin (f : Finder V) (on : Bool) (valueMin : V) : Finder V :=
  { f with enableFilterMinValue := on, valueMin := valueMin }

/-- `indicesCmp`, peak_finder_d.h:130-132. -/
def Finder.cmp (f : Finder V) (map : List Int → V) (i j : List Int) : Bool := f.comp (map i) (map j)

/-- Loop of `findIncrement`, peak_finder_d.h:207-213, from coordinate `d` on; `std::abs` overflows on the smallest `int`. -/
def findIncrementLoop (dimMax : Nat) (incrMax : Int) : Nat → List Int → List Int → Outcome (Nat × Int)
  | _, [], [] => .ok (dimMax, incrMax)
  | d, p :: ps, c :: cs => do
    let incr ← Cxx.int (c - p)
    let a ← Cxx.int incr.natAbs
    if a > incrMax.natAbs then findIncrementLoop d incr (d + 1) ps cs else findIncrementLoop dimMax incrMax (d + 1) ps cs
  | _, _, _ => oob

/-- `findIncrement`, peak_finder_d.h:203-214: the coordinate with the largest increment and the increment. -/
def findIncrement (iprev icurr : List Int) : Outcome (Nat × Int) := findIncrementLoop 0 0 0 iprev icurr

/-- `for (it = iv.beginRaster(); it != iv.endRaster(); ++it) windowItems.push(*it);`, peak_finder_d.h:146-148, 160-162. -/
def pushCells (cmp : List Int → List Int → Bool) (items : Vec (List Int)) (iv : Interval) : Outcome (Vec (List Int)) := do
  let cells ← visit rasterGetIndices iv (size iv + 1)
  cells.foldlM (Heap.push cmp) items

/-- `while (!windowItems.empty() && !windowInterval.inside(windowItems.top())) windowItems.popTop();`,
peak_finder_d.h:167-169. -/
def evict (cmp : List Int → List Int → Bool) (window : Interval) : Nat → Vec (List Int) → Outcome (Vec (List Int))
  | 0, _ => .error .fuel
  | fuel + 1, items =>
    if items.len = 0 then .ok items else do
      let t ← Heap.top items
      let b ← inside window t
      if b then return items else do
        let items ← Heap.popTop cmp items
        evict cmp window fuel items

/-- Local variables of `detect` that survive an iteration, peak_finder_d.h:134-137. -/
structure State where
  items : Vec (List Int)
  maxima : Vec (List Int)
  window : Interval
  prev : List Int

/-- The tests on the current cell, peak_finder_d.h:174-186: is it to be inserted in `maxima`? -/
def isPeak (f : Finder V) (map : List Int → V) (items : Vec (List Int)) (cur : List Int) : Outcome Bool :=
  if !f.enableFilterMinValue || f.comp (map cur) f.valueMin then
    if items.len = 0 then .ok false else do
      let t ← Heap.top items
      if f.comp (map t) (map cur) then return false else do
        let n ← Heap.nextTop (f.cmp map) items
        return f.comp (map cur) (map n)
  else .ok false

/-- Body of the loop of `detect`, peak_finder_d.h:155-187. -/
def body (f : Finder V) (map : List Int → V) (s : State) (cur : List Int) : Outcome State := do
  let (dimMax, incrMax) ← findIncrement s.prev cur
  let st ← stacked s.window dimMax incrMax
  let novel ← intersect st f.domain
  let items ← pushCells (f.cmp map) s.items novel
  let window ← translate s.window dimMax incrMax
  let items ← evict (f.cmp map) window (items.len + 1) items
  let peak ← isPeak f map items cur
  let maxima ← pushPeak peak s.maxima
  return ⟨items, maxima, window, cur⟩
where
  /-- peak_finder_d.h:182 -/
  pushPeak (peak : Bool) (maxima : Vec (List Int)) : Outcome (Vec (List Int)) :=
    if peak then Heap.push (f.cmp map) maxima cur else .ok maxima

/-- The loop `for (; domainIt != domainEnd; ++domainIt)` of `detect`, peak_finder_d.h:154-188. -/
def domainLoop (f : Finder V) (map : List Int → V) (e : Iter) : Nat → Iter → State → Outcome State
  | 0, _, _ => .error .fuel
  | fuel + 1, it, s =>
    if it.pos ≠ e.pos then do
      let s ← body f map s it.indices
      let nx ← it.next boustroGetIndices f.domain
      domainLoop f map e fuel nx s
    else .ok s

/-- `while (!maxima.empty()) { insertMax = maxima.top(); maxima.popTop(); }`, peak_finder_d.h:190-193. -/
def drain (cmp : List Int → List Int → Bool) : Nat → Vec (List Int) → Outcome (List (List Int))
  | 0, _ => .error .fuel
  | fuel + 1, maxima =>
    if maxima.len = 0 then .ok [] else do
      let t ← Heap.top maxima
      let maxima ← Heap.popTop cmp maxima
      let r ← drain cmp fuel maxima
      return t :: r

/-- State before the loop, peak_finder_d.h:144-150, `first` being the first cell of the domain. -/
def initState (f : Finder V) (map : List Int → V) (first : List Int) : Outcome State := do
  let window ← initCentered first f.iwin
  let novel ← intersect window f.domain
  let items ← pushCells (f.cmp map) (Vec.empty []) novel
  return ⟨items, Vec.empty [], window, first⟩

/-- `detect`, peak_finder_d.h:124-194: the cells written through the insert iterator, in this order. -/
def detect (f : Finder V) (map : List Int → V) : Outcome (List (List Int)) := do
  let it ← begin boustroGetIndices f.domain
  let e ← «end» boustroGetIndices f.domain
  Cxx.assert (it.pos ≠ e.pos)
  let s ← initState f map it.indices
  let it ← it.next boustroGetIndices f.domain
  let s ← domainLoop f map e (size f.domain + 1) it s
  drain (f.cmp map) (s.maxima.len + 1) s.maxima

end Verif.PeakFinder
