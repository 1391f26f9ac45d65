import Verif.Cxx.Basic

/-!
Model of common/include/rofl/common/interval_indices.h for `Index = int`.

The two arrays `min_` and `dimensions_` of length `Dim` are one list of axes, entry `d` of the list holding `min_[d]` and
`dimensions_[d]`; an array of indices is a list of `Dim` integers. Loops over `d` are recursions over the lists, in the
direction of the loop. When the lengths differ (impossible in the code, `Dim` being a template parameter) the model
reports an access out of bounds.
-/
namespace Verif.Interval
open Verif

/-- `min_[d]` and `dimensions_[d]`, interval_indices.h:259-275. -/
structure Axis where
  min : Int
  dim : Int
  deriving DecidableEq, Repr

/-- `IntervalIndices<Dim, int>`, interval_indices.h:197-228, 488-491. -/
abbrev Interval := List Axis

/-- Access outside an array, interval_indices.h:66-155. -/
def oob {α : Type} : Outcome α := .error (.ub .outOfBounds)

/-! ### Indexers -/

/-- `StaticRasterIndexer::getPos`, interval_indices.h:68-70, 82-84. -/
def staticGetPos : Interval → List Int → Outcome Int
  | [], _ => .ok 0
  | _ :: _, [] => oob
  | a :: iv, i :: is => do
    let x ← Cxx.int (i - a.min)
    let r ← staticGetPos iv is
    let y ← Cxx.int (a.dim * r)
    Cxx.int (x + y)

/-- `StaticRasterIndexer::getIndices`, interval_indices.h:72-76, 86-88. -/
def staticGetIndices (pos : Int) : Interval → Outcome (List Int)
  | [] => .ok []
  | a :: iv => do
    let x ← Cxx.imod pos a.dim
    let i ← Cxx.int (a.min + x)
    let q ← Cxx.idiv pos a.dim
    let is ← staticGetIndices q iv
    return i :: is

/-- Loop of `RasterIndexer::getIndices`, interval_indices.h:107-110; `res` is a `size_t`, so that `dimensions[d]` and
`minval[d]` are converted to `size_t` and the sum is converted back to `int`. -/
def rasterLoop (res : Nat) : Interval → Outcome (List Int)
  | [] => .ok []
  | a :: iv =>
    if Cxx.toSize a.dim = 0 then .error (.ub .divZero) else do
      let i := Cxx.ofSize ((Cxx.toSize a.min + res % Cxx.toSize a.dim) % 18446744073709551616)
      let is ← rasterLoop (res / Cxx.toSize a.dim) iv
      return i :: is

/-- `RasterIndexer::getIndices`, interval_indices.h:104-112. -/
def rasterGetIndices (iv : Interval) (pos : Int) : Outcome (List Int) := rasterLoop (Cxx.toSize pos) iv

/-- `RasterIndexer::getPos`, interval_indices.h:114-120: the loop runs from the last coordinate to the first. -/
def rasterGetPos : Interval → List Int → Outcome Int
  | [], _ => .ok 0
  | _ :: _, [] => oob
  | a :: iv, i :: is => do
    let index ← rasterGetPos iv is
    let x ← Cxx.int (index * a.dim)
    let y ← Cxx.int (x + i)
    Cxx.int (y - a.min)

/-- First loop of `BoustrophedonIndexer::getIndices`, interval_indices.h:138-142. -/
def boustroDigits (res : Int) : Interval → Outcome (List Int)
  | [] => .ok []
  | a :: iv => do
    let x ← Cxx.imod res a.dim
    let q ← Cxx.idiv res a.dim
    let xs ← boustroDigits q iv
    return x :: xs

/-- Second loop, interval_indices.h:143-153, from the last coordinate to the first: the variable `odd` and the indices. -/
def boustroFold : Interval → List Int → Outcome (Int × List Int)
  | [], _ => .ok (0, [])
  | _ :: _, [] => oob
  | a :: iv, x :: xs => do
    let (odd, is) ← boustroFold iv xs
    let odd' := x.tmod 2
    let y ← if odd ≠ 0 then do let z ← Cxx.int (a.dim - x); Cxx.int (z - 1) else .ok x
    let i ← Cxx.int (y + a.min)
    return (odd', i :: is)

/-- `BoustrophedonIndexer::getIndices`, interval_indices.h:136-156. -/
def boustroGetIndices (iv : Interval) (pos : Int) : Outcome (List Int) := do
  let xs ← boustroDigits pos iv
  let r ← boustroFold iv xs
  return r.2

/-! ### IntervalIndices -/

/-- Default constructor, interval_indices.h:214-217. -/
def new (dim : Nat) : Interval := List.replicate dim ⟨0, 0⟩

/-- Constructor and `initBounds`, interval_indices.h:227-228, 244-247. -/
def initBounds (min dimensions : List Int) : Interval := List.zipWith Axis.mk min dimensions

/-- `initCentered`, interval_indices.h:257-262. -/
def initCentered : List Int → List Int → Outcome Interval
  | [], _ => .ok []
  | _ :: _, [] => oob
  | c :: cs, w :: ws => do
    let m ← Cxx.int (c - w)
    let t ← Cxx.int (2 * w)
    let d ← Cxx.int (t + 1)
    let iv ← initCentered cs ws
    return ⟨m, d⟩ :: iv

/-- `initMinMax`, interval_indices.h:272-277. -/
def initMinMax : List Int → List Int → Outcome Interval
  | [], _ => .ok []
  | _ :: _, [] => oob
  | m :: ms, x :: xs => do
    let t ← Cxx.int (x - m)
    let d ← Cxx.int (t + 1)
    let iv ← initMinMax ms xs
    return ⟨m, d⟩ :: iv

/-- `max`, interval_indices.h:310-316. -/
def max : Interval → Outcome (List Int)
  | [] => .ok []
  | a :: iv => do
    let t ← Cxx.int (a.min + a.dim)
    let m ← Cxx.int (t - 1)
    let ms ← max iv
    return m :: ms

/-- `last`, interval_indices.h:330-336. -/
def last : Interval → Outcome (List Int)
  | [] => .ok []
  | a :: iv => do
    let t ← Cxx.int (a.min + a.dim)
    let ms ← last iv
    return t :: ms

/-- `empty`, interval_indices.h:341-348. -/
def empty : Interval → Bool
  | [] => false
  | a :: iv => if a.dim ≤ 0 then true else empty iv

/-- `size`, interval_indices.h:353-359: the product is computed in `size_t`. -/
def sizeLoop (s : Nat) : Interval → Nat
  | [] => s
  | a :: iv => sizeLoop (s * Cxx.toSize a.dim % 18446744073709551616) iv

/-- `size`, interval_indices.h:353-359. -/
def size (iv : Interval) : Nat := sizeLoop 1 iv

/-- `inside`, interval_indices.h:364-371; the sum is evaluated only if the first test fails. -/
def inside : Interval → List Int → Outcome Bool
  | [], _ => .ok true
  | _ :: _, [] => oob
  | a :: iv, i :: is =>
    if i < a.min then .ok false else do
      let t ← Cxx.int (a.min + a.dim)
      if i ≥ t then return false else inside iv is

/-- First loop of `intersect`, interval_indices.h:384-387: `intersMin` and `intersMax`. -/
def intersectLoop : Interval → Interval → Outcome (List Int × List Int)
  | [], _ => .ok ([], [])
  | _ :: _, [] => oob
  | a :: iv, b :: jv => do
    let x ← Cxx.int (a.min + a.dim)
    let y ← Cxx.int (b.min + b.dim)
    let m ← Cxx.int (Min.min x y - 1)
    let (mins, maxs) ← intersectLoop iv jv
    return (Max.max a.min b.min :: mins, m :: maxs)

/-- `intersect`, interval_indices.h:376-395. -/
def intersect (iv jv : Interval) : Outcome Interval :=
  if empty iv then .ok iv
  else if empty jv then .ok jv
  else do
    let (mins, maxs) ← intersectLoop iv jv
    let r ← initMinMax mins maxs
    return r.map fun a => if a.dim < 0 then ⟨a.min, 0⟩ else a

/-- `stacked(d, incr)`, interval_indices.h:405-419. -/
def stacked : Interval → Nat → Int → Outcome Interval
  | [], _, _ => .error .abort
  | a :: iv, 0, incr =>
    if incr ≥ 0 then do
      let m ← Cxx.int (a.min + a.dim)
      return ⟨m, incr⟩ :: iv
    else do
      let m ← Cxx.int (a.min + incr)
      let k ← Cxx.int (-incr)
      return ⟨m, k⟩ :: iv
  | a :: iv, d + 1, incr => do
    let r ← stacked iv d incr
    return a :: r

/-- `translate(d, incr)`, interval_indices.h:426-429. -/
def translate : Interval → Nat → Int → Outcome Interval
  | [], _, _ => .error .abort
  | a :: iv, 0, incr => do
    let m ← Cxx.int (a.min + incr)
    return ⟨m, a.dim⟩ :: iv
  | a :: iv, d + 1, incr => do
    let r ← translate iv d incr
    return a :: r

/-- `translate(t)`, interval_indices.h:435-439. -/
def translateVec : Interval → List Int → Outcome Interval
  | [], _ => .ok []
  | _ :: _, [] => oob
  | a :: iv, t :: ts => do
    let m ← Cxx.int (a.min + t)
    let r ← translateVec iv ts
    return ⟨m, a.dim⟩ :: r

/-! ### Iterators -/

/-- `IntervalIterator`, interval_indices.h:496-571: position and current indices; the interval is a parameter. -/
structure Iter where
  pos : Int
  indices : List Int
  deriving DecidableEq, Repr

/-- Constructor, interval_indices.h:511-518, for the indexing policy `ix`. -/
def Iter.mk' (ix : Interval → Int → Outcome (List Int)) (iv : Interval) (pos : Int) : Outcome Iter :=
  if !empty iv then do let is ← ix iv pos; return ⟨pos, is⟩
  else .ok ⟨pos, iv.map Axis.min⟩

/-- `operator++`, interval_indices.h:535-539. -/
def Iter.next (ix : Interval → Int → Outcome (List Int)) (iv : Interval) (it : Iter) : Outcome Iter := do
  let p ← Cxx.int (it.pos + 1)
  let is ← ix iv p
  return ⟨p, is⟩

/-- `beginRaster`, `beginBoustrophedon`, interval_indices.h:446-448, 463-465. -/
def begin (ix : Interval → Int → Outcome (List Int)) (iv : Interval) : Outcome Iter := Iter.mk' ix iv 0

/-- `endRaster`, `endBoustrophedon`, interval_indices.h:455-457, 471-473: the `size_t` is converted to `Index`. -/
def «end» (ix : Interval → Int → Outcome (List Int)) (iv : Interval) : Outcome Iter := Iter.mk' ix iv (Cxx.ofSize (size iv))

/-- The loop `for (it = begin; it != end; ++it)` (comparison of positions, interval_indices.h:563-565), collecting `*it`. -/
def visitLoop (ix : Interval → Int → Outcome (List Int)) (iv : Interval) (e : Iter) : Nat → Iter → Outcome (List (List Int))
  | 0, _ => .error .fuel
  | fuel + 1, it =>
    if it.pos ≠ e.pos then do
      let nx ← it.next ix iv
      let r ← visitLoop ix iv e fuel nx
      return it.indices :: r
    else .ok []

/-- All the cells visited from begin to end, interval_indices.h:440-473. -/
def visit (ix : Interval → Int → Outcome (List Int)) (iv : Interval) (fuel : Nat) : Outcome (List (List Int)) := do
  let b ← begin ix iv
  let e ← «end» ix iv
  visitLoop ix iv e fuel b

end Verif.Interval
