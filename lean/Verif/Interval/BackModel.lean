import Verif.Interval.Model

/-! Model of the other operators of the iterators of common/include/rofl/common/interval_indices.h, for `Index = int`. -/
namespace Verif.Interval
open Verif

/-- `operator--`, interval_indices.h:547-551. -/
def Iter.prev (ix : Interval → Int → Outcome (List Int)) (iv : Interval) (it : Iter) : Outcome Iter := do
  let p ← Cxx.int (it.pos - 1)
  let is ← ix iv p
  return ⟨p, is⟩

/-- `operator++(int)`, interval_indices.h:541-545: the returned copy and the iterator. -/
def Iter.postNext (ix : Interval → Int → Outcome (List Int)) (iv : Interval) (it : Iter) : Outcome (Iter × Iter) := do
  let nx ← it.next ix iv
  return (it, nx)

/-- `operator--(int)`, interval_indices.h:553-557: the returned copy and the iterator. -/
def Iter.postPrev (ix : Interval → Int → Outcome (List Int)) (iv : Interval) (it : Iter) : Outcome (Iter × Iter) := do
  let pv ← it.prev ix iv
  return (it, pv)

/-- The loop `for (it = end; it != begin; ) { --it; … *it … }` (comparison of positions, interval_indices.h:563-565), collecting `*it`. -/
def backLoop (ix : Interval → Int → Outcome (List Int)) (iv : Interval) (b : Iter) : Nat → Iter → Outcome (List (List Int))
  | 0, _ => .error .fuel
  | fuel + 1, it =>
    if it.pos ≠ b.pos then do
      let pv ← it.prev ix iv
      let r ← backLoop ix iv b fuel pv
      return pv.indices :: r
    else .ok []

/-- All the cells visited from end to begin, interval_indices.h:446-473, 547-551. -/
def visitBack (ix : Interval → Int → Outcome (List Int)) (iv : Interval) (fuel : Nat) : Outcome (List (List Int)) := do
  let b ← begin ix iv
  let e ← «end» ix iv
  backLoop ix iv b fuel e

/-- The loop `for (it = begin; it != end; ) … *it++ …` (interval_indices.h:541-545), collecting the cells. -/
def postLoop (ix : Interval → Int → Outcome (List Int)) (iv : Interval) (e : Iter) : Nat → Iter → Outcome (List (List Int))
  | 0, _ => .error .fuel
  | fuel + 1, it =>
    if it.pos ≠ e.pos then do
      let (tmp, nx) ← it.postNext ix iv
      let r ← postLoop ix iv e fuel nx
      return tmp.indices :: r
    else .ok []

/-- All the cells visited with the postfix operator, interval_indices.h:446-473, 541-545. -/
def visitPost (ix : Interval → Int → Outcome (List Int)) (iv : Interval) (fuel : Nat) : Outcome (List (List Int)) := do
  let b ← begin ix iv
  let e ← «end» ix iv
  postLoop ix iv e fuel b

end Verif.Interval
