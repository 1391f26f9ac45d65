import Verif.Interval.Model
import Verif.LabelSet.Model
import Verif.Heap.Model

/-!
Model of the text written by `outIdx` and `IntervalIndices::print` (common/include/rofl/common/interval_indices.h), `LabelSet::print` (common/src/label_set.cpp) and
`MinMaxHeap::print` (common/include/rofl/common/min_max_heap.h). A text is a list of characters. The integers are of type `int` and the stream has its default format.
-/
namespace Verif.Text
open Verif

/-- A text, e.g. interval_indices.h:605. -/
abbrev Str := List Char

/-- The decimal digits of `n`, at most `fuel` of them, interval_indices.h:608 (`operator<<`). -/
def digits : (fuel : Nat) → Nat → Str
  | 0, _ => []
  | fuel + 1, n => if n < 10 then [Char.ofNat (48 + n)] else digits fuel (n / 10) ++ [Char.ofNat (48 + n % 10)]

/-- `out << i` for an unsigned integer, min_max_heap.h:162. -/
def natStr (n : Nat) : Str := digits (n + 1) n

/-- `out << i` for an `int`, interval_indices.h:608. -/
def intStr (i : Int) : Str := if i < 0 then '-' :: natStr i.natAbs else natStr i.natAbs

/-- The loop of `outIdx`, interval_indices.h:607-611, from index `d`; `len` is `D`. -/
def outIdxLoop (len : Nat) : (d : Nat) → List Int → Str
  | _, [] => []
  | d, x :: xs => intStr x ++ ((if d < len - 1 then [','] else []) ++ outIdxLoop len (d + 1) xs)

/-- `outIdx`, interval_indices.h:603-614. -/
def outIdx (indices : List Int) : Str := '[' :: (outIdxLoop indices.length 0 indices ++ [']'])

/-- The loop of `IntervalIndices::print`, interval_indices.h:480-484, on the minima and maxima. -/
def intervalLoop (len : Nat) : (d : Nat) → List (Int × Int) → Str
  | _, [] => []
  | d, (a, b) :: xs => intStr a ++ ':' :: (intStr b ++ ((if d < len - 1 then [','] else []) ++ intervalLoop len (d + 1) xs))

/-- `IntervalIndices::print`, interval_indices.h:478-486. -/
def intervalPrint (iv : Interval.Interval) : Outcome Str := do
  let ms ← Interval.max iv
  return '[' :: (intervalLoop iv.length 0 (List.zip (iv.map Interval.Axis.min) ms) ++ [']'])

/-- The loop of `LabelSet::print`, label_set.cpp:127-132; `first`: `it` is the begin. -/
def labelLoop : (first : Bool) → List Int → Str
  | _, [] => []
  | first, x :: xs => (if !first then [',', ' '] else []) ++ (intStr x ++ labelLoop false xs)

/-- `LabelSet::print`, label_set.cpp:125-134. -/
def labelPrint (a : LabelSet.LabelSet) : Str := '{' :: (labelLoop true a.labels ++ ['}'])

/-- The beginning of the line of a level, min_max_heap.h:156, 160. -/
def levelHead (l : Nat) : Str := "\nlevel ".toList ++ natStr l ++ ": ".toList

/-- The text of an element, min_max_heap.h:162. -/
def elemStr {α : Type} (sh : α → Str) (x : α) (i : Nat) : Str := sh x ++ (" [".toList ++ natStr i ++ "], ".toList)

/-- The loop of `MinMaxHeap::print`, min_max_heap.h:157-163, from index `i` with the current level `l`; `sh` is `operator<<` of the elements. -/
def heapLoop {α : Type} (sh : α → Str) : (l i : Nat) → List α → Str
  | _, _, [] => []
  | l, i, x :: xs =>
    if l < Heap.level i then levelHead (Heap.level i) ++ (elemStr sh x i ++ heapLoop sh (Heap.level i) (i + 1) xs)
    else elemStr sh x i ++ heapLoop sh l (i + 1) xs

/-- `MinMaxHeap::print`, min_max_heap.h:154-165, of the elements `data_`. -/
def heapPrint {α : Type} (sh : α → Str) (data : List α) : Str := levelHead 0 ++ (heapLoop sh 0 0 data ++ ['\n'])

end Verif.Text
