import Verif.Cxx.Vec
import Verif.Interval.Model

/-!
Model of common/include/rofl/common/grid.h with `Index = int`, `Container = std::vector`, `Indexer = RasterIndexer`.
The allocation of a storage of admissible length is assumed to succeed.
-/
namespace Verif.Grid
open Verif Verif.Interval

/-- `data_` and `domain_`, grid.h:142-143. -/
structure Grid (α : Type) where
  data : Vec α
  domain : Interval

variable {α : Type}

/-- `data_.resize(n)`: existing elements are kept, new ones are value-initialised (`z`); longer than `max_size()` is a
`length_error`. `maxSize` is `PTRDIFF_MAX / sizeof(Value)`, grid.h:41, 48, 58, 63, 68, 73. -/
def resize (maxSize : Nat) (z : α) (v : Vec α) (n : Nat) : Outcome (Vec α) :=
  if maxSize < n then .error .throw
  else .ok ⟨n, fun i => if i < v.len then v.val i else z⟩

/-- `Grid()`, grid.h:37-38. -/
def new (z : α) (dim : Nat) : Grid α := ⟨Vec.empty z, Interval.new dim⟩

/-- `initBounds(min, dimensions)`, grid.h:61-64 (and the constructor, grid.h:40-42). -/
def initBounds (maxSize : Nat) (z : α) (g : Grid α) (min dims : List Int) : Outcome (Grid α) := do
  let dom := Interval.initBounds min dims
  let d ← resize maxSize z g.data (size dom)
  return ⟨d, dom⟩

/-- `initBounds(dimensions)`, grid.h:54-59 (and the constructor, grid.h:44-49). -/
def initDims (maxSize : Nat) (z : α) (g : Grid α) (dims : List Int) : Outcome (Grid α) :=
  initBounds maxSize z g (dims.map fun _ => 0) dims

/-- `initCenter`, grid.h:66-69. -/
def initCenter (maxSize : Nat) (z : α) (g : Grid α) (center win : List Int) : Outcome (Grid α) := do
  let dom ← initCentered center win
  let d ← resize maxSize z g.data (size dom)
  return ⟨d, dom⟩

/-- `initMinMax`, grid.h:71-74. -/
def initMinMax (maxSize : Nat) (z : α) (g : Grid α) (min max : List Int) : Outcome (Grid α) := do
  let dom ← Interval.initMinMax min max
  let d ← resize maxSize z g.data (size dom)
  return ⟨d, dom⟩

/-- `value(indices)` (read), grid.h:97-99, 109-113. -/
def read (g : Grid α) (is : List Int) : Outcome α := do
  let p ← staticGetPos g.domain is
  g.data.get p

/-- `value(indices) = x`, grid.h:105-107, 115-119. -/
def write (g : Grid α) (is : List Int) (x : α) : Outcome (Grid α) := do
  let p ← staticGetPos g.domain is
  let d ← g.data.set p x
  return ⟨d, g.domain⟩

/-- `value(pos)` (read), grid.h:121-123: `at` converts the position to `size_t` and checks it. -/
def readPos (g : Grid α) (pos : Int) : Outcome α :=
  if Cxx.toSize pos < g.data.len then .ok (g.data.val (Cxx.toSize pos)) else .error .throw

/-- `value(pos) = x`, grid.h:125-127. -/
def writePos (g : Grid α) (pos : Int) (x : α) : Outcome (Grid α) :=
  if Cxx.toSize pos < g.data.len then
    .ok ⟨⟨g.data.len, fun j => if j = Cxx.toSize pos then x else g.data.val j⟩, g.domain⟩
  else .error .throw

/-- `fill`, grid.h:129-131. -/
def fill (g : Grid α) (x : α) : Grid α := ⟨⟨g.data.len, fun j => if j < g.data.len then x else g.data.val j⟩, g.domain⟩

/-- `getPos`, grid.h:133-135. -/
def getPos (g : Grid α) (is : List Int) : Outcome Int := rasterGetPos g.domain is

/-- `getIndices`, grid.h:137-139. -/
def getIndices (g : Grid α) (p : Int) : Outcome (List Int) := rasterGetIndices g.domain p

/-- Operations of the public interface that change the content, grid.h:105-131. -/
inductive Op (α : Type)
  | write (is : List Int) (x : α)
  | writePos (pos : Int) (x : α)
  | fill (x : α)

/-- One operation, grid.h:105-131. -/
def step (g : Grid α) : Op α → Outcome (Grid α)
  | .write is x => write g is x
  | .writePos p x => writePos g p x
  | .fill x => .ok (fill g x)

/-- A sequence of operations, grid.h:105-131. -/
def run (g : Grid α) : List (Op α) → Outcome (Grid α)
  | [] => .ok g
  | o :: os => do
    let g' ← step g o
    run g' os

end Verif.Grid
