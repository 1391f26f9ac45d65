import Verif.MortonTree.Model

/-! The insertions of morton_tree.h with the `int` identifiers of the code (`Model.lean` has unbounded identifiers). -/
namespace Verif.MortonTree
open Verif

variable {V : Type}

/-- `insert(item, resetId)`, morton_tree.h:175-183: line 179 converts `items_.size()` to `int`. -/
def insertW (t : Tree V) (item : Item V) (resetId : Bool) : Tree V :=
  ⟨t.items ++ [⟨item.values, if resetId then Cxx.ofSize t.items.length else -1⟩], false⟩

/-- Loop of the range insertion, morton_tree.h:202-207: `++id` overflows. -/
def insertLoopW (t : Tree V) (id : Int) (resetId : Bool) : List (Item V) → Outcome (Tree V)
  | [] => .ok t
  | x :: xs => do
    let x := if resetId then { x with id := id } else x
    let t := insertW t x resetId
    let id ← Cxx.int (id + 1)
    insertLoopW t id resetId xs

/-- `insert(beg, end, resetId)`, morton_tree.h:194-209: line 201 converts `sizeCur` to `int`. -/
def insertRangeW (t : Tree V) (xs : List (Item V)) (resetId : Bool) : Outcome (Tree V) := do
  let r ← insertLoopW t (Cxx.ofSize t.items.length) resetId xs
  return ⟨r.items, false⟩

/-- Loop of the insertion with conversion, morton_tree.h:235-241: line 238 converts `items_.size()` to `int`. -/
def insertConvLoopW {W : Type} (conv : W → Item V) (resetId : Bool) : List (Item V) → List W → List (Item V)
  | items, [] => items
  | items, x :: xs =>
    let item := conv x
    let item := if resetId then { item with id := Cxx.ofSize items.length } else item
    insertConvLoopW conv resetId (items ++ [item]) xs

/-- `insert(beg, end, converter, resetId)`, morton_tree.h:227-243. -/
def insertConvW {W : Type} (conv : W → Item V) (t : Tree V) (xs : List W) (resetId : Bool) : Tree V :=
  ⟨insertConvLoopW conv resetId t.items xs, false⟩

/-- One operation, morton_tree.h:175-255. -/
def stepW (srt : List (Item V) → List (Item V)) (cmp : V → V → Bool) (t : Tree V) : Op V → Outcome (Tree V)
  | .insert x r => .ok (insertW t x r)
  | .insertRange xs r => insertRangeW t xs r
  | .insertConv xs r => .ok (insertConvW id t xs r)
  | .findItem q => .ok (findItem srt cmp t q).1

/-- A history, morton_tree.h:175-255. -/
def runW (srt : List (Item V) → List (Item V)) (cmp : V → V → Bool) (h : List (Op V)) : Outcome (Tree V) := h.foldlM (stepW srt cmp) new

end Verif.MortonTree
