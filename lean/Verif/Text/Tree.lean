import Verif.Text.Props
import Verif.MortonTree.Model

/-!
Model of the text of the items of a Morton tree (common/include/rofl/common/morton_tree.h) with coordinates of type `int`, and C101: the text determines the item, the position and the
interval.
-/
namespace Verif.Text
open Verif

/-- The loop of `Item::print`, morton_tree.h:57-61, from index `d`. -/
def itemLoop : (d : Nat) → List Int → Str
  | _, [] => []
  | d, x :: xs => (if d ≠ 0 then [','] else []) ++ (intStr x ++ itemLoop (d + 1) xs)

/-- `Item::print`, morton_tree.h:55-63, and `toString`, lines 65-69. -/
def itemPrint (x : MortonTree.Item (List Int)) : Str := '[' :: (itemLoop 0 x.values ++ ("](id ".toList ++ (intStr x.id ++ [')'])))

/-- `printIt`, morton_tree.h:355-361, of the position `p` (from the begin, at most the end). -/
def printIt (items : List (MortonTree.Item (List Int))) (p : Nat) : Str :=
  match items[p]? with
  | some x => itemPrint x
  | none => "END".toList

/-- `printInter`, morton_tree.h:363-367. -/
def printInter (items : List (MortonTree.Item (List Int))) (p q : Nat) : Str := "{ ".toList ++ (printIt items p ++ (" : ".toList ++ (printIt items q ++ " }".toList)))

/-! ### C101 -/

theorem itemLoop_succ (d : Nat) : ∀ (l : List Int), itemLoop (d + 1) l ++ [']'] = l.flatMap (fun x => ',' :: intStr x) ++ [']']
  | [] => rfl
  | x :: l => by
    rw [itemLoop, if_pos (by omega), List.flatMap_cons, List.append_assoc, List.append_assoc, itemLoop_succ (d + 1) l]
    simp

theorem joined_flatMap : ∀ (x : Int) (l : List Int), joined ',' [] ']' ((x :: l).map intStr) = intStr x ++ (l.flatMap (fun x => ',' :: intStr x) ++ [']'])
  | x, [] => rfl
  | x, y :: l => by
    change intStr x ++ ',' :: ([] ++ joined ',' [] ']' ((y :: l).map intStr)) = _
    rw [joined_flatMap y l, List.flatMap_cons]
    simp

theorem itemLoop_eq : ∀ (l : List Int), itemLoop 0 l ++ [']'] = joined ',' [] ']' (l.map intStr)
  | [] => rfl
  | x :: l => by
    rw [joined_flatMap, itemLoop, if_neg (by omega), List.nil_append, List.append_assoc, itemLoop_succ]

theorem notMem_itemLoop {c : Char} (h : ¬ IsDigit c) (h' : c ≠ '-') (h'' : c ≠ ',') : ∀ (d : Nat) (l : List Int), c ∉ itemLoop d l
  | _, [] => by simp [itemLoop]
  | d, x :: l => by
    rw [itemLoop, List.mem_append, List.mem_append]
    rintro (hc | hc | hc)
    · split at hc
      · exact h'' (by simpa using hc)
      · simp at hc
    · exact notMem_intStr h h' hc
    · exact notMem_itemLoop h h' h'' _ _ hc

/-- C101: the text of an item determines its coordinates and identifier. -/
theorem C101_item (x y : MortonTree.Item (List Int)) (h : itemPrint x = itemPrint y) : x = y := by
  unfold itemPrint at h
  have h := (List.cons.inj h).2
  have hb : ∀ (l : List Int), ']' ∉ itemLoop 0 l := fun l => notMem_itemLoop (by unfold IsDigit; decide) (by decide) (by decide) 0 l
  obtain ⟨h1, h2⟩ := split_inj (s := "(id ".toList ++ (intStr x.id ++ [')'])) (t := "(id ".toList ++ (intStr y.id ++ [')'])) (hb x.values) (hb y.values) h
  have h3 : itemLoop 0 x.values ++ [']'] = itemLoop 0 y.values ++ [']'] := by rw [h1]
  rw [itemLoop_eq, itemLoop_eq] at h3
  have ok : ∀ l : List Int, ∀ s ∈ l.map intStr, ',' ∉ s ∧ ']' ∉ s ∧ s ≠ [] := by
    intro l s hs
    obtain ⟨i, -, rfl⟩ := List.mem_map.1 hs
    exact ⟨notMem_intStr (by unfold IsDigit; decide) (by decide), notMem_intStr (by unfold IsDigit; decide) (by decide), intStr_ne_nil i⟩
  have e1 : x.values = y.values := List.map_injective_iff.2 (fun i j => intStr_inj) (joined_inj (ok x.values) (ok y.values) (by decide) h3)
  have e2 : x.id = y.id := intStr_inj (List.append_cancel_right (List.append_cancel_left h2))
  cases x
  cases y
  simp only at e1 e2
  rw [e1, e2]

/-- C101: the text of a position determines the item it points to, or that it is the end. -/
theorem C101_printIt (items : List (MortonTree.Item (List Int))) (p q : Nat) (h : printIt items p = printIt items q) : items[p]? = items[q]? := by
  unfold printIt at h
  cases hp : items[p]? with
  | none =>
    cases hq : items[q]? with
    | none => rfl
    | some y => rw [hp, hq] at h; exact absurd (List.cons.inj h).1 (by decide)
  | some x =>
    cases hq : items[q]? with
    | none => rw [hp, hq] at h; exact absurd (List.cons.inj h).1 (by decide)
    | some y =>
      rw [hp, hq] at h
      rw [C101_item x y h]

theorem notMem_printIt (items : List (MortonTree.Item (List Int))) (p : Nat) : ':' ∉ printIt items p := by
  unfold printIt
  split
  · rename_i x _
    unfold itemPrint
    intro hc
    rcases List.mem_cons.1 hc with hc | hc
    · exact absurd hc (by decide)
    · rcases List.mem_append.1 hc with hc | hc
      · exact notMem_itemLoop (by unfold IsDigit; decide) (by decide) (by decide) _ _ hc
      · rcases List.mem_append.1 hc with hc | hc
        · exact absurd hc (by decide)
        · rcases List.mem_append.1 hc with hc | hc
          · exact notMem_intStr (by unfold IsDigit; decide) (by decide) hc
          · exact absurd hc (by decide)
  · decide

/-- C101: the text of an interval determines both its items. -/
theorem C101_printInter (items : List (MortonTree.Item (List Int))) (p q p' q' : Nat) (h : printInter items p q = printInter items p' q') :
    items[p]? = items[p']? ∧ items[q]? = items[q']? := by
  unfold printInter at h
  have h := List.append_cancel_left h
  have e : ∀ p q, printIt items p ++ (" : ".toList ++ (printIt items q ++ " }".toList)) = (printIt items p ++ [' ']) ++ ':' :: (' ' :: (printIt items q ++ " }".toList)) := by
    intro p q
    rw [List.append_assoc]
    rfl
  rw [e, e] at h
  have hn : ∀ p, ':' ∉ printIt items p ++ [' '] := by
    intro p hc
    rcases List.mem_append.1 hc with hc | hc
    · exact notMem_printIt items p hc
    · exact absurd hc (by decide)
  obtain ⟨h1, h2⟩ := split_inj (hn p) (hn p') h
  exact ⟨C101_printIt items p p' (List.append_cancel_right h1), C101_printIt items q q' (List.append_cancel_right (List.cons.inj h2).2)⟩

/-- C101: the text of an item has the coordinates between brackets, separated by commas, and the identifier. -/
theorem C101_form (l : List Int) (i : Int) : itemPrint ⟨l, i⟩ = "[".toList ++ (",".toList).intercalate (l.map intStr) ++ "](id ".toList ++ intStr i ++ ")".toList := by
  have key : ∀ l : List Int, itemLoop 0 l = (",".toList).intercalate (l.map intStr) := by
    intro l
    apply List.append_cancel_right (bs := [']'])
    rw [itemLoop_eq]
    induction l with
    | nil => rfl
    | cons x l ih =>
      cases l with
      | nil => simp [joined, List.intercalate]
      | cons y l =>
        change intStr x ++ ',' :: ([] ++ joined ',' [] ']' ((y :: l).map intStr)) = _
        rw [ih]
        simp [List.intercalate]
  unfold itemPrint
  rw [key]
  simp

example : printInter [⟨[1, -2], 0⟩, ⟨[3, 4], -1⟩] 1 2 = "{ [3,4](id -1) : END }".toList ∧ itemPrint ⟨[1, -2, 30], 5⟩ = "[1,-2,30](id 5)".toList := by decide +kernel

end Verif.Text
