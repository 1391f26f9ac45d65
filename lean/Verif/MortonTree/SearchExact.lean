import Verif.MortonTree.Props

/-! Property theorem C16 (see properties.jsonl), exact condition. -/
namespace Verif.MortonTree
open Verif Verif.Morton NumericTraits

/-- C16, exact condition: the search is right exactly when it returns and no item is in the box. -/
theorem C16_iff (shlNeg : Outcome Int) (t : ITy) (dim : ℕ) (h0 : 0 < dim) (h1 : dim ≤ 2 ^ t.w)
    (srt : List (Item (ℕ → BitVec t.w)) → List (Item (ℕ → BitVec t.w))) (hs : IsSort (mortonCmpInt t dim) srt)
    (h : List (Op (ℕ → BitVec t.w))) (lo hi : ℕ → BitVec t.w) :
    C16_at shlNeg t dim srt h lo hi ↔
      (∃ r, searchInBox srt (mortonCmpInt t dim) (splitInt shlNeg t dim) (run srt (mortonCmpInt t dim) h) lo hi = .ok r) ∧
      ∀ x ∈ (run srt (mortonCmpInt t dim) h).items, ¬ InBox t dim lo hi x.values := by
  constructor
  · rintro ⟨tr, out, hr, hout⟩
    refine ⟨⟨_, hr⟩, fun x hx hb => ?_⟩
    obtain ⟨rfl, hp⟩ := C16_reports_nothing shlNeg t dim h0 h1 srt hs h lo hi tr out hr
    obtain ⟨p, hp'⟩ := List.mem_iff_getElem?.1 (hp.mem_iff.2 hx)
    exact List.not_mem_nil ((hout p).2 ⟨x, hp', hb⟩)
  · rintro ⟨hok, hbox⟩
    exact C16_partial shlNeg t dim h0 h1 srt hs h lo hi hok hbox

/-- C16: in particular it is wrong for every box that holds an item. -/
theorem C16_item_violated (shlNeg : Outcome Int) (t : ITy) (dim : ℕ) (h0 : 0 < dim) (h1 : dim ≤ 2 ^ t.w)
    (srt : List (Item (ℕ → BitVec t.w)) → List (Item (ℕ → BitVec t.w))) (hs : IsSort (mortonCmpInt t dim) srt)
    (h : List (Op (ℕ → BitVec t.w))) (lo hi : ℕ → BitVec t.w) (x : Item (ℕ → BitVec t.w)) (hx : x ∈ (run srt (mortonCmpInt t dim) h).items)
    (hb : InBox t dim lo hi x.values) : ¬ C16_at shlNeg t dim srt h lo hi := fun hc =>
  ((C16_iff shlNeg t dim h0 h1 srt hs h lo hi).1 hc).2 x hx hb

end Verif.MortonTree
