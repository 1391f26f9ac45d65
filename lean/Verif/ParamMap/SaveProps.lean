import Verif.ParamMap.Props

/-!
C170: what was read from texts can be saved (common/src/param_map.cpp:34-60, 97-122).
-/
namespace Verif.ParamMap
open Verif

/-- The tables that can be read: names and values are words without null characters, no name starts a comment, name and value fit a line. -/
def Saveable (t : Table) : Prop :=
  Sorted t ∧ ∀ p ∈ t, Spec.Word p.1 ∧ Spec.Word p.2 ∧ p.1.head? ≠ some '#' ∧ '\x00' ∉ p.1 ∧ '\x00' ∉ p.2 ∧ p.1.length + p.2.length ≤ 1998

theorem parseLine_readable {l k v : Str} (hl : l.length ≤ 1999) (h : parseLine l = some (k, v)) :
    Spec.Word k ∧ Spec.Word v ∧ '\x00' ∉ k ∧ '\x00' ∉ v ∧ k.length + v.length ≤ 1998 := by
  have h0 : '\x00' ∉ l.takeWhile fun c => c != '\x00' := fun hc => by simpa using mem_takeWhile hc
  have e : parseLine (l.takeWhile fun c => c != '\x00') = parseLine l := by
    unfold parseLine
    rw [takeWhile_self (fun c hc => mem_takeWhile hc)]
  rw [← e, parseLine_iff _ _ _ h0] at h
  have hlen : (l.takeWhile fun c => c != '\x00').length ≤ l.length := (List.takeWhile_prefix _).length_le
  obtain ⟨s1, s2, rest, hs, -, wk, -, hs2, wv, -⟩ := h
  rw [hs] at h0 hlen
  simp only [List.mem_append, not_or] at h0
  simp only [List.length_append] at hlen
  have := List.length_pos_of_ne_nil hs2
  exact ⟨wk, wv, h0.1.1.1.2, h0.1.2, by omega⟩

theorem readLine_readable {t : Table} {l : Str} (ht : Saveable t) (hl : l.length ≤ 1999) : Saveable (readLine t l) := by
  unfold readLine
  split
  · rename_i k v h
    split
    · exact ht
    · rename_i hn
      rw [Bool.or_eq_true, not_or] at hn
      obtain ⟨w1, w2, z1, z2, hlen⟩ := parseLine_readable hl h
      refine ⟨assign_sorted _ _ _ ht.1, fun p hp => ?_⟩
      rcases mem_insert _ _ _ _ hp with rfl | hp
      · exact ⟨w1, w2, by simpa using hn.2, z1, z2, hlen⟩
      · exact ht.2 p (List.mem_of_mem_filter hp)
  · exact ht

theorem getline_length (s : Str) : ∀ (room : ℕ) (acc : Str), (getline room acc s).1.length ≤ acc.length + room := by
  induction s with
  | nil => intro room acc; simp [getline]
  | cons c cs ih =>
    intro room acc
    unfold getline
    split
    · simp
    · cases room with
      | zero => simp
      | succ r =>
        have := ih r (c :: acc)
        simp only [List.length_cons] at this ⊢
        omega

theorem read_readable (text : Str) : ∀ t : Table, Saveable t → Saveable (read t text) := by
  induction hn : text.length using Nat.strong_induction_on generalizing text with
  | _ n ih =>
    intro t ht
    rw [read]
    have hg : Saveable (readLine t (getline (maxLen - 1) [] text).1) := readLine_readable ht (by
      have := getline_length text (maxLen - 1) []
      simp only [List.length_nil, maxLen] at this
      simpa [maxLen] using this)
    split
    · rename_i hok
      split
      · rename_i h0
        exact ih _ (by rw [← hn]; exact getline_rest _ _ _ h0 hok) _ rfl _ hg
      · exact hg
    · exact ht

/-- C170: after any texts are read, one after the other, into an empty map (whatever they contain: null characters, overlong lines, unterminated lines, comments), writing the map and
reading the text into an empty map gives the same map. -/
theorem C170_save (texts : List Str) : read [] (write (texts.foldl read [])) = texts.foldl read [] := by
  have key : ∀ (texts : List Str) (t : Table), Saveable t → Saveable (texts.foldl read t) := by
    intro texts
    induction texts with
    | nil => exact fun t ht => ht
    | cons x texts ih => exact fun t ht => ih _ (read_readable x t ht)
  obtain ⟨hs, hp⟩ := key texts [] ⟨List.Pairwise.nil, by simp⟩
  exact C43_roundtrip_partial _ ⟨hs, fun p h => ⟨(hp p h).1, (hp p h).2.1, (hp p h).2.2.1⟩⟩ (fun p h => ⟨(hp p h).2.2.2.1, (hp p h).2.2.2.2.1⟩) fun p h => (hp p h).2.2.2.2.2

/-- C170: the saved text says exactly what was read: two maps that were read are saved to the same text exactly if they are the same. -/
theorem C170_inj (texts texts' : List Str) : write (texts.foldl read []) = write (texts'.foldl read []) ↔ texts.foldl read [] = texts'.foldl read [] :=
  ⟨fun h => by rw [← C170_save texts, h, C170_save], fun h => by rw [h]⟩

/-- C170: saving a second time, after reading the saved text, gives the same text. -/
theorem C170_again (text : Str) : write (read [] (write (read [] text))) = write (read [] text) := by
  have := C170_save [text]
  simp only [List.foldl_cons, List.foldl_nil] at this
  rw [this]

/-- C170: the tables that can be read are exactly the saveable ones. -/
theorem C170_range (t : Table) : (∃ text, read [] text = t) ↔ Saveable t := by
  constructor
  · rintro ⟨text, rfl⟩
    exact read_readable text [] ⟨List.Pairwise.nil, by simp⟩
  · rintro ⟨hs, hp⟩
    exact ⟨write t, C43_roundtrip_partial _ ⟨hs, fun p h => ⟨(hp p h).1, (hp p h).2.1, (hp p h).2.2.1⟩⟩ (fun p h => ⟨(hp p h).2.2.2.1, (hp p h).2.2.2.2.1⟩)
      fun p h => (hp p h).2.2.2.2.2⟩

/-- C170: any table whatsoever is restored from its text exactly if it is saveable (this is the exact condition of C43). -/
theorem C170_roundtrip_iff (t : Table) : read [] (write t) = t ↔ Saveable t :=
  ⟨fun h => (C170_range t).1 ⟨_, h⟩, fun ⟨hs, hp⟩ => C43_roundtrip_partial _ ⟨hs, fun p h => ⟨(hp p h).1, (hp p h).2.1, (hp p h).2.2.1⟩⟩
    (fun p h => ⟨(hp p h).2.2.2.1, (hp p h).2.2.2.2.1⟩) fun p h => (hp p h).2.2.2.2.2⟩

/-- A map read from the command line `-a "1 2"` is not restored by the text. -/
theorem C170_args_violated : ∃ argv t, readArgs strict [] argv = .ok t ∧ read [] (write t) ≠ t :=
  ⟨[['p'], ['-', 'a'], ['1', ' ', '2']], [(['a'], ['1', ' ', '2'])], by decide +kernel, by decide +kernel⟩

/-- Comment, repeated name, null character: what is saved. -/
example : write (read [] exText) = ['a', ' ', '3', '\n', 'd', ' ', '5', '\n'] := by decide +kernel
example : write (read [] ['b', ' ', '1', '\x00', '2', '\n', 'a', ' ', 'x', ' ', 'y']) = ['a', ' ', 'x', '\n', 'b', ' ', '1', '\n'] := by decide +kernel

end Verif.ParamMap
