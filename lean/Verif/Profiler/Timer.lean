import Verif.Profiler.TimerModel
import Verif.Profiler.Props
import Mathlib.Data.List.Pairwise
import Mathlib.Order.Monotone.Basic

/-! Property theorems C96 and C97 (see properties.jsonl). -/
namespace Verif.Profiler
open Verif.Text (Str natStr)

variable {L K : Type}

mutual
/-- The number of timers of a label in a statement. -/
def timers [DecidableEq L] (l : L) : Stmt L → Nat
  | .work _ => 0
  | .scoped label body => (if label = l then 1 else 0) + timersOf l body
  | .here label => if label = l then 1 else 0

/-- The number of timers of a label in a sequence of statements. -/
def timersOf [DecidableEq L] (l : L) : List (Stmt L) → Nat
  | [] => 0
  | s :: ss => timers l s + timersOf l ss
end

mutual
/-- The number of readings of the clock during a statement: two for each timer and those of the work. -/
def span : Stmt L → Nat
  | .work n => n
  | .scoped _ body => 2 + spans body
  | .here _ => 2

/-- The number of readings of the clock during a sequence of statements. -/
def spans : List (Stmt L) → Nat
  | [] => 0
  | s :: ss => span s + spans ss
end

theorem spans_append : ∀ a b : List (Stmt L), spans (a ++ b) = spans a + spans b
  | [], b => by simp [spans]
  | s :: a, b => by
    have := spans_append a b
    simp only [List.cons_append, spans]
    omega

theorem samples_append [DecidableEq L] (h h' : List (L × K)) (l : L) : samples (h ++ h') l = samples h l ++ samples h' l := by
  simp [samples]

mutual
theorem exec_span (ms : Int → K) (now : Nat → Int) : ∀ (s : Stmt L) (k : Nat), (exec ms now k s).1 = k + span s
  | .work n, k => rfl
  | .scoped label body, k => by
    have := execs_spans ms now body (k + 1)
    simp only [exec, span]
    omega
  | .here label, k => rfl

theorem execs_spans (ms : Int → K) (now : Nat → Int) : ∀ (s : List (Stmt L)) (k : Nat), (execs ms now k s).1 = k + spans s
  | [], k => rfl
  | s :: l, k => by
    have h1 := exec_span ms now s k
    have h2 := execs_spans ms now l (exec ms now k s).1
    simp only [execs, spans]
    omega
end

mutual
theorem exec_count [DecidableEq L] (ms : Int → K) (now : Nat → Int) (l : L) : ∀ (s : Stmt L) (k : Nat), (samples (exec ms now k s).2 l).length = timers l s
  | .work n, k => rfl
  | .scoped label body, k => by
    have := execs_count ms now l body (k + 1)
    simp only [exec, timers, samples_append, List.length_append, this, Timer.new]
    by_cases h : label = l <;> simp [samples, h] <;> omega
  | .here label, k => by
    simp only [exec, timers, Timer.new]
    by_cases h : label = l <;> simp [samples, h]

theorem execs_count [DecidableEq L] (ms : Int → K) (now : Nat → Int) (l : L) : ∀ (s : List (Stmt L)) (k : Nat), (samples (execs ms now k s).2 l).length = timersOf l s
  | [], k => rfl
  | s :: ss, k => by
    have h1 := exec_count ms now l s k
    have h2 := execs_count ms now l ss (exec ms now k s).1
    simp only [execs, timersOf, samples_append, List.length_append]
    rw [h1, h2]
end

/-- A statement occurs in another, at a distance (in readings of the clock) from its beginning. -/
inductive Inside (t : Stmt L) : Nat → Stmt L → Prop
  | refl : Inside t 0 t
  | body {label : L} {pre post : List (Stmt L)} {d : Nat} {s : Stmt L} : Inside t d s → Inside t (1 + spans pre + d) (.scoped label (pre ++ s :: post))

theorem execs_append (ms : Int → K) (now : Nat → Int) : ∀ (a b : List (Stmt L)) (k : Nat),
    execs ms now k (a ++ b) = ((execs ms now (execs ms now k a).1 b).1, (execs ms now k a).2 ++ (execs ms now (execs ms now k a).1 b).2)
  | [], b, k => by simp [execs]
  | s :: a, b, k => by
    have h := execs_append ms now a b (exec ms now k s).1
    simp only [List.cons_append, execs, h, List.append_assoc]

/-- The measurement of a timer: its label and the time of the readings at its ends. -/
def measure (ms : Int → K) (now : Nat → Int) (label : L) (first last : Nat) : L × K := (label, ms (now last - now first))

/-- The last measurement of a block is that of its timer; what occurs inside a statement is recorded by it. -/
theorem inside_infix (ms : Int → K) (now : Nat → Int) {t s : Stmt L} {d : Nat} (h : Inside t d s) (k : Nat) : (exec ms now (k + d) t).2 <:+: (exec ms now k s).2 ∧ d + span t ≤ span s := by
  induction h generalizing k with
  | refl => exact ⟨by simp, by omega⟩
  | @body label pre post d s hs ih =>
    have e1 := execs_spans ms now pre (k + 1)
    have ih' := ih (k + 1 + spans pre)
    constructor
    · simp only [exec]
      rw [execs_append, e1]
      simp only [execs]
      rw [show k + (1 + spans pre + d) = k + 1 + spans pre + d by omega]
      obtain ⟨a, b, hab⟩ := ih'.1
      refine ⟨(execs ms now (k + 1) pre).2 ++ a, b ++ (execs ms now (exec ms now (k + 1 + spans pre) s).1 post).2 ++ [((Timer.new now label k).label, (Timer.new now label k).elapsedTimeMs ms now (execs ms now (exec ms now (k + 1 + spans pre) s).1 post).1)], ?_⟩
      rw [← hab]
      simp only [List.append_assoc]
    · have e4 := spans_append pre (s :: post)
      simp only [spans] at e4
      simp only [span]
      omega

/-- C96, partial: a timer declared at the start of a block. For every program and every clock: a block anywhere in the program records the time between the readings at its beginning and
at its end, and does it after everything inside the block; a timer inside another records at most what the other records when the clock does not go back; the number of the measurements
of each label in the profiler is the number of its timers. Missing: timers made with the macro. -/
theorem C96_scoped_partial [DecidableEq L] [LinearOrder K] (ms : Int → K) (now : Nat → Int) (k : Nat) (s : Stmt L) :
    (∀ d label body, Inside (.scoped label body) d s → ∃ pre post, (exec ms now k s).2 =
      pre ++ (execs ms now (k + d + 1) body).2 ++ [measure ms now label (k + d) (k + d + span (.scoped label body) - 1)] ++ post) ∧
    (Monotone ms → Monotone now → ∀ d label body d' label' body', Inside (.scoped label' body') d' (.scoped label body) → Inside (.scoped label body) d s →
      (measure ms now label' (k + d + d') (k + d + d' + span (.scoped label' body') - 1)).2 ≤ (measure ms now label (k + d) (k + d + span (.scoped label body) - 1)).2) ∧
    (∀ l, (samples (exec ms now k s).2 l).length = timers l s) := by
  refine ⟨?_, ?_, fun l => exec_count ms now l s k⟩
  · intro d label body h
    obtain ⟨a, b, hab⟩ := (inside_infix ms now h k).1
    refine ⟨a, b, ?_⟩
    rw [← hab]
    have e := execs_spans ms now body (k + d + 1)
    have e' : k + d + span (.scoped label body) - 1 = (execs ms now (k + d + 1) body).1 := by
      simp only [span]
      omega
    rw [e']
    simp only [exec, measure, Timer.new, Timer.elapsedTimeMs, List.append_assoc]
  · intro hm hn d label body d' label' body' h' h
    have h1 := (inside_infix ms now h' 0).2
    have pos : ∀ (l : L) b, 2 ≤ span (Stmt.scoped l b) := fun l b => by simp only [span]; omega
    have p1 := pos label body
    have p2 := pos label' body'
    apply hm
    have a1 : now (k + d) ≤ now (k + d + d') := hn (by omega)
    have a2 : now (k + d + d' + span (Stmt.scoped label' body') - 1) ≤ now (k + d + span (Stmt.scoped label body) - 1) := hn (by omega)
    omega

/-- C96, full statement: a timer made with the macro at the start of a block measures the block as a declared one. -/
def C96_statement : Prop := ∀ (now : Nat → Int) (label : Nat) (body : List (Stmt Nat)), Monotone now →
  ∃ time, (label, time) ∈ (execs (fun t => t) now 0 (.here label :: body)).2 ∧ now (spans body) - now 0 ≤ time

/-- The macro makes a temporary: it records the time between two consecutive readings of the clock, before the statements that follow, whatever they are. -/
theorem C96_macro (ms : Int → K) (now : Nat → Int) (k : Nat) (label : L) (body : List (Stmt L)) :
    (execs ms now k (.here label :: body)).2 = measure ms now label k (k + 1) :: (execs ms now (k + 2) body).2 := by
  simp only [execs, exec, measure, Timer.new, Timer.elapsedTimeMs]
  rfl

/-- C96 does not hold: with a clock which advances at each reading, a block of 10 ticks is recorded as 1 tick. -/
theorem C96_violated : ¬ C96_statement := by
  intro h
  obtain ⟨t, h1, h2⟩ := h (fun k => k) 7 [.work 10] (fun a b hab => by simpa using hab)
  have : t = 1 := by
    rw [C96_macro] at h1
    simpa [measure, execs, exec] using h1
  subst this
  revert h2
  decide +kernel

example : exec (fun t => t) (fun k => (k : Int) * k) 0 (.scoped "a" [.work 2, .scoped "b" [.work 1], .here "c"]) = (9, [("b", 16), ("c", 13), ("a", 64)]) := by decide +kernel

/-! ### C97 -/

section
variable [LinearOrder L] [Zero K] [Add K] [Sub K] [Mul K] [Div K] [NatCast K] [LT K] [DecidableLT K]

/-- The value of a key in a list of pairs. -/
def valueOf (l : L) : List (L × Stat K) → Option (Stat K)
  | [] => none
  | (l', s) :: m => if l = l' then some s else valueOf l m

omit [Zero K] [Add K] [Sub K] [Mul K] [Div K] [NatCast K] [LT K] [DecidableLT K] in
theorem valueOf_none {l : L} {m : List (L × Stat K)} (h : ∀ p ∈ m, l < p.1) : valueOf l m = none := by
  induction m with
  | nil => rfl
  | cons p m ih =>
    rw [valueOf, if_neg (ne_of_lt (h p (by simp)))]
    exact ih fun q hq => h q (List.mem_cons_of_mem _ hq)

theorem updateMap_spec (label : L) (time : K) : ∀ (m : List (L × Stat K)), m.Pairwise (fun p q => p.1 < q.1) →
    (updateMap label time m).Pairwise (fun p q => p.1 < q.1) ∧ (∀ p ∈ updateMap label time m, p.1 = label ∨ ∃ q ∈ m, q.1 = p.1) ∧
    ∀ l, valueOf l (updateMap label time m) = updateStat (fun l => valueOf l m) label time l
  | [], _ => by
    refine ⟨by simp [updateMap], by simp [updateMap], fun l => ?_⟩
    simp only [updateMap, valueOf, updateStat]
  | (l', s) :: m, h => by
    rw [List.pairwise_cons] at h
    obtain ⟨h1, h2⟩ := h
    obtain ⟨i1, i2, i3⟩ := updateMap_spec label time m h2
    unfold updateMap
    split
    · rename_i hlt
      have hnone : valueOf label ((l', s) :: m) = none := by
        apply valueOf_none
        intro p hp
        rcases List.mem_cons.1 hp with rfl | hp
        · exact hlt
        · exact hlt.trans (h1 p hp)
      refine ⟨?_, ?_, fun l => ?_⟩
      · rw [List.pairwise_cons, List.pairwise_cons]
        refine ⟨?_, h1, h2⟩
        intro p hp
        rcases List.mem_cons.1 hp with rfl | hp
        · exact hlt
        · exact hlt.trans (h1 p hp)
      · intro p hp
        rcases List.mem_cons.1 hp with rfl | hp
        · exact .inl rfl
        · exact .inr ⟨p, hp, rfl⟩
      · simp only [updateStat, hnone]
        rw [valueOf]
    · split
      · rename_i heq
        subst heq
        refine ⟨?_, ?_, fun l => ?_⟩
        · rw [List.pairwise_cons]
          exact ⟨h1, h2⟩
        · intro p hp
          rcases List.mem_cons.1 hp with rfl | hp
          · exact .inl rfl
          · exact .inr ⟨p, List.mem_cons_of_mem _ hp, rfl⟩
        · simp only [updateStat, valueOf, if_true]
          split <;> rfl
      · rename_i hlt hne
        have hgt : l' < label := lt_of_le_of_ne (not_lt.1 hlt) (fun e => hne e.symm)
        refine ⟨?_, ?_, fun l => ?_⟩
        · rw [List.pairwise_cons]
          refine ⟨?_, i1⟩
          intro p hp
          rcases i2 p hp with e | ⟨q, hq, e⟩
          · rw [e]
            exact hgt
          · rw [← e]
            exact h1 q hq
        · intro p hp
          rcases List.mem_cons.1 hp with rfl | hp
          · exact .inr ⟨_, List.mem_cons_self, rfl⟩
          · rcases i2 p hp with e | ⟨q, hq, e⟩
            · exact .inl e
            · exact .inr ⟨q, List.mem_cons_of_mem _ hq, e⟩
        · rw [valueOf, i3]
          simp only [updateStat, valueOf]
          rw [if_neg hne]
          by_cases e : l = l'
          · subst e
            rw [if_pos rfl, if_neg (fun e => hne e.symm), if_pos rfl]
          · rw [if_neg e, if_neg e]

theorem runMap_spec (h : List (L × K)) : (runMap h).Pairwise (fun p q => p.1 < q.1) ∧ ∀ l, valueOf l (runMap h) = run h l := by
  unfold runMap run
  have gen : ∀ (h : List (L × K)) (m : List (L × Stat K)) (st : Stats L K), m.Pairwise (fun p q => p.1 < q.1) → (∀ l, valueOf l m = st l) →
      (h.foldl (fun m p => updateMap p.1 p.2 m) m).Pairwise (fun p q => p.1 < q.1) ∧
      ∀ l, valueOf l (h.foldl (fun m p => updateMap p.1 p.2 m) m) = h.foldl (fun st p => updateStat st p.1 p.2) st l := by
    intro h
    induction h with
    | nil => exact fun m st h1 h2 => ⟨h1, h2⟩
    | cons p h ih =>
      intro m st h1 h2
      obtain ⟨i1, -, i3⟩ := updateMap_spec p.1 p.2 m h1
      refine ih _ _ i1 fun l => ?_
      rw [i3, funext h2]
  exact gen h [] _ List.Pairwise.nil fun _ => rfl

omit [Zero K] [Add K] [Sub K] [Mul K] [Div K] [NatCast K] [LT K] [DecidableLT K] in
theorem mem_iff {l : L} {s : Stat K} : ∀ {m : List (L × Stat K)}, m.Pairwise (fun p q => p.1 < q.1) → ((l, s) ∈ m ↔ valueOf l m = some s)
  | [], _ => by simp [valueOf]
  | (l', s') :: m, h => by
    rw [List.pairwise_cons] at h
    rw [List.mem_cons, mem_iff h.2, valueOf]
    by_cases e : l = l'
    · subst e
      rw [if_pos rfl, valueOf_none h.1]
      simp [eq_comm]
    · rw [if_neg e]
      simp [e]

end

/-- C97: for every history of measurements, the report is one line for each measured label, in increasing order of the labels without repetitions, and each line has the fields of the
statistics of its label: the number of its measurements, their minimum and maximum, the average and the result of `getVariance`. -/
theorem C97_report [LinearOrder L] [Zero K] [Add K] [Sub K] [Mul K] [Div K] [NatCast K] [LinearOrder K] (txt : L → Str) (num : K → Str) (h : List (L × K)) :
    ∃ labels : List L, labels.Pairwise (· < ·) ∧ (∀ l, l ∈ labels ↔ samples h l ≠ []) ∧ ∃ stat : L → Stat K,
      printStats txt num (runMap h) = labels.flatMap (fun l => txt l ++ " \t".toList ++ num (stat l).timeAvg ++ " \t".toList ++ num (stat l).getVariance ++ " \t".toList ++
        num (stat l).timeMin ++ " \t".toList ++ num (stat l).timeMax ++ " \t".toList ++ natStr (samples h l).length ++ " \t\n".toList) ∧
      ∀ l ∈ labels, run h l = some (stat l) ∧ IsLeast {x | x ∈ samples h l} (stat l).timeMin ∧ IsGreatest {x | x ∈ samples h l} (stat l).timeMax := by
  obtain ⟨h1, h2⟩ := runMap_spec h
  have hrun : ∀ l, l ∈ (runMap h).map Prod.fst ↔ ∃ s, run h l = some s := by
    intro l
    rw [List.mem_map]
    constructor
    · rintro ⟨⟨l', s⟩, hm, rfl⟩
      exact ⟨s, by rw [← h2]; exact (mem_iff h1).1 hm⟩
    · rintro ⟨s, hs⟩
      exact ⟨(l, s), (mem_iff h1).2 (by rw [h2, hs]), rfl⟩
  refine ⟨(runMap h).map Prod.fst, ?_, ?_, fun l => (run h l).getD (.new 0), ?_, ?_⟩
  · rw [List.pairwise_map]
    exact h1
  · intro l
    rw [hrun]
    obtain ⟨c1, c2⟩ := C48_count_extremes h l
    constructor
    · rintro ⟨s, hs⟩ e
      rw [c1 e] at hs
      cases hs
    · intro hne
      obtain ⟨s, hs, -⟩ := c2 hne
      exact ⟨s, hs⟩
  · have hall : ∀ p ∈ runMap h, run h p.1 = some p.2 := fun p hp => by
      rw [← h2]
      exact (mem_iff h1).1 hp
    generalize runMap h = m at hall
    induction m with
    | nil => rfl
    | cons p m ih =>
      have hp := hall p (by simp)
      have hcount : (samples h p.1).length = p.2.count := by
        obtain ⟨c1, c2⟩ := C48_count_extremes h p.1
        by_cases e : samples h p.1 = []
        · rw [c1 e] at hp
          cases hp
        · obtain ⟨s, hs, hc, -⟩ := c2 e
          rw [hs] at hp
          cases hp
          exact hc.symm
      rw [printStats, List.map_cons, List.flatMap_cons, ih fun q hq => hall q (List.mem_cons_of_mem _ hq)]
      congr 1
      beta_reduce
      rw [hp, hcount]
      unfold line
      simp only [List.append_assoc, Option.getD_some]
  · intro l hl
    obtain ⟨s, hs⟩ := (hrun l).1 hl
    obtain ⟨c1, c2⟩ := C48_count_extremes h l
    beta_reduce
    rw [hs]
    refine ⟨rfl, ?_⟩
    by_cases e : samples h l = []
    · rw [c1 e] at hs
      cases hs
    · obtain ⟨s', hs', -, a, b⟩ := c2 e
      rw [hs] at hs'
      cases hs'
      exact ⟨a, b⟩

example : printStats (fun l : Nat => natStr l) (fun x : Int => Verif.Text.intStr x) (runMap [(2, 8), (1, 3), (2, 4)]) =
    "1 \t3 \t0 \t3 \t3 \t1 \t\n2 \t4 \t4 \t4 \t8 \t2 \t\n".toList := by decide +kernel

end Verif.Profiler
