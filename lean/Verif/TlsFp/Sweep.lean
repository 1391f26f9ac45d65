import Verif.TlsFp.Err
import Verif.Tls.Lemmas

/-! Lemmas for C107: the sweep. -/
namespace Verif.TlsFp
open Verif Ieee Fp Float.Model Finset Tls

variable {spec : Format} [Fmt spec]

/-- The weights are between the extreme inverse squares. -/
structure Wts (ranges : Vec (Fp spec)) (a b : ℤ) : Prop where
  f : ∀ i < ranges.len, (weight (ranges.val i)).Fin
  lo : ∀ i < ranges.len, 2 ^ (-2 * b) ≤ (weight (ranges.val i)).val
  hi : ∀ i < ranges.len, (weight (ranges.val i)).val ≤ 2 ^ (-2 * a)

/-- The centre of the rounded interval of a measure. -/
noncomputable def mid (values ranges : Vec (Fp spec)) (i : ℕ) : ℝ := ((values.val i - ranges.val i).val + (values.val i + ranges.val i).val) / 2
/-- Half of the length of the rounded interval of a measure. -/
noncomputable def hlf (values ranges : Vec (Fp spec)) (i : ℕ) : ℝ := ((values.val i + ranges.val i).val - (values.val i - ranges.val i).val) / 2

/-- An endpoint with its real value. -/
noncomputable def toR (e : Fp spec × ℤ) : ℝ × ℤ := (e.1.val, e.2)

noncomputable section

/-- The weight of a measure. -/
def W (ranges : Vec (Fp spec)) (i : ℕ) : ℝ := (weight (ranges.val i)).val

theorem bp_mid (values ranges : Vec (Fp spec)) (i : ℕ) : bp (mid values ranges) (hlf values ranges) i = toR (values.val i - ranges.val i, (i : ℤ) + 1) := by
  unfold bp mid hlf toR
  congr 1
  ring

theorem ep_mid (values ranges : Vec (Fp spec)) (i : ℕ) : ep (mid values ranges) (hlf values ranges) i = toR (values.val i + ranges.val i, -(i : ℤ) - 1) := by
  unfold ep mid hlf toR
  congr 1
  ring

theorem endpoints_base {values ranges : Vec (Fp spec)} (h : values.len < 2 ^ 31) :
    (endpoints values ranges).map toR = base (mid values ranges) (hlf values ranges) values.len := by
  unfold endpoints base
  rw [List.map_flatMap, List.flatMap_def, List.flatMap_def]
  refine congrArg List.flatten (List.map_congr_left fun i hi => ?_)
  have hi := List.mem_range.1 hi
  have h1 : Cxx.ofSize (Cxx.toSize ((i : ℤ) + 1)) = (i : ℤ) + 1 := by
    unfold Cxx.ofSize Cxx.toSize
    rw [Int.bmod_def]
    have hb : i + 1 < 2147483648 := by omega
    clear h hi
    omega
  have h2 : Cxx.ofSize (Cxx.toSize (-(i : ℤ) - 1)) = -(i : ℤ) - 1 := by
    unfold Cxx.ofSize Cxx.toSize
    rw [Int.bmod_def]
    have hb : i + 1 < 2147483648 := by omega
    clear h hi h1
    omega
  show [toR (_, Cxx.ofSize (Cxx.toSize ((i : ℤ) + 1))), toR (_, Cxx.ofSize (Cxx.toSize (-(i : ℤ) - 1)))] = _
  rw [h1, h2, bp_mid, ep_mid]

/-- The accumulators after a prefix of the endpoints. -/
structure Inv (values ranges : Vec (Fp spec)) (p q a b : ℤ) (pre : List (ℝ × ℤ)) (A : Acc spec) : Prop where
  card : A.consensusSetCardinal = (pre.map sg).sum
  w : Approx A.consensusWeighted (ssum (W ranges) pre) (pre.length * 2 ^ (q + -2 * a + 2 - spec.mantissaBits))
  v : Approx A.valueWeighted (ssum (fun i => W ranges i * V values i) pre) (pre.length * 2 ^ (q + (p - 2 * a) + 2 - spec.mantissaBits))
  x : Approx A.sumXi (ssum (V values) pre) (pre.length * 2 ^ (q + p + 2 - spec.mantissaBits))
  s : Approx A.sumXiSquare (ssum (fun i => V values i * V values i) pre) (pre.length * 2 ^ (q + 2 * p + 2 - spec.mantissaBits))
  r : Approx A.rangesInverseSum (∑ i ∈ range values.len, V ranges i - ssum (V ranges) pre) ((values.len + pre.length : ℕ) * 2 ^ (q + b + 2 - spec.mantissaBits))
  m : ∃ n : ℤ, A.consensusWeighted.val = n * 2 ^ (-2 * b - spec.mantissaBits + 1)

theorem sum_le {n : ℕ} {S : Finset ℕ} (hS : S ⊆ range n) {f : ℕ → ℝ} {T q : ℤ} (hn : (n : ℝ) ≤ 2 ^ q) (hf : ∀ i < n, |f i| ≤ 2 ^ T) : |∑ i ∈ S, f i| ≤ 2 ^ (q + T) := by
  calc |∑ i ∈ S, f i| ≤ ∑ i ∈ S, |f i| := abs_sum_le_sum_abs _ _
    _ ≤ ∑ i ∈ S, (2 : ℝ) ^ T := sum_le_sum fun i hi => hf i (mem_range.1 (hS hi))
    _ = S.card * 2 ^ T := by rw [sum_const, nsmul_eq_mul]
    _ ≤ 2 ^ q * 2 ^ T := mul_le_mul_of_nonneg_right (le_trans (by exact_mod_cast (card_le_card hS).trans (card_range n).le) hn) (two_pow_pos T).le
    _ = _ := (two_pow_add _ _).symm

/-- What is needed of the sizes for the sums. -/
structure Fits (spec : Format) [Fmt spec] (p q a b : ℤ) : Prop where
  q0 : 0 ≤ q
  q1 : q ≤ 28
  qm : q + 4 ≤ spec.mantissaBits
  a0 : -19 ≤ a
  ab : a ≤ b
  b0 : b ≤ 28
  p0 : -28 ≤ p
  p1 : p ≤ 28

theorem Sizes.fits {p q a b z : ℤ} (h : Sizes spec p q a b z) : Fits spec p q a b :=
  ⟨h.q0, h.q1, by have := h.cond; have := h.bz; have := h.ab; have := h.q0; omega, h.a0, h.ab, h.b0, h.p0, h.p1⟩

theorem inv_step (hl : Lim spec) {values ranges : Vec (Fp spec)} {p q a b : ℤ} (hf : Fits spec p q a b) (hd : Dom values ranges p q a b) (hw : Wts ranges a b)
    {pre : List (ℝ × ℤ)} {A : Acc spec} (hA : Inv values ranges p q a b pre A) (hlen : pre.length ≤ 2 * values.len)
    (hsum : ∀ (f : ℕ → ℝ) (T : ℤ), (∀ i < values.len, |f i| ≤ 2 ^ T) → |ssum f pre| ≤ 2 ^ (q + T))
    (hrsum : |∑ i ∈ range values.len, V ranges i - ssum (V ranges) pre| ≤ 2 ^ (q + b))
    {e : ℝ × ℤ} (hi : ix e < values.len) :
    Inv values ranges p q a b (pre ++ [e]) (A.add ((pre ++ [e]).map sg).sum (sg e) (weight (ranges.val (ix e))) (values.val (ix e)) (ranges.val (ix e))) := by
  obtain ⟨M, hMe⟩ : ∃ M : ℤ, M = spec.mantissaBits := ⟨_, rfl⟩
  have lo := hl.lo
  have hi' := hl.hi
  obtain ⟨q0, q1, qm, a0, ab, b0, p0, p1⟩ := hf
  rw [← hMe] at qm lo
  have hsg : sg e = 1 ∨ sg e = -1 := by unfold sg; split <;> simp
  have hsa : |(sg e : ℝ)| = 1 := by rcases hsg with h | h <;> rw [h] <;> simp
  have hn1 : (pre.length : ℝ) ≤ 2 ^ (q + 2) := by
    have h1 : (pre.length : ℝ) ≤ 2 * values.len := by exact_mod_cast hlen
    have h2 := hd.num
    have h3 : (2 : ℝ) ^ (q + 2) = 4 * 2 ^ q := by rw [two_pow_add]; norm_num; ring
    have := two_pow_pos q
    rw [h3]
    linarith
  have hn2 : ((values.len + pre.length : ℕ) : ℝ) ≤ 2 ^ (q + 2) := by
    have h1 : (pre.length : ℝ) ≤ 2 * values.len := by exact_mod_cast hlen
    have h2 := hd.num
    have h3 : (2 : ℝ) ^ (q + 2) = 4 * 2 ^ q := by rw [two_pow_add]; norm_num; ring
    have := two_pow_pos q
    rw [h3]
    push_cast
    linarith
  have hi2 : ix e < ranges.len := by rw [← hd.len]; exact hi
  have bV : ∀ i < values.len, |V values i| ≤ 2 ^ p := hd.v
  have bR : ∀ i < values.len, |V ranges i| ≤ 2 ^ b := fun i hi => by
    have := hd.ra i hi
    unfold V
    rw [abs_of_nonneg (le_trans (two_pow_pos a).le this)]
    exact hd.rb i hi
  have bW : ∀ i < values.len, |W ranges i| ≤ 2 ^ (-2 * a) := fun i hi => by
    rw [hd.len] at hi
    have := hw.lo i hi
    unfold W
    rw [abs_of_nonneg (le_trans (two_pow_pos _).le this)]
    exact hw.hi i hi
  have bWV : ∀ i < values.len, |W ranges i * V values i| ≤ 2 ^ (p - 2 * a) := fun i hi => by
    rw [abs_mul, show p - 2 * a = -2 * a + p by ring, two_pow_add]
    exact mul_le_mul (bW i hi) (bV i hi) (abs_nonneg _) (two_pow_pos _).le
  have bVV : ∀ i < values.len, |V values i * V values i| ≤ 2 ^ (2 * p) := fun i hi => by
    rw [abs_mul, two_mul, two_pow_add]
    exact mul_le_mul (bV i hi) (bV i hi) (abs_nonneg _) (two_pow_pos _).le
  -- signed terms
  have sw := sign_mul (spec := spec) hsg (by omega) (by omega) (hw.f _ hi2) ((bW _ hi).trans (two_pow_le (by omega)))
  have sv := sign_mul (spec := spec) hsg (by omega) (by omega) (hd.vf _ hi) ((bV _ hi).trans (two_pow_le (by omega)))
  have sr := sign_mul (spec := spec) hsg (by omega) (by omega) (hd.rf _ hi) ((bR _ hi).trans (two_pow_le (by omega)))
  have app : ∀ {t : Fp spec} {τ : ℝ} (T : ℤ), t.Fin → t.val = τ → Approx t τ (2 ^ (T - spec.mantissaBits)) := fun T h1 h2 => ⟨h1, by rw [h2]; simp [(two_pow_pos _).le]⟩
  have bnd : ∀ {f : ℕ → ℝ} {T : ℤ}, (∀ i < values.len, |f i| ≤ 2 ^ T) → |(sg e : ℝ) * f (ix e)| ≤ 2 ^ T := fun h => by
    rw [abs_mul, hsa, one_mul]
    exact h _ hi
  have hlen' : (pre ++ [e]).length = pre.length + 1 := by simp
  -- products
  have pwv : Approx (ofInt spec (sg e) * weight (ranges.val (ix e)) * values.val (ix e)) ((sg e : ℝ) * (W ranges (ix e) * V values (ix e))) (2 ^ (p - 2 * a - spec.mantissaBits)) := by
    have hb : |(ofInt spec (sg e) * weight (ranges.val (ix e))).val * (values.val (ix e)).val| ≤ 2 ^ (p - 2 * a) := by
      rw [sw.2, mul_assoc]
      exact bnd bWV
    have := mul_is sw.1 (hd.vf _ hi) (hb.trans (two_pow_le (by omega)))
    refine (this.approx (p - 2 * a) (by omega) hb (e := 0) (by rw [sw.2, mul_assoc]; simp [W, V])).weaken ?_
    rw [add_zero]
    exact two_pow_le (by omega)
  have pvv : Approx (ofInt spec (sg e) * values.val (ix e) * values.val (ix e)) ((sg e : ℝ) * (V values (ix e) * V values (ix e))) (2 ^ (2 * p - spec.mantissaBits)) := by
    have hb : |(ofInt spec (sg e) * values.val (ix e)).val * (values.val (ix e)).val| ≤ 2 ^ (2 * p) := by
      rw [sv.2, mul_assoc]
      exact bnd bVV
    have := mul_is sv.1 (hd.vf _ hi) (hb.trans (two_pow_le (by omega)))
    refine (this.approx (2 * p) (by omega) hb (e := 0) (by rw [sv.2, mul_assoc]; simp [V])).weaken ?_
    rw [add_zero]
    exact two_pow_le (by omega)
  have qm' : q + 4 ≤ spec.mantissaBits := by omega
  refine ⟨rfl, ?_, ?_, ?_, ?_, ?_, ?_⟩
  · rw [ssum_snoc, hlen']
    exact acc_add hA.w (app _ sw.1 sw.2) (hsum _ _ bW) (bnd bW) hn1 q0 qm' (by omega) (by omega)
  · rw [ssum_snoc, hlen']
    exact acc_add hA.v pwv (hsum _ _ bWV) (bnd bWV) hn1 q0 qm' (by omega) (by omega)
  · rw [ssum_snoc, hlen']
    exact acc_add hA.x (app _ sv.1 sv.2) (hsum _ _ bV) (bnd bV) hn1 q0 qm' (by omega) (by omega)
  · rw [ssum_snoc, hlen']
    exact acc_add hA.s pvv (hsum _ _ bVV) (bnd bVV) hn1 q0 qm' (by omega) (by omega)
  · rw [ssum_snoc, hlen', ← sub_sub]
    exact acc_sub hA.r (app _ sr.1 sr.2) hrsum (bnd bR) hn2 q0 qm' (by omega) (by omega)
  · have hbd : |A.consensusWeighted.val + (ofInt spec (sg e) * weight (ranges.val (ix e))).val| ≤ 2 ^ top spec := by
      have h1 := hA.w.abs_le (hsum _ _ bW)
      have h2 : |(ofInt spec (sg e) * weight (ranges.val (ix e))).val| ≤ 2 ^ (-2 * a) := by rw [sw.2]; exact bnd bW
      have h3 : (pre.length : ℝ) * 2 ^ (q + -2 * a + 2 - spec.mantissaBits) ≤ 2 ^ (q + -2 * a) := by
        calc (pre.length : ℝ) * 2 ^ (q + -2 * a + 2 - spec.mantissaBits) ≤ 2 ^ (q + 2) * 2 ^ (q + -2 * a + 2 - spec.mantissaBits) := mul_le_mul_of_nonneg_right hn1 (two_pow_pos _).le
          _ = 2 ^ (q + 2 + (q + -2 * a + 2 - spec.mantissaBits)) := (two_pow_add _ _).symm
          _ ≤ _ := two_pow_le (by omega)
      have h4 : (2 : ℝ) ^ (-2 * a) ≤ 2 ^ (q + -2 * a) := two_pow_le (by omega)
      have h5 : (2 : ℝ) ^ (q + -2 * a + 2) = 4 * 2 ^ (q + -2 * a) := by rw [two_pow_add (q + -2 * a) 2]; norm_num; ring
      have h6 : (2 : ℝ) ^ (q + -2 * a + 2) ≤ 2 ^ top spec := two_pow_le (by omega)
      have := two_pow_pos (q + -2 * a)
      exact (abs_add_le _ _).trans (by linarith)
    have hadd := add_is hA.w.1 sw.1 hbd
    refine hadd.2.multiple (by omega) ?_
    obtain ⟨n, hn⟩ := hA.m
    obtain ⟨k, hk⟩ := canon_multiple (weight (ranges.val (ix e))).canon (s := -2 * b) (le_trans (hw.lo _ hi2) (le_abs_self _))
    refine ⟨n + sg e * k, ?_⟩
    rw [hn, sw.2, show (weight (ranges.val (ix e))).val = k * 2 ^ (-2 * b - spec.mantissaBits + 1) from hk]
    push_cast
    ring

theorem fold_near (hl : Lim spec) {values ranges : Vec (Fp spec)} {p q a b : ℤ} (hf : Fits spec p q a b) (hd : Dom values ranges p q a b) (m : ℕ) (hm : m ≤ values.len) :
    Approx ((List.range m).foldl (fun s i => s + ranges.val i) 0) (∑ i ∈ range m, V ranges i) (m * 2 ^ (q + b + 2 - spec.mantissaBits)) := by
  have lo := hl.lo
  have hi' := hl.hi
  have qm := hf.qm
  have q0 := hf.q0
  have q1 := hf.q1
  have ab := hf.ab
  have a0 := hf.a0
  have b0 := hf.b0
  have bR : ∀ i < values.len, |V ranges i| ≤ 2 ^ b := fun i hi => by
    have := hd.ra i hi
    unfold V
    rw [abs_of_nonneg (le_trans (two_pow_pos a).le this)]
    exact hd.rb i hi
  induction m with
  | zero => exact ⟨zero_is.1, by
      show |(0 : Fp spec).val - _| ≤ _
      simp [zero_is.2]⟩
  | succ m ih =>
    rw [List.range_succ, List.foldl_append, sum_range_succ]
    refine acc_add (ih (by omega)) ⟨hd.rf m (by omega), by simp [V, (two_pow_pos _).le]⟩ (sum_le (range_subset_range.2 (show m ≤ values.len by omega)) hd.num bR) (bR m (by omega)) ?_ q0 qm (by omega) (by omega)
    have h1 : (m : ℝ) ≤ values.len := by exact_mod_cast (by omega : m ≤ values.len)
    exact (h1.trans hd.num).trans (two_pow_le (by omega))

theorem inv_init (hl : Lim spec) {values ranges : Vec (Fp spec)} {p q a b : ℤ} (hf : Fits spec p q a b) (hd : Dom values ranges p q a b) :
    Inv values ranges p q a b [] (Acc.init ranges) := by
  have hz : ∀ e : ℝ, Approx (0 : Fp spec) 0 (((0 : ℕ) : ℝ) * e) := fun e => ⟨zero_is.1, by simp [zero_is.2]⟩
  refine ⟨rfl, hz _, hz _, hz _, hz _, ?_, 0, by simp [Acc.init, zero_is.2]⟩
  have := fold_near hl hf hd values.len le_rfl
  rw [show ssum (V ranges) [] = 0 from rfl, sub_zero]
  unfold Acc.init
  rw [← hd.len]
  exact this

/-- The order of the endpoints: a permutation sorted by the value. -/
structure Sorted (values ranges : Vec (Fp spec)) (L : List (Fp spec × ℤ)) : Prop where
  r : ∀ i < values.len, 0 < hlf values ranges i
  p : (L.map toR).Perm (base (mid values ranges) (hlf values ranges) values.len)
  s : (L.map toR).Pairwise fun x y => x.1 ≤ y.1

variable {values ranges : Vec (Fp spec)} {L : List (Fp spec × ℤ)}

theorem ix_toR (e : Fp spec × ℤ) : ix (toR e) = e.2.natAbs - 1 := rfl

theorem base_length (v r : ℕ → ℝ) (n : ℕ) : (base v r n).length = 2 * n := by
  unfold base
  rw [List.length_flatMap]
  simp
  ring

theorem sweep_near (hl : Lim spec) {p q a b : ℤ} (hf : Fits spec p q a b) (hd : Dom values ranges p q a b) (hw : Wts ranges a b) (hs : Sorted values ranges L)
    (suf pre : List (Fp spec × ℤ)) (he : L = pre ++ suf) (A : Acc spec) (hA : Inv values ranges p q a b (pre.map toR) A) :
    ∃ outs, sweep values ranges (weights ranges) suf A = .ok outs ∧ outs.length = suf.length ∧
      ∀ k, (hk : k < outs.length) → ∃ A', Inv values ranges p q a b ((pre ++ suf.take (k + 1)).map toR) A' ∧ outs[k] = (A'.hat, A'.cost) := by
  induction suf generalizing pre A with
  | nil => exact ⟨[], rfl, rfl, fun k hk => absurd hk (Nat.not_lt_zero k)⟩
  | cons e l ih =>
    have he' : L = (pre ++ [e]) ++ l := by rw [he]; simp
    have hE : L.map toR = pre.map toR ++ (e :: l).map toR := by rw [he, List.map_append]
    have hE' : L.map toR = (pre ++ [e]).map toR ++ l.map toR := by rw [he', List.map_append]
    obtain ⟨hix, habs⟩ : ix (toR e) < values.len ∧ |e.2| = (ix (toR e) : ℤ) + 1 := by
      have hmem : toR e ∈ L.map toR := by rw [hE]; simp
      obtain ⟨i, hi, h⟩ := mem_base.1 (hs.p.mem_iff.1 hmem)
      rcases h with h | h
      · refine ⟨by rw [h, (ix_bp _ _ i).1]; exact hi, ?_⟩
        rw [h, (ix_bp _ _ i).1, show e.2 = (toR e).2 from rfl, h]
        show |(i : ℤ) + 1| = _
        rw [abs_of_nonneg (by omega)]
      · refine ⟨by rw [h, (ix_ep _ _ i).1]; exact hi, ?_⟩
        rw [h, (ix_ep _ _ i).1, show e.2 = (toR e).2 from rfl, h]
        show |-(i : ℤ) - 1| = _
        rw [abs_of_nonpos (by omega)]
        omega
    have hact : active (mid values ranges) (hlf values ranges) values.len (pre.map toR) ⊆ range values.len := filter_subset _ _
    have hsum : ∀ (f : ℕ → ℝ) (T : ℤ), (∀ i < values.len, |f i| ≤ 2 ^ T) → |ssum f (pre.map toR)| ≤ 2 ^ (q + T) := by
      intro f T h
      rw [ssum_active hs.r hs.p hs.s hE]
      exact sum_le hact hd.num h
    have bR : ∀ i < values.len, |V ranges i| ≤ 2 ^ b := fun i hi => by
      have := hd.ra i hi
      unfold V
      rw [abs_of_nonneg (le_trans (two_pow_pos a).le this)]
      exact hd.rb i hi
    have hrsum : |∑ i ∈ range values.len, V ranges i - ssum (V ranges) (pre.map toR)| ≤ 2 ^ (q + b) := by
      rw [ssum_active hs.r hs.p hs.s hE, ← sum_sdiff hact, add_sub_cancel_right]
      exact sum_le sdiff_subset hd.num bR
    have hlen : (pre.map toR).length ≤ 2 * values.len := by
      have := hs.p.length_eq
      rw [base_length, hE, List.length_append] at this
      omega
    have hinv := inv_step hl hf hd hw hA hlen hsum hrsum hix
    have hcard := card_active hs.r hs.p hs.s hE'
    rw [List.map_append, List.map_cons, List.map_nil] at hcard
    have hcard' : (active (mid values ranges) (hlf values ranges) values.len (pre.map toR ++ [toR e])).card ≤ values.len :=
      le_trans (card_filter_le _ _) (le_of_eq (card_range _))
    have hsm := hd.small
    have hadd : A.consensusSetCardinal + sg (toR e) = ((pre.map toR ++ [toR e]).map sg).sum := by rw [hA.card]; simp
    have hstep : step values ranges (weights ranges) A e = .ok (A.add ((pre.map toR ++ [toR e]).map sg).sum (sg (toR e)) (weight (ranges.val (ix (toR e))))
        (values.val (ix (toR e))) (ranges.val (ix (toR e))), (A.add ((pre.map toR ++ [toR e]).map sg).sum (sg (toR e)) (weight (ranges.val (ix (toR e))))
        (values.val (ix (toR e))) (ranges.val (ix (toR e)))).hat, (A.add ((pre.map toR ++ [toR e]).map sg).sum (sg (toR e)) (weight (ranges.val (ix (toR e))))
        (values.val (ix (toR e))) (ranges.val (ix (toR e)))).cost) := by
      unfold step
      rw [habs, int_ok (by omega) (by omega), Tls.bind_ok, add_sub_cancel_right, int_ok (by omega) (by omega), Tls.bind_ok]
      dsimp only
      rw [show (if e.2 > 0 then 1 else -1 : ℤ) = sg (toR e) from rfl, hadd, int_ok (by omega) (by omega), Tls.bind_ok,
        Vec.get_nat _ (show ix (toR e) < (weights ranges).len by show _ < ranges.len; rw [← hd.len]; exact hix), Tls.bind_ok,
        Vec.get_nat _ hix, Tls.bind_ok, Vec.get_nat _ (show ix (toR e) < ranges.len by rw [← hd.len]; exact hix), Tls.bind_ok]
      rfl
    generalize A.add ((pre.map toR ++ [toR e]).map sg).sum (sg (toR e)) (weight (ranges.val (ix (toR e)))) (values.val (ix (toR e))) (ranges.val (ix (toR e))) = B at hinv hstep
    obtain ⟨outs, h1, h2, h3⟩ := ih (pre ++ [e]) he' _ (by rw [List.map_append]; exact hinv)
    refine ⟨(B.hat, B.cost) :: outs, ?_, by simp [h2], ?_⟩
    · unfold sweep
      rw [hstep, Tls.bind_ok]
      dsimp only
      rw [h1]
      rfl
    · intro k hk
      cases k with
      | zero => exact ⟨B, by rw [show (e :: l).take (0 + 1) = [e] from by simp, List.map_append]; exact hinv, rfl⟩
      | succ k =>
        obtain ⟨A', h4, h5⟩ := h3 k (by simpa using hk)
        refine ⟨A', ?_, by simpa using h5⟩
        rw [List.append_assoc] at h4
        exact h4

/-- The accumulators of a prefix are near the sums over the active measures. -/
theorem inv_near {p q a b : ℤ} (hf : Fits spec p q a b) (hd : Dom values ranges p q a b) (hs : Sorted values ranges L) {pre suf : List (Fp spec × ℤ)}
    (he : L = pre ++ suf) {A : Acc spec} (hA : Inv values ranges p q a b (pre.map toR) A) {S : Finset ℕ} (hS : S = active (mid values ranges) (hlf values ranges) values.len (pre.map toR)) :
    Near A p q a b S.card (∑ i ∈ S, W ranges i) (∑ i ∈ S, W ranges i * V values i) (∑ i ∈ S, V values i) (∑ i ∈ S, V values i * V values i) (∑ i ∈ range values.len \ S, V ranges i) := by
  have hE : L.map toR = pre.map toR ++ suf.map toR := by rw [he, List.map_append]
  have hact : S ⊆ range values.len := by rw [hS]; exact filter_subset _ _
  have hlen : (pre.map toR).length ≤ 2 * values.len := by
    have := hs.p.length_eq
    rw [base_length, hE, List.length_append] at this
    omega
  have hsum : ∀ f : ℕ → ℝ, ssum f (pre.map toR) = ∑ i ∈ S, f i := fun f => by rw [hS]; exact ssum_active hs.r hs.p hs.s hE f
  have hl1 : ((pre.map toR).length : ℝ) ≤ 2 * values.len := by exact_mod_cast hlen
  have e1 : ∀ T : ℤ, ((pre.map toR).length : ℝ) * 2 ^ (q + T + 2 - spec.mantissaBits) ≤ 2 ^ (2 * q + T + 3 - spec.mantissaBits) := fun T => by
    calc ((pre.map toR).length : ℝ) * 2 ^ (q + T + 2 - spec.mantissaBits) ≤ 2 ^ (q + 1) * 2 ^ (q + T + 2 - spec.mantissaBits) := by
          apply mul_le_mul_of_nonneg_right _ (two_pow_pos _).le
          rw [← pow_double]
          linarith [hd.num]
      _ = _ := by rw [← two_pow_add]; congr 1; ring
  have e2 : ((values.len + (pre.map toR).length : ℕ) : ℝ) * 2 ^ (q + b + 2 - spec.mantissaBits) ≤ 2 ^ (2 * q + b + 4 - spec.mantissaBits) := by
    calc ((values.len + (pre.map toR).length : ℕ) : ℝ) * 2 ^ (q + b + 2 - spec.mantissaBits) ≤ 2 ^ (q + 2) * 2 ^ (q + b + 2 - spec.mantissaBits) := by
          apply mul_le_mul_of_nonneg_right _ (two_pow_pos _).le
          have h3 : (2 : ℝ) ^ (q + 2) = 4 * 2 ^ q := by rw [two_pow_add]; norm_num; ring
          have := two_pow_pos q
          rw [h3]
          push_cast at hl1 ⊢
          linarith [hd.num]
      _ = _ := by rw [← two_pow_add]; congr 1; ring
  refine ⟨?_, ?_, ?_, ?_, ?_, ?_⟩
  · rw [hA.card, hS]
    exact card_active hs.r hs.p hs.s hE
  · rw [← hsum]; exact hA.w.weaken (e1 _)
  · rw [← hsum (fun i => W ranges i * V values i)]; exact hA.v.weaken (e1 _)
  · rw [← hsum]; exact hA.x.weaken (e1 _)
  · rw [← hsum (fun i => V values i * V values i)]; exact hA.s.weaken (e1 _)
  · have : ∑ i ∈ range values.len \ S, V ranges i = ∑ i ∈ range values.len, V ranges i - ssum (V ranges) (pre.map toR) := by
      rw [hsum, ← sum_sdiff hact, add_sub_cancel_right]
    rw [this]
    exact hA.r.weaken e2

end

end Verif.TlsFp
