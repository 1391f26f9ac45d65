import Verif.Functions.FastTrig
import Mathlib.Analysis.SpecialFunctions.Trigonometric.Bounds
import Mathlib.Analysis.SpecialFunctions.Trigonometric.ArctanDeriv
import Mathlib.Analysis.Calculus.Deriv.MeanValue

/-! Polynomial bounds for C74: sine and arc tangent between polynomials, and the polynomials of the code close to those. The
coefficients in the positivity proofs are the Bernstein coefficients of the polynomials on the intervals. -/
namespace Verif.Functions
open Real

/-- A function that starts from a nonnegative value with nonnegative derivative is nonnegative. -/
theorem nonneg_of_deriv {f f' : ℝ → ℝ} (hd : ∀ x, HasDerivAt f (f' x) x) {b : ℝ} (h0 : 0 ≤ f 0) (hp : ∀ x, 0 ≤ x → x ≤ b → 0 ≤ f' x)
    {x : ℝ} (hx : 0 ≤ x) (hb : x ≤ b) : 0 ≤ f x := by
  have hm : MonotoneOn f (Set.Icc 0 b) := by
    refine monotoneOn_of_deriv_nonneg (convex_Icc 0 b) (fun y _ => (hd y).continuousAt.continuousWithinAt)
      (fun y _ => (hd y).differentiableAt.differentiableWithinAt) (fun y hy => ?_)
    rw [interior_Icc] at hy
    rw [(hd y).deriv]
    exact hp y hy.1.le hy.2.le
  exact le_trans h0 (hm ⟨le_refl _, le_trans hx hb⟩ ⟨hx, hb⟩ hx)

theorem taylor1 {x : ℝ} (hx : 0 ≤ x) : sin x ≤ 1 * x ^ 1 := by simpa using sin_le hx

theorem taylor2 {x : ℝ} (hx : 0 ≤ x) : 1 + (-1 / 2) * x ^ 2 ≤ cos x := by
  have hd : ∀ y : ℝ, HasDerivAt (fun x => cos x - (1 + (-1 / 2) * x ^ 2)) ((fun x => (1 * x ^ 1) - sin x) y) y := by
    intro y
    have h := (hasDerivAt_cos y).sub ((hasDerivAt_const y (1 : ℝ)).add ((hasDerivAt_pow 2 y).const_mul ((-1 / 2) : ℝ)))
    refine (h.congr_deriv ?_).congr_of_eventuallyEq (Filter.Eventually.of_forall fun z => ?_)
    · norm_num; ring
    · simp
  have := nonneg_of_deriv hd (b := x) (by simp) (fun y hy _ => sub_nonneg.2 (taylor1 hy)) hx (le_refl _)
  exact sub_nonneg.1 this

theorem taylor3 {x : ℝ} (hx : 0 ≤ x) : 1 * x ^ 1 + (-1 / 6) * x ^ 3 ≤ sin x := by
  have hd : ∀ y : ℝ, HasDerivAt (fun x => sin x - (1 * x ^ 1 + (-1 / 6) * x ^ 3)) ((fun x => cos x - (1 + (-1 / 2) * x ^ 2)) y) y := by
    intro y
    have h := (hasDerivAt_sin y).sub (((hasDerivAt_pow 1 y).const_mul (1 : ℝ)).add ((hasDerivAt_pow 3 y).const_mul ((-1 / 6) : ℝ)))
    refine (h.congr_deriv ?_).congr_of_eventuallyEq (Filter.Eventually.of_forall fun z => ?_)
    · norm_num; ring
    · simp
  have := nonneg_of_deriv hd (b := x) (by simp) (fun y hy _ => sub_nonneg.2 (taylor2 hy)) hx (le_refl _)
  exact sub_nonneg.1 this

theorem taylor4 {x : ℝ} (hx : 0 ≤ x) : cos x ≤ 1 + (-1 / 2) * x ^ 2 + (1 / 24) * x ^ 4 := by
  have hd : ∀ y : ℝ, HasDerivAt (fun x => (1 + (-1 / 2) * x ^ 2 + (1 / 24) * x ^ 4) - cos x) ((fun x => sin x - (1 * x ^ 1 + (-1 / 6) * x ^ 3)) y) y := by
    intro y
    have h := (((hasDerivAt_const y (1 : ℝ)).add ((hasDerivAt_pow 2 y).const_mul ((-1 / 2) : ℝ))).add ((hasDerivAt_pow 4 y).const_mul ((1 / 24) : ℝ))).sub (hasDerivAt_cos y)
    refine (h.congr_deriv ?_).congr_of_eventuallyEq (Filter.Eventually.of_forall fun z => ?_)
    · norm_num; ring
    · simp
  have := nonneg_of_deriv hd (b := x) (by simp) (fun y hy _ => sub_nonneg.2 (taylor3 hy)) hx (le_refl _)
  exact sub_nonneg.1 this

theorem taylor5 {x : ℝ} (hx : 0 ≤ x) : sin x ≤ 1 * x ^ 1 + (-1 / 6) * x ^ 3 + (1 / 120) * x ^ 5 := by
  have hd : ∀ y : ℝ, HasDerivAt (fun x => (1 * x ^ 1 + (-1 / 6) * x ^ 3 + (1 / 120) * x ^ 5) - sin x) ((fun x => (1 + (-1 / 2) * x ^ 2 + (1 / 24) * x ^ 4) - cos x) y) y := by
    intro y
    have h := ((((hasDerivAt_pow 1 y).const_mul (1 : ℝ)).add ((hasDerivAt_pow 3 y).const_mul ((-1 / 6) : ℝ))).add ((hasDerivAt_pow 5 y).const_mul ((1 / 120) : ℝ))).sub (hasDerivAt_sin y)
    refine (h.congr_deriv ?_).congr_of_eventuallyEq (Filter.Eventually.of_forall fun z => ?_)
    · norm_num; ring
    · simp
  have := nonneg_of_deriv hd (b := x) (by simp) (fun y hy _ => sub_nonneg.2 (taylor4 hy)) hx (le_refl _)
  exact sub_nonneg.1 this

theorem taylor6 {x : ℝ} (hx : 0 ≤ x) : 1 + (-1 / 2) * x ^ 2 + (1 / 24) * x ^ 4 + (-1 / 720) * x ^ 6 ≤ cos x := by
  have hd : ∀ y : ℝ, HasDerivAt (fun x => cos x - (1 + (-1 / 2) * x ^ 2 + (1 / 24) * x ^ 4 + (-1 / 720) * x ^ 6)) ((fun x => (1 * x ^ 1 + (-1 / 6) * x ^ 3 + (1 / 120) * x ^ 5) - sin x) y) y := by
    intro y
    have h := (hasDerivAt_cos y).sub ((((hasDerivAt_const y (1 : ℝ)).add ((hasDerivAt_pow 2 y).const_mul ((-1 / 2) : ℝ))).add ((hasDerivAt_pow 4 y).const_mul ((1 / 24) : ℝ))).add ((hasDerivAt_pow 6 y).const_mul ((-1 / 720) : ℝ)))
    refine (h.congr_deriv ?_).congr_of_eventuallyEq (Filter.Eventually.of_forall fun z => ?_)
    · norm_num; ring
    · simp
  have := nonneg_of_deriv hd (b := x) (by simp) (fun y hy _ => sub_nonneg.2 (taylor5 hy)) hx (le_refl _)
  exact sub_nonneg.1 this

theorem taylor7 {x : ℝ} (hx : 0 ≤ x) : 1 * x ^ 1 + (-1 / 6) * x ^ 3 + (1 / 120) * x ^ 5 + (-1 / 5040) * x ^ 7 ≤ sin x := by
  have hd : ∀ y : ℝ, HasDerivAt (fun x => sin x - (1 * x ^ 1 + (-1 / 6) * x ^ 3 + (1 / 120) * x ^ 5 + (-1 / 5040) * x ^ 7)) ((fun x => cos x - (1 + (-1 / 2) * x ^ 2 + (1 / 24) * x ^ 4 + (-1 / 720) * x ^ 6)) y) y := by
    intro y
    have h := (hasDerivAt_sin y).sub (((((hasDerivAt_pow 1 y).const_mul (1 : ℝ)).add ((hasDerivAt_pow 3 y).const_mul ((-1 / 6) : ℝ))).add ((hasDerivAt_pow 5 y).const_mul ((1 / 120) : ℝ))).add ((hasDerivAt_pow 7 y).const_mul ((-1 / 5040) : ℝ)))
    refine (h.congr_deriv ?_).congr_of_eventuallyEq (Filter.Eventually.of_forall fun z => ?_)
    · norm_num; ring
    · simp
  have := nonneg_of_deriv hd (b := x) (by simp) (fun y hy _ => sub_nonneg.2 (taylor6 hy)) hx (le_refl _)
  exact sub_nonneg.1 this

theorem taylor8 {x : ℝ} (hx : 0 ≤ x) : cos x ≤ 1 + (-1 / 2) * x ^ 2 + (1 / 24) * x ^ 4 + (-1 / 720) * x ^ 6 + (1 / 40320) * x ^ 8 := by
  have hd : ∀ y : ℝ, HasDerivAt (fun x => (1 + (-1 / 2) * x ^ 2 + (1 / 24) * x ^ 4 + (-1 / 720) * x ^ 6 + (1 / 40320) * x ^ 8) - cos x) ((fun x => sin x - (1 * x ^ 1 + (-1 / 6) * x ^ 3 + (1 / 120) * x ^ 5 + (-1 / 5040) * x ^ 7)) y) y := by
    intro y
    have h := (((((hasDerivAt_const y (1 : ℝ)).add ((hasDerivAt_pow 2 y).const_mul ((-1 / 2) : ℝ))).add ((hasDerivAt_pow 4 y).const_mul ((1 / 24) : ℝ))).add ((hasDerivAt_pow 6 y).const_mul ((-1 / 720) : ℝ))).add ((hasDerivAt_pow 8 y).const_mul ((1 / 40320) : ℝ))).sub (hasDerivAt_cos y)
    refine (h.congr_deriv ?_).congr_of_eventuallyEq (Filter.Eventually.of_forall fun z => ?_)
    · norm_num; ring
    · simp
  have := nonneg_of_deriv hd (b := x) (by simp) (fun y hy _ => sub_nonneg.2 (taylor7 hy)) hx (le_refl _)
  exact sub_nonneg.1 this

theorem taylor9 {x : ℝ} (hx : 0 ≤ x) : sin x ≤ 1 * x ^ 1 + (-1 / 6) * x ^ 3 + (1 / 120) * x ^ 5 + (-1 / 5040) * x ^ 7 + (1 / 362880) * x ^ 9 := by
  have hd : ∀ y : ℝ, HasDerivAt (fun x => (1 * x ^ 1 + (-1 / 6) * x ^ 3 + (1 / 120) * x ^ 5 + (-1 / 5040) * x ^ 7 + (1 / 362880) * x ^ 9) - sin x) ((fun x => (1 + (-1 / 2) * x ^ 2 + (1 / 24) * x ^ 4 + (-1 / 720) * x ^ 6 + (1 / 40320) * x ^ 8) - cos x) y) y := by
    intro y
    have h := ((((((hasDerivAt_pow 1 y).const_mul (1 : ℝ)).add ((hasDerivAt_pow 3 y).const_mul ((-1 / 6) : ℝ))).add ((hasDerivAt_pow 5 y).const_mul ((1 / 120) : ℝ))).add ((hasDerivAt_pow 7 y).const_mul ((-1 / 5040) : ℝ))).add ((hasDerivAt_pow 9 y).const_mul ((1 / 362880) : ℝ))).sub (hasDerivAt_sin y)
    refine (h.congr_deriv ?_).congr_of_eventuallyEq (Filter.Eventually.of_forall fun z => ?_)
    · norm_num; ring
    · simp
  have := nonneg_of_deriv hd (b := x) (by simp) (fun y hy _ => sub_nonneg.2 (taylor8 hy)) hx (le_refl _)
  exact sub_nonneg.1 this

theorem sinUpp0 {z : ℝ} (h0 : 0 ≤ z) (h1 : z ≤ (1 / 2)) :
    0 ≤
      (1199 / 1000000) + (5199 / 250000) * z ^ 1 + (-1 / 8) * z ^ 2 + (23815903655691901 / 93750000000000000) * z ^ 3 + (-9 / 40)
      * z ^ 4 + (9338969923629014997199063499 / 117187500000000000000000000000) * z ^ 5 +
      (-1440185942316240093872658581952428658899 / 307617187500000000000000000000000000000000) * z ^ 7 := by
  have key : ∀ s t : ℝ, 0 ≤ s → 0 ≤ t → 0 ≤
      (9592 / 15625) * s ^ 0 * t ^ 9 + (169512 / 15625) * s ^ 1 * t ^ 8 + (760784 / 15625) * s ^ 2 * t ^ 7 + (153648403655691901 /
      1464843750000000) * s ^ 3 * t ^ 6 + (31697091155691901 / 244140625000000) * s ^ 4 * t ^ 5 + (726299869100521589997199063499
      / 7324218750000000000000000000) * s ^ 5 * t ^ 4 + (29275416271975513332399687833 / 610351562500000000000000000) * s ^ 6 * t
      ^ 3 + (1128363423103683742229668341855047571341101 / 76904296875000000000000000000000000000000) * s ^ 7 * t ^ 2 +
      (104897851975367482347307674897047571341101 / 38452148437500000000000000000000000000000) * s ^ 8 * t ^ 1 +
      (19406127679613219876717508157547571341101 / 76904296875000000000000000000000000000000) * s ^ 9 * t ^ 0 := by
    intro s t hs ht
    positivity
  have := key (z - 0) ((1 / 2) - z) (sub_nonneg.2 h0) (sub_nonneg.2 h1)
  refine le_of_le_of_eq this ?_
  ring

theorem sinUpp1 {z : ℝ} (h0 : (1 / 2) ≤ z) (h1 : z ≤ 1) :
    0 ≤
      (1199 / 1000000) + (5199 / 250000) * z ^ 1 + (-1 / 8) * z ^ 2 + (23815903655691901 / 93750000000000000) * z ^ 3 + (-9 / 40)
      * z ^ 4 + (9338969923629014997199063499 / 117187500000000000000000000000) * z ^ 5 +
      (-1440185942316240093872658581952428658899 / 307617187500000000000000000000000000000000) * z ^ 7 := by
  have key : ∀ s t : ℝ, 0 ≤ s → 0 ≤ t → 0 ≤
      (19406127679613219876717508157547571341101 / 76904296875000000000000000000000000000000) * s ^ 0 * t ^ 9 +
      (8719662142643937067893737315110071341101 / 4806518554687500000000000000000000000000) * s ^ 1 * t ^ 8 +
      (566114545756227969363143919836375561544413 / 76904296875000000000000000000000000000000) * s ^ 2 * t ^ 7 +
      (13112574852384328751509860507507761584037 / 610351562500000000000000000000000000000) * s ^ 3 * t ^ 6 +
      (117090171257461498998186522033170567667343 / 2746582031250000000000000000000000000000) * s ^ 4 * t ^ 5 +
      (74479149531887986625485687342385139620737 / 1373291015625000000000000000000000000000) * s ^ 5 * t ^ 4 +
      (9822566436665066289413060771082999387707 / 228881835937500000000000000000000000000) * s ^ 6 * t ^ 3 +
      (48681607438341403699417179837271281078353 / 2403259277343750000000000000000000000000) * s ^ 7 * t ^ 2 +
      (6202309378822248090568797501898284752111 / 1201629638671875000000000000000000000000) * s ^ 8 * t ^ 1 +
      (320568391511474430024883102922571341101 / 600814819335937500000000000000000000000) * s ^ 9 * t ^ 0 := by
    intro s t hs ht
    positivity
  have := key (z - (1 / 2)) (1 - z) (sub_nonneg.2 h0) (sub_nonneg.2 h1)
  refine le_of_le_of_eq this ?_
  ring

theorem sinUpp {z : ℝ} (h0 : 0 ≤ z) (h1 : z ≤ 1) :
    0 ≤
      (1199 / 1000000) + (5199 / 250000) * z ^ 1 + (-1 / 8) * z ^ 2 + (23815903655691901 / 93750000000000000) * z ^ 3 + (-9 / 40)
      * z ^ 4 + (9338969923629014997199063499 / 117187500000000000000000000000) * z ^ 5 +
      (-1440185942316240093872658581952428658899 / 307617187500000000000000000000000000000000) * z ^ 7 := by
  rcases le_total z (1 / 2) with h | h
  · exact sinUpp0 h0 h
  have h2 := h
  exact sinUpp1 h2 h1

theorem sinLow0 {z : ℝ} (h0 : 0 ≤ z) (h1 : z ≤ (1 / 4)) :
    0 ≤
      (1199 / 1000000) + (-5199 / 250000) * z ^ 1 + (1 / 8) * z ^ 2 + (-23815903655691901 / 93750000000000000) * z ^ 3 + (9 / 40)
      * z ^ 4 + (-9338969923629014997199063499 / 117187500000000000000000000000) * z ^ 5 +
      (1440185942316240093872658581952428658899 / 307617187500000000000000000000000000000000) * z ^ 7 +
      (-222094681255738696073358033477441040123586297094299 / 1384277343750000000000000000000000000000000000000000000) * z ^ 9 := by
  have key : ∀ s t : ℝ, 0 ≤ s → 0 ≤ t → 0 ≤
      (4911104 / 15625) * s ^ 0 * t ^ 9 + (22904832 / 15625) * s ^ 1 * t ^ 8 + (38438912 / 15625) * s ^ 2 * t ^ 7 +
      (35173096344308099 / 22888183593750) * s ^ 3 * t ^ 6 + (1055502594308099 / 3814697265625) * s ^ 4 * t ^ 5 +
      (643013683368800685002800936501 / 457763671875000000000000000) * s ^ 5 * t ^ 4 + (121009179835726961667600312167 /
      38146972656250000000000000) * s ^ 6 * t ^ 3 + (52603188703469851860799708656833952428658899 /
      19226074218750000000000000000000000000000) * s ^ 7 * t ^ 2 + (10469088250013888460329151324665952428658899 /
      9613037109375000000000000000000000000000) * s ^ 8 * t ^ 1 + (233894073147865199716532790038891097422400604413702905701 /
      1384277343750000000000000000000000000000000000000000000) * s ^ 9 * t ^ 0 := by
    intro s t hs ht
    positivity
  have := key (z - 0) ((1 / 4) - z) (sub_nonneg.2 h0) (sub_nonneg.2 h1)
  refine le_of_le_of_eq this ?_
  ring

theorem sinLow1 {z : ℝ} (h0 : (1 / 4) ≤ z) (h1 : z ≤ (1 / 2)) :
    0 ≤
      (1199 / 1000000) + (-5199 / 250000) * z ^ 1 + (1 / 8) * z ^ 2 + (-23815903655691901 / 93750000000000000) * z ^ 3 + (9 / 40)
      * z ^ 4 + (-9338969923629014997199063499 / 117187500000000000000000000000) * z ^ 5 +
      (1440185942316240093872658581952428658899 / 307617187500000000000000000000000000000000) * z ^ 7 +
      (-222094681255738696073358033477441040123586297094299 / 1384277343750000000000000000000000000000000000000000000) * z ^ 9 := by
  have key : ∀ s t : ℝ, 0 ≤ s → 0 ≤ t → 0 ≤
      (233894073147865199716532790038891097422400604413702905701 / 1384277343750000000000000000000000000000000000000000000) * s ^
      0 * t ^ 9 + (7149588911797813906376170449598260856815686305414424081 / 3662109375000000000000000000000000000000000000000000)
      * s ^ 1 * t ^ 8 + (30896751833125970093888741057550944926062556637900968567 /
      3204345703125000000000000000000000000000000000000000) * s ^ 2 * t ^ 7 +
      (55006242491607398529782304375141167777575376913702905701 / 2059936523437500000000000000000000000000000000000000) * s ^ 3 *
      t ^ 6 + (10506450979455500625233869198920658997097511137900968567 / 228881835937500000000000000000000000000000000000000) * s
      ^ 4 * t ^ 5 + (5843045648381545844794039596666754139779713137900968567 /
      114440917968750000000000000000000000000000000000000) * s ^ 5 * t ^ 4 +
      (9505372009382432042036025312092524061715194913702905701 / 257492065429687500000000000000000000000000000000000) * s ^ 6 * t
      ^ 3 + (1681811026576974857876571975008920639473566637900968567 / 100135803222656250000000000000000000000000000000000) * s ^
      7 * t ^ 2 + (125240057104011255911132418835355999497888305414424081 / 28610229492187500000000000000000000000000000000000) *
      s ^ 8 * t ^ 1 + (1350050107085706303523011495130666274820058413702905701 /
      2703666687011718750000000000000000000000000000000000) * s ^ 9 * t ^ 0 := by
    intro s t hs ht
    positivity
  have := key (z - (1 / 4)) ((1 / 2) - z) (sub_nonneg.2 h0) (sub_nonneg.2 h1)
  refine le_of_le_of_eq this ?_
  ring

theorem sinLow2 {z : ℝ} (h0 : (1 / 2) ≤ z) (h1 : z ≤ (3 / 4)) :
    0 ≤
      (1199 / 1000000) + (-5199 / 250000) * z ^ 1 + (1 / 8) * z ^ 2 + (-23815903655691901 / 93750000000000000) * z ^ 3 + (9 / 40)
      * z ^ 4 + (-9338969923629014997199063499 / 117187500000000000000000000000) * z ^ 5 +
      (1440185942316240093872658581952428658899 / 307617187500000000000000000000000000000000) * z ^ 7 +
      (-222094681255738696073358033477441040123586297094299 / 1384277343750000000000000000000000000000000000000000000) * z ^ 9 := by
  have key : ∀ s t : ℝ, 0 ≤ s → 0 ≤ t → 0 ≤
      (1350050107085706303523011495130666274820058413702905701 / 2703666687011718750000000000000000000000000000000000) * s ^ 0 * t
      ^ 9 + (2770159229158588839958265184980189109824579241108717103 / 600814819335937500000000000000000000000000000000000) * s ^
      1 * t ^ 8 + (800843599946904919561093354682516342842342746189450187 / 42915344238281250000000000000000000000000000000000) *
      s ^ 2 * t ^ 7 + (1244561582225613367619091476728045894882836741108717103 /
      28610229492187500000000000000000000000000000000000) * s ^ 3 * t ^ 6 +
      (7375680290656928617967167231221911551190212169978453927 / 114440917968750000000000000000000000000000000000000) * s ^ 4 * t
      ^ 5 + (4808845576785505013946584778333338691423242169978453927 / 76293945312500000000000000000000000000000000000000) * s ^ 5
      * t ^ 4 + (9328178199762938583217206724387583423933862009935361781 / 228881835937500000000000000000000000000000000000000) *
      s ^ 6 * t ^ 3 + (17976459783052265308925117585922310107689129029806085343 /
      1068115234375000000000000000000000000000000000000000) * s ^ 7 * t ^ 2 +
      (34480361548983350792027701373910683191415425589418256029 / 8544921875000000000000000000000000000000000000000000) * s ^ 8 *
      t ^ 1 + (1046922802629496860678959745464643305735660647115155049 / 2441406250000000000000000000000000000000000000000000) * s
      ^ 9 * t ^ 0 := by
    intro s t hs ht
    positivity
  have := key (z - (1 / 2)) ((3 / 4) - z) (sub_nonneg.2 h0) (sub_nonneg.2 h1)
  refine le_of_le_of_eq this ?_
  ring

theorem sinLow3 {z : ℝ} (h0 : (3 / 4) ≤ z) (h1 : z ≤ 1) :
    0 ≤
      (1199 / 1000000) + (-5199 / 250000) * z ^ 1 + (1 / 8) * z ^ 2 + (-23815903655691901 / 93750000000000000) * z ^ 3 + (9 / 40)
      * z ^ 4 + (-9338969923629014997199063499 / 117187500000000000000000000000) * z ^ 5 +
      (1440185942316240093872658581952428658899 / 307617187500000000000000000000000000000000) * z ^ 7 +
      (-222094681255738696073358033477441040123586297094299 / 1384277343750000000000000000000000000000000000000000000) * z ^ 9 := by
  have key : ∀ s t : ℝ, 0 ≤ s → 0 ≤ t → 0 ≤
      (1046922802629496860678959745464643305735660647115155049 / 2441406250000000000000000000000000000000000000000000) * s ^ 0 * t
      ^ 9 + (15737887508337475715373381295180922534965597589418256029 / 4272460937500000000000000000000000000000000000000000) * s
      ^ 1 * t ^ 8 + (534709758955138069558720671513338285221603522115155049 / 38146972656250000000000000000000000000000000000000)
      * s ^ 2 * t ^ 7 + (889531633512763398781188234489978198279233634935361781 /
      28610229492187500000000000000000000000000000000000) * s ^ 3 * t ^ 6 +
      (211848865360765099330757616559166321094217919978453927 / 4768371582031250000000000000000000000000000000000) * s ^ 4 * t ^ 5
      + (152138666313440410949275049186790820175778419978453927 / 3576278686523437500000000000000000000000000000000) * s ^ 5 * t ^
      4 + (12237260546527137203506464237120553333825116108717103 / 447034835815429687500000000000000000000000000000) * s ^ 6 * t ^
      3 + (3836150037007805764475305623234466694293371189450187 / 335276126861572265625000000000000000000000000000) * s ^ 7 * t ^
      2 + (6625434024468389996271579222315392433664741108717103 / 2346932888031005859375000000000000000000000000000) * s ^ 8 * t ^
      1 + (236406375322160909830666857624426846417416243272243 / 754371285438537597656250000000000000000000000000) * s ^ 9 * t ^ 0 := by
    intro s t hs ht
    positivity
  have := key (z - (3 / 4)) (1 - z) (sub_nonneg.2 h0) (sub_nonneg.2 h1)
  refine le_of_le_of_eq this ?_
  ring

theorem sinLow {z : ℝ} (h0 : 0 ≤ z) (h1 : z ≤ 1) :
    0 ≤
      (1199 / 1000000) + (-5199 / 250000) * z ^ 1 + (1 / 8) * z ^ 2 + (-23815903655691901 / 93750000000000000) * z ^ 3 + (9 / 40)
      * z ^ 4 + (-9338969923629014997199063499 / 117187500000000000000000000000) * z ^ 5 +
      (1440185942316240093872658581952428658899 / 307617187500000000000000000000000000000000) * z ^ 7 +
      (-222094681255738696073358033477441040123586297094299 / 1384277343750000000000000000000000000000000000000000000) * z ^ 9 := by
  rcases le_total z (1 / 4) with h | h
  · exact sinLow0 h0 h
  have h2 := h
  rcases le_total z (1 / 2) with h | h
  · exact sinLow1 h2 h
  have h2 := h
  rcases le_total z (3 / 4) with h | h
  · exact sinLow2 h2 h
  have h2 := h
  exact sinLow3 h2 h1

/-- A primitive of a polynomial close to 1 / (1 + x²). -/
noncomputable def atanLow (x : ℝ) : ℝ :=
    1 * x ^ 1 + (-1 / 3) * x ^ 3 + (1 / 5) * x ^ 5 + (-1 / 7) * x ^ 7 + (5 / 48) * x ^ 9 + (1 / 20) * x ^ 10 + (-43 / 176) * x ^
    11 + (1 / 4) * x ^ 12 + (-27 / 208) * x ^ 13 + (1 / 28) * x ^ 14 + (-1 / 240) * x ^ 15

theorem atanLow_deriv (y : ℝ) : HasDerivAt atanLow ((1 - y ^ 8 * (1 - y) ^ 8 / 16) / (1 + y ^ 2)) y := by
  have hp : (1 + y ^ 2 : ℝ) ≠ 0 := by positivity
  have h :=
    ((((((((((((hasDerivAt_pow 1 y).const_mul (1 : ℝ)).add ((hasDerivAt_pow 3 y).const_mul ((-1 / 3) : ℝ))).add ((hasDerivAt_pow 5
    y).const_mul ((1 / 5) : ℝ))).add ((hasDerivAt_pow 7 y).const_mul ((-1 / 7) : ℝ))).add ((hasDerivAt_pow 9 y).const_mul ((5 /
    48) : ℝ))).add ((hasDerivAt_pow 10 y).const_mul ((1 / 20) : ℝ))).add ((hasDerivAt_pow 11 y).const_mul ((-43 / 176) : ℝ))).add
    ((hasDerivAt_pow 12 y).const_mul ((1 / 4) : ℝ))).add ((hasDerivAt_pow 13 y).const_mul ((-27 / 208) : ℝ))).add ((hasDerivAt_pow
    14 y).const_mul ((1 / 28) : ℝ))).add ((hasDerivAt_pow 15 y).const_mul ((-1 / 240) : ℝ)))
  refine (h.congr_deriv ?_).congr_of_eventuallyEq (Filter.Eventually.of_forall fun z => ?_)
  · rw [eq_div_iff hp]
    norm_num
    ring
  · simp [atanLow]

theorem atanLow_le {z : ℝ} (h0 : 0 ≤ z) (h1 : z ≤ 1) : atanLow z ≤ arctan z ∧ arctan z ≤ atanLow z + z / 1000000 := by
  have hq : ∀ y : ℝ, 0 ≤ y → y ≤ 1 → 0 ≤ y ^ 8 * (1 - y) ^ 8 / 16 ∧ y ^ 8 * (1 - y) ^ 8 / 16 ≤ 1 / 1000000 := by
    intro y hy0 hy1
    have a : 0 ≤ y * (1 - y) := mul_nonneg hy0 (sub_nonneg.2 hy1)
    have b : y * (1 - y) ≤ 1 / 4 := by nlinarith [sq_nonneg (y - 1 / 2)]
    have e : y ^ 8 * (1 - y) ^ 8 = (y * (1 - y)) ^ 8 := by ring
    rw [e]
    have c := pow_le_pow_left₀ a b 8
    refine ⟨by positivity, ?_⟩
    norm_num at c
    linarith
  constructor
  · have hd : ∀ y : ℝ, HasDerivAt (fun x => arctan x - atanLow x) ((y ^ 8 * (1 - y) ^ 8 / 16) / (1 + y ^ 2)) y := by
      intro y
      have hp : (1 + y ^ 2 : ℝ) ≠ 0 := by positivity
      refine ((hasDerivAt_arctan y).sub (atanLow_deriv y)).congr_deriv ?_
      field_simp
      ring
    have := nonneg_of_deriv hd (b := 1) (by simp [atanLow]) (fun y hy hy' => div_nonneg (hq y hy hy').1 (by positivity)) h0 h1
    linarith
  · have hd : ∀ y : ℝ, HasDerivAt (fun x => (atanLow x + x * (1 / 1000000)) - arctan x)
        (1 / 1000000 - (y ^ 8 * (1 - y) ^ 8 / 16) / (1 + y ^ 2)) y := by
      intro y
      have hp : (1 + y ^ 2 : ℝ) ≠ 0 := by positivity
      refine (((atanLow_deriv y).add ((hasDerivAt_id y).mul_const (1 / 1000000))).sub (hasDerivAt_arctan y)).congr_deriv ?_
      field_simp
      ring
    have := nonneg_of_deriv hd (b := 1) (by simp [atanLow]) (fun y hy hy' => by
      have h2 := hq y hy hy'
      have : (y ^ 8 * (1 - y) ^ 8 / 16) / (1 + y ^ 2) ≤ y ^ 8 * (1 - y) ^ 8 / 16 := div_le_self h2.1 (by nlinarith [sq_nonneg y])
      linarith) h0 h1
    linarith

theorem atanUppP0 {z : ℝ} (h0 : 0 ≤ z) (h1 : z ≤ (1 / 4)) :
    0 ≤
      (9 / 500000) + (67 / 500000) * z ^ 1 + (-18203 / 6000000) * z ^ 3 + (19859 / 1000000) * z ^ 5 + (-404069 / 7000000) * z ^ 7
      + (2499947 / 30000000) * z ^ 9 + (1 / 20) * z ^ 10 + (-43 / 176) * z ^ 11 + (1 / 4) * z ^ 12 + (-27 / 208) * z ^ 13 + (1 /
      28) * z ^ 14 + (-1 / 240) * z ^ 15 := by
  have key : ∀ s t : ℝ, 0 ≤ s → 0 ≤ t → 0 ≤
      (301989888 / 15625) * s ^ 0 * t ^ 15 + (5091885056 / 15625) * s ^ 1 * t ^ 14 + (39577452544 / 15625) * s ^ 2 * t ^ 13 +
      (563266322432 / 46875) * s ^ 3 * t ^ 12 + (121450790912 / 3125) * s ^ 4 * t ^ 11 + (1417309896704 / 15625) * s ^ 5 * t ^ 10
      + (7394833104896 / 46875) * s ^ 6 * t ^ 9 + (4552813558784 / 21875) * s ^ 7 * t ^ 8 + (22966355714048 / 109375) * s ^ 8 * t
      ^ 7 + (37966129954144 / 234375) * s ^ 9 * t ^ 6 + (7404552471488 / 78125) * s ^ 10 * t ^ 5 + (1419910574384 / 34375) * s ^
      11 * t ^ 4 + (2231523366128 / 171875) * s ^ 12 * t ^ 3 + (6211037800927 / 2234375) * s ^ 13 * t ^ 2 + (28370082244013 /
      78203125) * s ^ 14 * t ^ 1 + (81768426348239 / 3753750000) * s ^ 15 * t ^ 0 := by
    intro s t hs ht
    positivity
  have := key (z - 0) ((1 / 4) - z) (sub_nonneg.2 h0) (sub_nonneg.2 h1)
  refine le_of_le_of_eq this ?_
  ring

theorem atanUppP1 {z : ℝ} (h0 : (1 / 4) ≤ z) (h1 : z ≤ (1 / 2)) :
    0 ≤
      (9 / 500000) + (67 / 500000) * z ^ 1 + (-18203 / 6000000) * z ^ 3 + (19859 / 1000000) * z ^ 5 + (-404069 / 7000000) * z ^ 7
      + (2499947 / 30000000) * z ^ 9 + (1 / 20) * z ^ 10 + (-43 / 176) * z ^ 11 + (1 / 4) * z ^ 12 + (-27 / 208) * z ^ 13 + (1 /
      28) * z ^ 14 + (-1 / 240) * z ^ 15 := by
  have key : ∀ s t : ℝ, 0 ≤ s → 0 ≤ t → 0 ≤
      (81768426348239 / 3753750000) * s ^ 0 * t ^ 15 + (181881473789091 / 625625000) * s ^ 1 * t ^ 14 + (79141571855527 /
      44687500) * s ^ 2 * t ^ 13 + (33676724956663 / 5156250) * s ^ 3 * t ^ 12 + (14038996468259 / 859375) * s ^ 4 * t ^ 11 +
      (2306733178782 / 78125) * s ^ 5 * t ^ 10 + (9460861760348 / 234375) * s ^ 6 * t ^ 9 + (23824460246696 / 546875) * s ^ 7 * t
      ^ 8 + (21208700620048 / 546875) * s ^ 8 * t ^ 7 + (6904225722976 / 234375) * s ^ 9 * t ^ 6 + (298549630912 / 15625) * s ^ 10
      * t ^ 5 + (8722388216704 / 859375) * s ^ 11 * t ^ 4 + (10610586432256 / 2578125) * s ^ 12 * t ^ 3 + (13018581759488 /
      11171875) * s ^ 13 * t ^ 2 + (2257656955904 / 11171875) * s ^ 14 * t ^ 1 + (537143240704 / 33515625) * s ^ 15 * t ^ 0 := by
    intro s t hs ht
    positivity
  have := key (z - (1 / 4)) ((1 / 2) - z) (sub_nonneg.2 h0) (sub_nonneg.2 h1)
  refine le_of_le_of_eq this ?_
  ring

theorem atanUppP2 {z : ℝ} (h0 : (1 / 2) ≤ z) (h1 : z ≤ (3 / 4)) :
    0 ≤
      (9 / 500000) + (67 / 500000) * z ^ 1 + (-18203 / 6000000) * z ^ 3 + (19859 / 1000000) * z ^ 5 + (-404069 / 7000000) * z ^ 7
      + (2499947 / 30000000) * z ^ 9 + (1 / 20) * z ^ 10 + (-43 / 176) * z ^ 11 + (1 / 4) * z ^ 12 + (-27 / 208) * z ^ 13 + (1 /
      28) * z ^ 14 + (-1 / 240) * z ^ 15 := by
  have key : ∀ s t : ℝ, 0 ≤ s → 0 ≤ t → 0 ≤
      (537143240704 / 33515625) * s ^ 0 * t ^ 15 + (3113775451136 / 11171875) * s ^ 1 * t ^ 14 + (25004240692736 / 11171875) * s ^
      2 * t ^ 13 + (9419275741952 / 859375) * s ^ 3 * t ^ 12 + (31368715658112 / 859375) * s ^ 4 * t ^ 11 + (6827151829056 /
      78125) * s ^ 5 * t ^ 10 + (7271666601952 / 46875) * s ^ 6 * t ^ 9 + (22711268377072 / 109375) * s ^ 7 * t ^ 8 +
      (23079982458248 / 109375) * s ^ 8 * t ^ 7 + (7620684818308 / 46875) * s ^ 9 * t ^ 6 + (7346606799374 / 78125) * s ^ 10 * t ^
      5 + (34408958319473 / 859375) * s ^ 11 * t ^ 4 + (62551605136583 / 5156250) * s ^ 12 * t ^ 3 + (110275014819941 / 44687500)
      * s ^ 13 * t ^ 2 + (188806850297579 / 625625000) * s ^ 14 * t ^ 1 + (21049757726199 / 1251250000) * s ^ 15 * t ^ 0 := by
    intro s t hs ht
    positivity
  have := key (z - (1 / 2)) ((3 / 4) - z) (sub_nonneg.2 h0) (sub_nonneg.2 h1)
  refine le_of_le_of_eq this ?_
  ring

theorem atanUppP3 {z : ℝ} (h0 : (3 / 4) ≤ z) (h1 : z ≤ 1) :
    0 ≤
      (9 / 500000) + (67 / 500000) * z ^ 1 + (-18203 / 6000000) * z ^ 3 + (19859 / 1000000) * z ^ 5 + (-404069 / 7000000) * z ^ 7
      + (2499947 / 30000000) * z ^ 9 + (1 / 20) * z ^ 10 + (-43 / 176) * z ^ 11 + (1 / 4) * z ^ 12 + (-27 / 208) * z ^ 13 + (1 /
      28) * z ^ 14 + (-1 / 240) * z ^ 15 := by
  have key : ∀ s t : ℝ, 0 ≤ s → 0 ≤ t → 0 ≤
      (21049757726199 / 1251250000) * s ^ 0 * t ^ 15 + (63469757797703 / 312812500) * s ^ 1 * t ^ 14 + (12101920029442 / 11171875)
      * s ^ 2 * t ^ 13 + (8799627161744 / 2578125) * s ^ 3 * t ^ 12 + (6371591395456 / 859375) * s ^ 4 * t ^ 11 + (209958867008 /
      15625) * s ^ 5 * t ^ 10 + (5838049997344 / 234375) * s ^ 6 * t ^ 9 + (25365406658432 / 546875) * s ^ 7 * t ^ 8 +
      (39710861077504 / 546875) * s ^ 8 * t ^ 7 + (20021612572672 / 234375) * s ^ 9 * t ^ 6 + (5638949715968 / 78125) * s ^ 10 * t
      ^ 5 + (36494947844096 / 859375) * s ^ 11 * t ^ 4 + (14257341202432 / 859375) * s ^ 12 * t ^ 3 + (43691199168512 / 11171875)
      * s ^ 13 * t ^ 2 + (34375706083328 / 78203125) * s ^ 14 * t ^ 1 + (1595949449216 / 234609375) * s ^ 15 * t ^ 0 := by
    intro s t hs ht
    positivity
  have := key (z - (3 / 4)) (1 - z) (sub_nonneg.2 h0) (sub_nonneg.2 h1)
  refine le_of_le_of_eq this ?_
  ring

theorem atanUppP {z : ℝ} (h0 : 0 ≤ z) (h1 : z ≤ 1) :
    0 ≤
      (9 / 500000) + (67 / 500000) * z ^ 1 + (-18203 / 6000000) * z ^ 3 + (19859 / 1000000) * z ^ 5 + (-404069 / 7000000) * z ^ 7
      + (2499947 / 30000000) * z ^ 9 + (1 / 20) * z ^ 10 + (-43 / 176) * z ^ 11 + (1 / 4) * z ^ 12 + (-27 / 208) * z ^ 13 + (1 /
      28) * z ^ 14 + (-1 / 240) * z ^ 15 := by
  rcases le_total z (1 / 4) with h | h
  · exact atanUppP0 h0 h
  have h2 := h
  rcases le_total z (1 / 2) with h | h
  · exact atanUppP1 h2 h
  have h2 := h
  rcases le_total z (3 / 4) with h | h
  · exact atanUppP2 h2 h
  have h2 := h
  exact atanUppP3 h2 h1

theorem atanLowP0 {z : ℝ} (h0 : 0 ≤ z) (h1 : z ≤ (1 / 4)) :
    0 ≤
      (9 / 500000) + (-67 / 500000) * z ^ 1 + (18203 / 6000000) * z ^ 3 + (-19859 / 1000000) * z ^ 5 + (404069 / 7000000) * z ^ 7
      + (-2499947 / 30000000) * z ^ 9 + (-1 / 20) * z ^ 10 + (43 / 176) * z ^ 11 + (-1 / 4) * z ^ 12 + (27 / 208) * z ^ 13 + (-1 /
      28) * z ^ 14 + (1 / 240) * z ^ 15 := by
  have key : ∀ s t : ℝ, 0 ≤ s → 0 ≤ t → 0 ≤
      (301989888 / 15625) * s ^ 0 * t ^ 15 + (3967811584 / 15625) * s ^ 1 * t ^ 14 + (23840423936 / 15625) * s ^ 2 * t ^ 13 +
      (261166071808 / 46875) * s ^ 3 * t ^ 12 + (43435687936 / 3125) * s ^ 4 * t ^ 11 + (396441370624 / 15625) * s ^ 5 * t ^ 10 +
      (1673923231744 / 46875) * s ^ 6 * t ^ 9 + (35537609728 / 875) * s ^ 7 * t ^ 8 + (4239913295872 / 109375) * s ^ 8 * t ^ 7 +
      (7377651729056 / 234375) * s ^ 9 * t ^ 6 + (1664203865152 / 78125) * s ^ 10 * t ^ 5 + (393840692944 / 34375) * s ^ 11 * t ^
      4 + (791395412752 / 171875) * s ^ 12 * t ^ 3 + (2857718535713 / 2234375) * s ^ 13 * t ^ 2 + (16973699439187 / 78203125) * s
      ^ 14 * t ^ 1 + (63331675038001 / 3753750000) * s ^ 15 * t ^ 0 := by
    intro s t hs ht
    positivity
  have := key (z - 0) ((1 / 4) - z) (sub_nonneg.2 h0) (sub_nonneg.2 h1)
  refine le_of_le_of_eq this ?_
  ring

theorem atanLowP1 {z : ℝ} (h0 : (1 / 4) ≤ z) (h1 : z ≤ (1 / 2)) :
    0 ≤
      (9 / 500000) + (-67 / 500000) * z ^ 1 + (18203 / 6000000) * z ^ 3 + (-19859 / 1000000) * z ^ 5 + (404069 / 7000000) * z ^ 7
      + (-2499947 / 30000000) * z ^ 9 + (-1 / 20) * z ^ 10 + (43 / 176) * z ^ 11 + (-1 / 4) * z ^ 12 + (27 / 208) * z ^ 13 + (-1 /
      28) * z ^ 14 + (1 / 240) * z ^ 15 := by
  have key : ∀ s t : ℝ, 0 ≤ s → 0 ≤ t → 0 ≤
      (63331675038001 / 3753750000) * s ^ 0 * t ^ 15 + (180868779676509 / 625625000) * s ^ 1 * t ^ 14 + (102233554877273 /
      44687500) * s ^ 2 * t ^ 13 + (57010838409737 / 5156250) * s ^ 3 * t ^ 12 + (31304785214941 / 859375) * s ^ 4 * t ^ 11 +
      (6762023157858 / 78125) * s ^ 5 * t ^ 10 + (35882919922852 / 234375) * s ^ 6 * t ^ 9 + (112206884802904 / 546875) * s ^ 7 *
      t ^ 8 + (114822644429552 / 546875) * s ^ 8 * t ^ 7 + (38439555960224 / 234375) * s ^ 9 * t ^ 6 + (1515201636416 / 15625) * s
      ^ 10 * t ^ 5 + (36621393466496 / 859375) * s ^ 11 * t ^ 4 + (34733195250944 / 2578125) * s ^ 12 * t ^ 3 + (32325199923712 /
      11171875) * s ^ 13 * t ^ 2 + (4220026141696 / 11171875) * s ^ 14 * t ^ 1 + (758393378816 / 33515625) * s ^ 15 * t ^ 0 := by
    intro s t hs ht
    positivity
  have := key (z - (1 / 4)) ((1 / 2) - z) (sub_nonneg.2 h0) (sub_nonneg.2 h1)
  refine le_of_le_of_eq this ?_
  ring

theorem atanLowP2 {z : ℝ} (h0 : (1 / 2) ≤ z) (h1 : z ≤ (3 / 4)) :
    0 ≤
      (9 / 500000) + (-67 / 500000) * z ^ 1 + (18203 / 6000000) * z ^ 3 + (-19859 / 1000000) * z ^ 5 + (404069 / 7000000) * z ^ 7
      + (-2499947 / 30000000) * z ^ 9 + (-1 / 20) * z ^ 10 + (43 / 176) * z ^ 11 + (-1 / 4) * z ^ 12 + (27 / 208) * z ^ 13 + (-1 /
      28) * z ^ 14 + (1 / 240) * z ^ 15 := by
  have key : ∀ s t : ℝ, 0 ≤ s → 0 ≤ t → 0 ≤
      (758393378816 / 33515625) * s ^ 0 * t ^ 15 + (3363907646464 / 11171875) * s ^ 1 * t ^ 14 + (20339540990464 / 11171875) * s ^
      2 * t ^ 13 + (5695318152448 / 859375) * s ^ 3 * t ^ 12 + (13975066025088 / 859375) * s ^ 4 * t ^ 11 + (2241604507584 /
      78125) * s ^ 5 * t ^ 10 + (1797089734688 / 46875) * s ^ 6 * t ^ 9 + (4495000632848 / 109375) * s ^ 7 * t ^ 8 +
      (4126286551672 / 109375) * s ^ 8 * t ^ 7 + (1448071518332 / 46875) * s ^ 9 * t ^ 6 + (1722149537266 / 78125) * s ^ 10 * t ^
      5 + (10934823363727 / 859375) * s ^ 11 * t ^ 4 + (28135958229817 / 5156250) * s ^ 12 * t ^ 3 + (71100111912859 / 44687500) *
      s ^ 13 * t ^ 2 + (173943403168021 / 625625000) * s ^ 14 * t ^ 1 + (27316942735881 / 1251250000) * s ^ 15 * t ^ 0 := by
    intro s t hs ht
    positivity
  have := key (z - (1 / 2)) ((3 / 4) - z) (sub_nonneg.2 h0) (sub_nonneg.2 h1)
  refine le_of_le_of_eq this ?_
  ring

theorem atanLowP3 {z : ℝ} (h0 : (3 / 4) ≤ z) (h1 : z ≤ 1) :
    0 ≤
      (9 / 500000) + (-67 / 500000) * z ^ 1 + (18203 / 6000000) * z ^ 3 + (-19859 / 1000000) * z ^ 5 + (404069 / 7000000) * z ^ 7
      + (-2499947 / 30000000) * z ^ 9 + (-1 / 20) * z ^ 10 + (43 / 176) * z ^ 11 + (-1 / 4) * z ^ 12 + (27 / 208) * z ^ 13 + (-1 /
      28) * z ^ 14 + (1 / 240) * z ^ 15 := by
  have key : ∀ s t : ℝ, 0 ≤ s → 0 ≤ t → 0 ≤
      (27316942735881 / 1251250000) * s ^ 0 * t ^ 15 + (117905368935097 / 312812500) * s ^ 1 * t ^ 14 + (33241861653758 /
      11171875) * s ^ 2 * t ^ 13 + (36544154521456 / 2578125) * s ^ 3 * t ^ 12 + (38972190287744 / 859375) * s ^ 4 * t ^ 11 +
      (320758480064 / 3125) * s ^ 5 * t ^ 10 + (39505731685856 / 234375) * s ^ 6 * t ^ 9 + (110665938391168 / 546875) * s ^ 7 * t
      ^ 8 + (96320483972096 / 546875) * s ^ 8 * t ^ 7 + (25322169110528 / 234375) * s ^ 9 * t ^ 6 + (3429806620672 / 78125) * s ^
      10 * t ^ 5 + (8848833839104 / 859375) * s ^ 11 * t ^ 4 + (857252691968 / 859375) * s ^ 12 * t ^ 3 + (1652582514688 /
      11171875) * s ^ 13 * t ^ 2 + (10968075599872 / 78203125) * s ^ 14 * t ^ 1 + (7472806887424 / 234609375) * s ^ 15 * t ^ 0 := by
    intro s t hs ht
    positivity
  have := key (z - (3 / 4)) (1 - z) (sub_nonneg.2 h0) (sub_nonneg.2 h1)
  refine le_of_le_of_eq this ?_
  ring

theorem atanLowP {z : ℝ} (h0 : 0 ≤ z) (h1 : z ≤ 1) :
    0 ≤
      (9 / 500000) + (-67 / 500000) * z ^ 1 + (18203 / 6000000) * z ^ 3 + (-19859 / 1000000) * z ^ 5 + (404069 / 7000000) * z ^ 7
      + (-2499947 / 30000000) * z ^ 9 + (-1 / 20) * z ^ 10 + (43 / 176) * z ^ 11 + (-1 / 4) * z ^ 12 + (27 / 208) * z ^ 13 + (-1 /
      28) * z ^ 14 + (1 / 240) * z ^ 15 := by
  rcases le_total z (1 / 4) with h | h
  · exact atanLowP0 h0 h
  have h2 := h
  rcases le_total z (1 / 2) with h | h
  · exact atanLowP1 h2 h
  have h2 := h
  rcases le_total z (3 / 4) with h | h
  · exact atanLowP2 h2 h
  have h2 := h
  exact atanLowP3 h2 h1

end Verif.Functions
