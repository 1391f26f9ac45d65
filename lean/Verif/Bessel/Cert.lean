import Verif.Bessel.Bern

/-!
Bounds of polynomials on [0, 1] for the accuracy of `evaluatePnebi0Polynom`: the two polynomials of the code, a polynomial of degree 16 that solves the
differential equation of √x exp(-x) I₀(x) up to a small residual, and the first terms of the power series of I₀.
-/
namespace Verif.Bessel
open Bern

/-- Coefficients (times 10^14) of a polynomial in 15/(4x) close to √x exp(-x) I₀(x). -/
def qc : List ℤ := [39894228039573, 1329807637661, 199467646048, 55315800013, 31402907335, -189557644185, 2364977946300, -16616180765721, 76485313203603,
  -238851261876672, 516524496624452, -778525408820657, 814473799705020, -580308128611081, 269057030245457, -73321717009250, 8925844366643]

/-- Four times the residual of `qc` in the differential equation. -/
def rc : List ℤ := [-1090257, 209976069, 8269150030, -1057874679563, 30977282121885, -448632505280385, 3889079233726110, -22095115841151945,
  86594096222542707, -241182654524814192, 484700687922200142, -705050509159934753, 735366294973959090, -536048578460569989, 259271735090591837,
  -74746575341877890, 9720244515274227]

/-! ### Certificates -/

theorem res_hi (u : ℝ) (h0 : 0 ≤ u) (h1 : u ≤ 1) : 0 ≤ eval [11490257, -209976069, -8269150030, 1057874679563, -30977282121885, 448632505280385,
  -3889079233726110, 22095115841151945, -86594096222542707, 241182654524814192, -484700687922200142, 705050509159934753, -735366294973959090,
  536048578460569989, -259271735090591837, 74746575341877890, -9720244515274227] u :=
  checks_sound _ 32 (by norm_num) 0 [4, 8, 16, 20, 24, 26, 28, 30, 31, 32] (by decide +kernel) u (by simpa using h0) (by simpa using h1) (by simp)

theorem res_lo (u : ℝ) (h0 : 0 ≤ u) (h1 : u ≤ 1) : 0 ≤ eval [9309743, 209976069, 8269150030, -1057874679563, 30977282121885, -448632505280385,
  3889079233726110, -22095115841151945, 86594096222542707, -241182654524814192, 484700687922200142, -705050509159934753, 735366294973959090,
  -536048578460569989, 259271735090591837, -74746575341877890, 9720244515274227] u :=
  checks_sound _ 128 (by norm_num) 0 [16, 32, 48, 64, 80, 96, 112, 116, 120, 124, 126, 127, 128] (by decide +kernel) u (by simpa using h0) (by simpa using
    h1) (by simp)

theorem diff_hi (u : ℝ) (h0 : 0 ≤ u) (h1 : u ≤ 1) : 0 ≤ eval [18939573, 1215637661, -25851353952, 212880800013, -884878092665, 1868148355815,
  -270559053700, -14968547765721, 76092936203603, -238851261876672, 516524496624452, -778525408820657, 814473799705020, -580308128611081, 269057030245457,
  -73321717009250, 8925844366643] u :=
  checks_sound _ 2 (by norm_num) 0 [1, 2] (by decide +kernel) u (by simpa using h0) (by simpa using h1) (by simp)

theorem diff_lo (u : ℝ) (h0 : 0 ≤ u) (h1 : u ≤ 1) : 0 ≤ eval [18860427, -1215637661, 25851353952, -212880800013, 884878092665, -1868148355815,
  270559053700, 14968547765721, -76092936203603, 238851261876672, -516524496624452, 778525408820657, -814473799705020, 580308128611081, -269057030245457,
  73321717009250, -8925844366643] u :=
  checks_sound _ 128 (by norm_num) 0 [4, 5, 6, 8, 16, 32, 64, 128] (by decide +kernel) u (by simpa using h0) (by simpa using h1) (by simp)

theorem poly_lo (u : ℝ) (h0 : 0 ≤ u) (h1 : u ≤ 1) : 0 ≤ eval [4228, 1328592, 225319, -157565, 916281, -2057706, 2635537, -1647633, 392377] u :=
  checks_sound _ 1 (by norm_num) 0 [1] (by decide +kernel) u (by simpa using h0) (by simpa using h1) (by simp)

theorem small_hi (u : ℝ) (h0 : 0 ≤ u) (h1 : u ≤ 1) : 0 ≤ eval [188109674765890359073603086974976000000, 2468939481302310962841040516546560000000,
  -44223225151139273038656092913008640000000, 287874465709628988328985471358074880000000, -898864402103043014960303578829291520000000,
  1432181373333878254643975948882411520000000, -1104219507106588643649361389740359680000000, 307218868921958400000000000000000000000000,
  16876036500840000000000000000000000000000, 732466862015625000000000000000000000000, 25750788117736816406250000000000000000,
  748182764267921447753906250000000000] u :=
  checks_sound _ 16 (by norm_num) 0 [8, 12, 14, 15, 16] (by decide +kernel) u (by simpa using h0) (by simpa using h1) (by simp)

theorem small_lo (u : ℝ) (h0 : 0 ≤ u) (h1 : u ≤ 1) : 0 ≤ eval [188109674765890359073603086974976000000, -2468939481302310962841040516546560000000,
  44223225151139273038656092913008640000000, -287874465709628988328985471358074880000000, 898864402103043014960303578829291520000000,
  -1432181373333878254643975948882411520000000, 1104219507106588643649361389740359680000000, -307218868921958400000000000000000000000000,
  -16876036500840000000000000000000000000000, -732466862015625000000000000000000000000, -25750788117736816406250000000000000000,
  -748182764267921447753906250000000000] u :=
  checks_sound _ 4 (by norm_num) 0 [2, 3, 4] (by decide +kernel) u (by simpa using h0) (by simpa using h1) (by simp)

/-! ### The bounds -/

/-- The derivative of the polynomial with coefficients `c`. -/
def evalD : List ℤ → ℝ → ℝ
  | [], _ => 0
  | _ :: c, t => eval c t + t * evalD c t

/-- The second derivative of the polynomial with coefficients `c`. -/
def evalDD : List ℤ → ℝ → ℝ
  | [], _ => 0
  | _ :: c, t => 2 * evalD c t + t * evalDD c t

theorem qc_resid (u : ℝ) : 4 * (u ^ 2 * evalDD qc u + (2 * u - 15 / 2) * evalD qc u + eval qc u / 4) = eval rc u := by
  simp only [qc, rc, evalDD, evalD, eval_cons, eval_nil]
  push_cast
  ring

theorem rc_bound (u : ℝ) (h0 : 0 ≤ u) (h1 : u ≤ 1) : |eval rc u| ≤ 10400000 := by
  have a := res_hi u h0 h1
  have b := res_lo u h0 h1
  simp only [eval_cons, eval_nil] at a b
  simp only [rc, eval_cons, eval_nil]
  push_cast at a b ⊢
  rw [abs_le]
  constructor <;> linarith

/-- The polynomial of the second branch, functions.cpp:155-156. -/
noncomputable def big (u : ℝ) : ℝ := 39894228 / 100000000 + u * (1328592 / 100000000 + u * (225319 / 100000000 + u * (-157565 / 100000000 + u *
  (916281 / 100000000 + u * (-2057706 / 100000000 + u * (2635537 / 100000000 + u * (-1647633 / 100000000 + u * (392377 / 100000000))))))))

theorem big_qc (u : ℝ) (h0 : 0 ≤ u) (h1 : u ≤ 1) : |big u - eval qc u / 100000000000000| ≤ 189 / 1000000000 := by
  have a := diff_hi u h0 h1
  have b := diff_lo u h0 h1
  simp only [eval_cons, eval_nil] at a b
  simp only [qc, eval_cons, eval_nil, big]
  push_cast at a b ⊢
  rw [abs_le]
  constructor <;> linarith

theorem big_lower (u : ℝ) (h0 : 0 ≤ u) (h1 : u ≤ 1) : 3989 / 10000 ≤ big u := by
  have a := poly_lo u h0 h1
  simp only [eval_cons, eval_nil] at a
  simp only [big]
  push_cast at a ⊢
  linarith

end Verif.Bessel
