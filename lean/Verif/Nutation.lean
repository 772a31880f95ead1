import Verif.FramesProps
import Mathlib.Analysis.SpecialFunctions.Trigonometric.Bounds
import Mathlib.Analysis.Real.Pi.Bounds
import Mathlib.Topology.Algebra.Order.Floor

/-!
# Nutation and the CIO locator (astropysics/coords/coordsys.py 2307-2480, 2568-2612; coords/ephems.py 1226-1345;
data/iau00b_nutation.tab, data/iau00_cio_locator.tab) (C201, C202)

Exact real arithmetic.  `asecperrad`, a literal of 25 digits in constants.py 149, is taken as exactly 648000/π.
-/

namespace Verif.Nutation

open Real Verif.Frames Verif.Rotation Verif.Angle

/-! ## The nutation series -/

/-- A row of a luni-solar table, coordsys.py 2316-2326: five multipliers and six amplitudes. -/
structure Term where
  nl : ℤ
  nlp : ℤ
  nF : ℤ
  nD : ℤ
  nOm : ℤ
  ps : ℚ
  pst : ℚ
  pc : ℚ
  ec : ℚ
  ect : ℚ
  es : ℚ
  deriving DecidableEq

/-- data/iau00b_nutation.tab, all 77 rows in the order of the file (amplitudes in 1e-7 arcsec, and per century). -/
def table00b : List Term := [
  ⟨0, 0, 0, 0, 1, -172064161, -174666, 33386, 92052331, 9086, 15377⟩,
  ⟨0, 0, 2, -2, 2, -13170906, -1675, -13696, 5730336, -3015, -4587⟩,
  ⟨0, 0, 2, 0, 2, -2276413, -234, 2796, 978459, -485, 1374⟩,
  ⟨0, 0, 0, 0, 2, 2074554, 207, -698, -897492, 470, -291⟩,
  ⟨0, 1, 0, 0, 0, 1475877, -3633, 11817, 73871, -184, -1924⟩,
  ⟨0, 1, 2, -2, 2, -516821, 1226, -524, 224386, -677, -174⟩,
  ⟨1, 0, 0, 0, 0, 711159, 73, -872, -6750, 0, 358⟩,
  ⟨0, 0, 2, 0, 1, -387298, -367, 380, 200728, 18, 318⟩,
  ⟨1, 0, 2, 0, 2, -301461, -36, 816, 129025, -63, 367⟩,
  ⟨0, -1, 2, -2, 2, 215829, -494, 111, -95929, 299, 132⟩,
  ⟨0, 0, 2, -2, 1, 128227, 137, 181, -68982, -9, 39⟩,
  ⟨-1, 0, 2, 0, 2, 123457, 11, 19, -53311, 32, -4⟩,
  ⟨-1, 0, 0, 2, 0, 156994, 10, -168, -1235, 0, 82⟩,
  ⟨1, 0, 0, 0, 1, 63110, 63, 27, -33228, 0, -9⟩,
  ⟨-1, 0, 0, 0, 1, -57976, -63, -189, 31429, 0, -75⟩,
  ⟨-1, 0, 2, 2, 2, -59641, -11, 149, 25543, -11, 66⟩,
  ⟨1, 0, 2, 0, 1, -51613, -42, 129, 26366, 0, 78⟩,
  ⟨-2, 0, 2, 0, 1, 45893, 50, 31, -24236, -10, 20⟩,
  ⟨0, 0, 0, 2, 0, 63384, 11, -150, -1220, 0, 29⟩,
  ⟨0, 0, 2, 2, 2, -38571, -1, 158, 16452, -11, 68⟩,
  ⟨0, -2, 2, -2, 2, 32481, 0, 0, -13870, 0, 0⟩,
  ⟨-2, 0, 0, 2, 0, -47722, 0, -18, 477, 0, -25⟩,
  ⟨2, 0, 2, 0, 2, -31046, -1, 131, 13238, -11, 59⟩,
  ⟨1, 0, 2, -2, 2, 28593, 0, -1, -12338, 10, -3⟩,
  ⟨-1, 0, 2, 0, 1, 20441, 21, 10, -10758, 0, -3⟩,
  ⟨2, 0, 0, 0, 0, 29243, 0, -74, -609, 0, 13⟩,
  ⟨0, 0, 2, 0, 0, 25887, 0, -66, -550, 0, 11⟩,
  ⟨0, 1, 0, 0, 1, -14053, -25, 79, 8551, -2, -45⟩,
  ⟨-1, 0, 0, 2, 1, 15164, 10, 11, -8001, 0, -1⟩,
  ⟨0, 2, 2, -2, 2, -15794, 72, -16, 6850, -42, -5⟩,
  ⟨0, 0, -2, 2, 0, 21783, 0, 13, -167, 0, 13⟩,
  ⟨1, 0, 0, -2, 1, -12873, -10, -37, 6953, 0, -14⟩,
  ⟨0, -1, 0, 0, 1, -12654, 11, 63, 6415, 0, 26⟩,
  ⟨-1, 0, 2, 2, 1, -10204, 0, 25, 5222, 0, 15⟩,
  ⟨0, 2, 0, 0, 0, 16707, -85, -10, 168, -1, 10⟩,
  ⟨1, 0, 2, 2, 2, -7691, 0, 44, 3268, 0, 19⟩,
  ⟨-2, 0, 2, 0, 0, -11024, 0, -14, 104, 0, 2⟩,
  ⟨0, 1, 2, 0, 2, 7566, -21, -11, -3250, 0, -5⟩,
  ⟨0, 0, 2, 2, 1, -6637, -11, 25, 3353, 0, 14⟩,
  ⟨0, -1, 2, 0, 2, -7141, 21, 8, 3070, 0, 4⟩,
  ⟨0, 0, 0, 2, 1, -6302, -11, 2, 3272, 0, 4⟩,
  ⟨1, 0, 2, -2, 1, 5800, 10, 2, -3045, 0, -1⟩,
  ⟨2, 0, 2, -2, 2, 6443, 0, -7, -2768, 0, -4⟩,
  ⟨-2, 0, 0, 2, 1, -5774, -11, -15, 3041, 0, -5⟩,
  ⟨2, 0, 2, 0, 1, -5350, 0, 21, 2695, 0, 12⟩,
  ⟨0, -1, 2, -2, 1, -4752, -11, -3, 2719, 0, -3⟩,
  ⟨0, 0, 0, -2, 1, -4940, -11, -21, 2720, 0, -9⟩,
  ⟨-1, -1, 0, 2, 0, 7350, 0, -8, -51, 0, 4⟩,
  ⟨2, 0, 0, -2, 1, 4065, 0, 6, -2206, 0, 1⟩,
  ⟨1, 0, 0, 2, 0, 6579, 0, -24, -199, 0, 2⟩,
  ⟨0, 1, 2, -2, 1, 3579, 0, 5, -1900, 0, 1⟩,
  ⟨1, -1, 0, 0, 0, 4725, 0, -6, -41, 0, 3⟩,
  ⟨-2, 0, 2, 0, 2, -3075, 0, -2, 1313, 0, -1⟩,
  ⟨3, 0, 2, 0, 2, -2904, 0, 15, 1233, 0, 7⟩,
  ⟨0, -1, 0, 2, 0, 4348, 0, -10, -81, 0, 2⟩,
  ⟨1, -1, 2, 0, 2, -2878, 0, 8, 1232, 0, 4⟩,
  ⟨0, 0, 0, 1, 0, -4230, 0, 5, -20, 0, -2⟩,
  ⟨-1, -1, 2, 2, 2, -2819, 0, 7, 1207, 0, 3⟩,
  ⟨-1, 0, 2, 0, 0, -4056, 0, 5, 40, 0, -2⟩,
  ⟨0, -1, 2, 2, 2, -2647, 0, 11, 1129, 0, 5⟩,
  ⟨-2, 0, 0, 0, 1, -2294, 0, -10, 1266, 0, -4⟩,
  ⟨1, 1, 2, 0, 2, 2481, 0, -7, -1062, 0, -3⟩,
  ⟨2, 0, 0, 0, 1, 2179, 0, -2, -1129, 0, -2⟩,
  ⟨-1, 1, 0, 1, 0, 3276, 0, 1, -9, 0, 0⟩,
  ⟨1, 1, 0, 0, 0, -3389, 0, 5, 35, 0, -2⟩,
  ⟨1, 0, 2, 0, 0, 3339, 0, -13, -107, 0, 1⟩,
  ⟨-1, 0, 2, -2, 1, -1987, 0, -6, 1073, 0, -2⟩,
  ⟨1, 0, 0, 0, 2, -1981, 0, 0, 854, 0, 0⟩,
  ⟨-1, 0, 0, 1, 0, 4026, 0, -353, -553, 0, -139⟩,
  ⟨0, 0, 2, 1, 2, 1660, 0, -5, -710, 0, -2⟩,
  ⟨-1, 0, 2, 4, 2, -1521, 0, 9, 647, 0, 4⟩,
  ⟨-1, 1, 0, 1, 1, 1314, 0, 0, -700, 0, 0⟩,
  ⟨0, -2, 2, -2, 1, -1283, 0, 0, 672, 0, 0⟩,
  ⟨1, 0, 2, 2, 1, -1331, 0, 8, 663, 0, 4⟩,
  ⟨-2, 0, 2, 2, 2, 1383, 0, -2, -594, 0, -2⟩,
  ⟨-1, 0, 0, 0, 2, 1405, 0, 4, -610, 0, 2⟩,
  ⟨1, 1, 2, -2, 2, 1290, 0, 0, -556, 0, 0⟩]

/-- The five Delaunay arguments in arcseconds, coordsys.py 2395-2403, before the reduction. -/
noncomputable def el (t : ℝ) : ℝ := 485868.249036 + 1717915923.2178 * t
noncomputable def elp (t : ℝ) : ℝ := 1287104.79305 + 129596581.0481 * t
noncomputable def bigF (t : ℝ) : ℝ := 335779.526232 + 1739527262.8478 * t
noncomputable def bigD (t : ℝ) : ℝ := 1072260.70369 + 1602961601.2090 * t
noncomputable def om (t : ℝ) : ℝ := 450160.398036 + -6962890.5431 * t

/-- `(x % 1296000)/asecperrad`: Python's `%`, coordsys.py 2395-2403. -/
noncomputable def reduced (x : ℝ) : ℝ := (x - 1296000 * ⌊x / 1296000⌋) / asecperrad

/-- `arg`, coordsys.py 2407. -/
noncomputable def arg (r : Term) (t : ℝ) : ℝ :=
  r.nl * reduced (el t) + r.nlp * reduced (elp t) + r.nF * reduced (bigF t) + r.nD * reduced (bigD t) + r.nOm * reduced (om t)

/-- The nutation in longitude in radians, coordsys.py 2408-2412, 2415, 2418. -/
noncomputable def dpsi (tab : List Term) (t : ℝ) : ℝ :=
  (tab.map fun r => (r.ps + r.pst * t) * sin (arg r t) + r.pc * cos (arg r t)).sum / (asecperrad * 1e7) + -0.135 / (asecperrad * 1e3)

/-- The nutation in obliquity in radians, coordsys.py 2413, 2416, 2418. -/
noncomputable def deps (tab : List Term) (t : ℝ) : ℝ :=
  (tab.map fun r => (r.ec + r.ect * t) * cos (arg r t) + r.es * sin (arg r t)).sum / (asecperrad * 1e7) + 0.388 / (asecperrad * 1e3)

/-- `_nutation_components2000B(intime, asepoch)`, coordsys.py 2374-2420. -/
noncomputable def components (tab : List Term) (intime : ℝ) (asepoch : Bool) : ℝ × ℝ × ℝ :=
  let jd := if asepoch then epochToJd true intime else intime
  let t := (jd - 2451545) / 36525
  ((obliquity t 2000).getD 0 * π / 180, dpsi tab t, deps tab t)

/-! ### Specification: the series of the IAU 2000B model, without any reduction of the arguments. -/

/-- An angle of `x` arcseconds, in radians. -/
noncomputable def asec (x : ℝ) : ℝ := x * π / 648000

/-- An angle of `d` degrees at J2000 that grows by `n` arcseconds in a century: arcseconds. -/
noncomputable def linear (d n t : ℝ) : ℝ := 3600 * d + n * t

/-- The argument of a term: multiples of the mean anomalies of Moon and Sun, the argument of latitude, the elongation and the node of the Moon. -/
noncomputable def phase (r : Term) (t : ℝ) : ℝ :=
  asec (r.nl * linear 134.96340251 1717915923.2178 t + r.nlp * linear (1287104.79305 / 3600) 129596581.0481 t + r.nF * linear 93.27209062 1739527262.8478 t +
    r.nD * linear (1072260.70369 / 3600) 1602961601.2090 t + r.nOm * linear 125.04455501 (-6962890.5431) t)

theorem phase_eq (r : Term) (t : ℝ) : phase r t = asec (r.nl * el t + r.nlp * elp t + r.nF * bigF t + r.nD * bigD t + r.nOm * om t) := by
  unfold phase linear el elp bigF bigD om
  norm_num

/-- Nutation in longitude, arcseconds. -/
noncomputable def specPsi (tab : List Term) (t : ℝ) : ℝ :=
  (tab.map fun r => ((r.ps + r.pst * t) * sin (phase r t) + r.pc * cos (phase r t)) / 1e7).sum - 0.000135

/-- Nutation in obliquity, arcseconds. -/
noncomputable def specEps (tab : List Term) (t : ℝ) : ℝ :=
  (tab.map fun r => ((r.ec + r.ect * t) * cos (phase r t) + r.es * sin (phase r t)) / 1e7).sum + 0.000388

theorem asec_eq (x : ℝ) : x / asecperrad = asec x := by
  unfold asecperrad asec
  have := pi_pos.ne'
  field_simp
  ring

/-- Reduction takes off whole turns. -/
theorem reduced_eq (x : ℝ) : reduced x = asec x - ⌊x / 1296000⌋ * (2 * π) := by
  unfold reduced
  rw [sub_div, asec_eq, asec_eq]
  unfold asec
  ring

theorem arg_eq (r : Term) (t : ℝ) : ∃ k : ℤ, arg r t = phase r t - k * (2 * π) := by
  refine ⟨r.nl * ⌊el t / 1296000⌋ + r.nlp * ⌊elp t / 1296000⌋ + r.nF * ⌊bigF t / 1296000⌋ + r.nD * ⌊bigD t / 1296000⌋ + r.nOm * ⌊om t / 1296000⌋, ?_⟩
  rw [phase_eq]
  unfold arg
  simp only [reduced_eq]
  push_cast
  unfold asec
  ring

theorem sin_arg (r : Term) (t : ℝ) : sin (arg r t) = sin (phase r t) := by
  obtain ⟨k, h⟩ := arg_eq r t
  rw [h, sin_sub_int_mul_two_pi]

theorem cos_arg (r : Term) (t : ℝ) : cos (arg r t) = cos (phase r t) := by
  obtain ⟨k, h⟩ := arg_eq r t
  rw [h, cos_sub_int_mul_two_pi]

theorem sum_div (l : List Term) (f : Term → ℝ) (c : ℝ) : (l.map f).sum / c = (l.map fun r => f r / c).sum := by
  induction l with
  | nil => simp
  | cons a l ih => simp only [List.map_cons, List.sum_cons, add_div, ih]

theorem sum_asec (l : List Term) (f : Term → ℝ) : (l.map fun r => f r / (asecperrad * 1e7)).sum = asec (l.map fun r => f r / 1e7).sum := by
  induction l with
  | nil => simp [asec]
  | cons a l ih =>
    simp only [List.map_cons, List.sum_cons, ih]
    rw [show f a / (asecperrad * 1e7) = f a / 1e7 / asecperrad by rw [div_div, mul_comm], asec_eq]
    unfold asec; ring

/-- C201: the components are the series of the model, whatever the table: reducing the arguments to a turn changes nothing, and the fixed offsets
are -0.135 and 0.388 milliarcseconds. -/
theorem series_exact (tab : List Term) (t : ℝ) : dpsi tab t = asec (specPsi tab t) ∧ deps tab t = asec (specEps tab t) := by
  unfold dpsi deps specPsi specEps
  simp only [sin_arg, cos_arg]
  constructor
  · rw [sum_div, sum_asec, show (-0.135 : ℝ) / (asecperrad * 1e3) = -0.000135 / asecperrad by rw [mul_comm, ← div_div]; norm_num, asec_eq]
    unfold asec; ring
  · rw [sum_div, sum_asec, show (0.388 : ℝ) / (asecperrad * 1e3) = 0.000388 / asecperrad by rw [mul_comm, ← div_div]; norm_num, asec_eq]
    unfold asec; ring

/-- C201: an epoch and its Julian date give the same components; the time is in Julian centuries from J2000. -/
theorem components_epoch (tab : List Term) (e : ℝ) :
    components tab e true = components tab ((e - 2000) * 365.25 + 2451545) false ∧
    components tab e true = (asec (84381.448 - 46.84024 * ((e - 2000) / 100) - 0.00059 * ((e - 2000) / 100) ^ 2 + 0.001813 * ((e - 2000) / 100) ^ 3),
      asec (specPsi tab ((e - 2000) / 100)), asec (specEps tab ((e - 2000) / 100))) := by
  constructor
  · simp [components, epochToJd]
  · have h : (epochToJd true e - 2451545) / 36525 = (e - 2000) / 100 := by
      simp only [epochToJd, if_true]; ring
    simp only [components, if_true, h, (series_exact tab _).1, (series_exact tab _).2]
    refine Prod.ext ?_ rfl
    simp only [obliquity, polyval, asec, List.foldl_cons, List.foldl_nil]
    norm_num
    ring

/-- C201: they do not depend on the order of the table, and a term with zero amplitudes does nothing. -/
theorem order_free (a b : List Term) (h : a.Perm b) (t : ℝ) : dpsi a t = dpsi b t ∧ deps a t = deps b t := by
  unfold dpsi deps
  rw [(h.map _).sum_eq, (h.map (fun r : Term => (r.ec + r.ect * t) * cos (arg r t) + r.es * sin (arg r t))).sum_eq]
  exact ⟨rfl, rfl⟩

theorem continuous_sum (l : List Term) (f : Term → ℝ → ℝ) (h : ∀ r, Continuous (f r)) : Continuous fun t => (l.map fun r => f r t).sum := by
  induction l with
  | nil => simpa using continuous_const
  | cons a l ih => simp only [List.map_cons, List.sum_cons]; exact (h a).add ih

theorem continuous_phase (r : Term) : Continuous (phase r) := by
  unfold phase asec linear
  fun_prop

/-- C201: no jumps where an argument completes a turn: both components are continuous in time. -/
theorem components_continuous (tab : List Term) : Continuous (dpsi tab) ∧ Continuous (deps tab) := by
  have h1 : dpsi tab = fun t => asec (specPsi tab t) := funext fun t => (series_exact tab t).1
  have h2 : deps tab = fun t => asec (specEps tab t) := funext fun t => (series_exact tab t).2
  have hp := continuous_phase
  rw [h1, h2]
  unfold asec specPsi specEps
  constructor
  · refine ((continuous_sum tab (fun r t => ((r.ps + r.pst * t) * sin (phase r t) + r.pc * cos (phase r t)) / 1e7) ?_).sub continuous_const).mul_const _ |>.div_const _
    intro r
    have := hp r
    fun_prop
  · refine ((continuous_sum tab (fun r t => ((r.ec + r.ect * t) * cos (phase r t) + r.es * sin (phase r t)) / 1e7) ?_).add continuous_const).mul_const _ |>.div_const _
    intro r
    have := hp r
    fun_prop

/-! ### Bounds -/

/-- Amplitudes of a table in arcseconds: the constant part and the part per century. -/
def ampPsi (tab : List Term) : ℚ × ℚ := ((tab.map fun r => (|r.ps| + |r.pc|) / 10 ^ 7).sum, (tab.map fun r => |r.pst| / 10 ^ 7).sum)
def ampEps (tab : List Term) : ℚ × ℚ := ((tab.map fun r => (|r.ec| + |r.es|) / 10 ^ 7).sum, (tab.map fun r => |r.ect| / 10 ^ 7).sum)

theorem one_bound (a b c t x : ℝ) : |(a + b * t) * sin x + c * cos x| ≤ |a| + |c| + |b| * |t| := by
  have h1 := abs_sin_le_one x
  have h2 := abs_cos_le_one x
  calc |(a + b * t) * sin x + c * cos x| ≤ |(a + b * t) * sin x| + |c * cos x| := abs_add_le _ _
    _ = |a + b * t| * |sin x| + |c| * |cos x| := by rw [abs_mul, abs_mul]
    _ ≤ |a + b * t| * 1 + |c| * 1 := by gcongr
    _ ≤ (|a| + |b * t|) * 1 + |c| * 1 := by gcongr; exact abs_add_le _ _
    _ = _ := by rw [abs_mul]; ring

theorem one_bound' (a b c t x : ℝ) : |(a + b * t) * cos x + c * sin x| ≤ |a| + |c| + |b| * |t| := by
  have := one_bound a b c t (x + π / 2)
  rw [sin_add_pi_div_two, cos_add_pi_div_two] at this
  calc |(a + b * t) * cos x + c * sin x| ≤ |(a + b * t) * cos x| + |c * sin x| := abs_add_le _ _
    _ = |a + b * t| * |cos x| + |c| * |sin x| := by rw [abs_mul, abs_mul]
    _ ≤ |a + b * t| * 1 + |c| * 1 := by gcongr <;> [exact abs_cos_le_one x; exact abs_sin_le_one x]
    _ ≤ (|a| + |b * t|) * 1 + |c| * 1 := by gcongr; exact abs_add_le _ _
    _ = _ := by rw [abs_mul]; ring

theorem psi_bound (tab : List Term) (t : ℝ) : |specPsi tab t| ≤ (ampPsi tab).1 + (ampPsi tab).2 * |t| + 0.000135 := by
  have h : |(tab.map fun r => ((r.ps + r.pst * t) * sin (phase r t) + r.pc * cos (phase r t)) / 1e7).sum| ≤ (ampPsi tab).1 + (ampPsi tab).2 * |t| := by
    induction tab with
    | nil => simp [ampPsi]
    | cons a l ih =>
      simp only [List.map_cons, List.sum_cons, ampPsi, Rat.cast_add] at ih ⊢
      refine (abs_add_le _ _).trans ?_
      have h1 := one_bound a.ps a.pst a.pc t (phase a t)
      rw [abs_div, abs_of_pos (by norm_num : (0:ℝ) < 1e7)]
      have h2 : |((a.ps : ℝ) + a.pst * t) * sin (phase a t) + a.pc * cos (phase a t)| / 1e7 ≤ (|(a.ps:ℝ)| + |(a.pc:ℝ)| + |(a.pst:ℝ)| * |t|) / 1e7 := by gcongr
      push_cast at ih ⊢
      have h3 : (|(a.ps:ℝ)| + |(a.pc:ℝ)| + |(a.pst:ℝ)| * |t|) / 1e7 = (|(a.ps:ℝ)| + |(a.pc:ℝ)|) / 10 ^ 7 + |(a.pst:ℝ)| / 10 ^ 7 * |t| := by
        rw [show (1e7:ℝ) = 10 ^ 7 by norm_num]; ring
      linarith
  unfold specPsi
  refine (abs_sub _ _).trans ?_
  rw [show |(0.000135:ℝ)| = 0.000135 by norm_num [abs_of_pos]]
  linarith

theorem eps_bound (tab : List Term) (t : ℝ) : |specEps tab t| ≤ (ampEps tab).1 + (ampEps tab).2 * |t| + 0.000388 := by
  have h : |(tab.map fun r => ((r.ec + r.ect * t) * cos (phase r t) + r.es * sin (phase r t)) / 1e7).sum| ≤ (ampEps tab).1 + (ampEps tab).2 * |t| := by
    induction tab with
    | nil => simp [ampEps]
    | cons a l ih =>
      simp only [List.map_cons, List.sum_cons, ampEps, Rat.cast_add] at ih ⊢
      refine (abs_add_le _ _).trans ?_
      have h1 := one_bound' a.ec a.ect a.es t (phase a t)
      rw [abs_div, abs_of_pos (by norm_num : (0:ℝ) < 1e7)]
      have h2 : |((a.ec : ℝ) + a.ect * t) * cos (phase a t) + a.es * sin (phase a t)| / 1e7 ≤ (|(a.ec:ℝ)| + |(a.es:ℝ)| + |(a.ect:ℝ)| * |t|) / 1e7 := by gcongr
      push_cast at ih ⊢
      have h3 : (|(a.ec:ℝ)| + |(a.es:ℝ)| + |(a.ect:ℝ)| * |t|) / 1e7 = (|(a.ec:ℝ)| + |(a.es:ℝ)|) / 10 ^ 7 + |(a.ect:ℝ)| / 10 ^ 7 * |t| := by
        rw [show (1e7:ℝ) = 10 ^ 7 by norm_num]; ring
      linarith
  unfold specEps
  refine (abs_add_le _ _).trans ?_
  rw [show |(0.000388:ℝ)| = 0.000388 by norm_num [abs_of_pos]]
  linarith

/-- The amplitudes of the table of the package. -/
theorem table_amps : ampPsi table00b = (194554365 / 10 ^ 7, 183352 / 10 ^ 7) ∧ ampEps table00b = (100846574 / 10 ^ 7, 14436 / 10 ^ 7) := by
  decide +kernel

/-- C201: with the table of the package the nutation is less than 19.475 arcseconds in longitude and 10.088 in obliquity in the century around
J2000, and less than 21.3 and 10.3 within ten thousand years of it. -/
theorem nutation_small (t : ℝ) :
    (|t| ≤ 1 → |specPsi table00b t| < 19.475 ∧ |specEps table00b t| < 10.088) ∧
    (|t| ≤ 100 → |specPsi table00b t| < 21.3 ∧ |specEps table00b t| < 10.3) := by
  have h1 := psi_bound table00b t
  have h2 := eps_bound table00b t
  rw [table_amps.1] at h1
  rw [table_amps.2] at h2
  push_cast at h1 h2
  constructor
  · intro h
    constructor
    · refine lt_of_le_of_lt h1 ?_
      norm_num; linarith
    · refine lt_of_le_of_lt h2 ?_
      norm_num; linarith
  · intro h
    constructor
    · refine lt_of_le_of_lt h1 ?_
      norm_num; linarith
    · refine lt_of_le_of_lt h2 ?_
      norm_num; linarith

/-! ### The nutation matrix -/

/-- Length of a vector. -/
noncomputable def len (v : Fin 3 → ℝ) : ℝ := ‖WithLp.toLp 2 v‖

theorem len_sq (v : Fin 3 → ℝ) : len v ^ 2 = v 0 ^ 2 + v 1 ^ 2 + v 2 ^ 2 := by
  unfold len
  rw [EuclideanSpace.norm_sq_eq]
  simp [Fin.sum_univ_three]

theorem len_nonneg (v : Fin 3 → ℝ) : 0 ≤ len v := norm_nonneg _

theorem len_rot {m : M3} (h : IsRotation m) (v : Fin 3 → ℝ) : len (m.mulVec v) = len v := by
  apply (sq_eq_sq₀ (len_nonneg _) (len_nonneg _)).1
  have e : ∀ w : Fin 3 → ℝ, len w ^ 2 = w ⬝ᵥ w := by
    intro w; rw [len_sq]; simp [dotProduct, Fin.sum_univ_three]; ring
  rw [e, e, Matrix.dotProduct_mulVec, Matrix.vecMul_mulVec, ← Matrix.dotProduct_mulVec]
  have : m.transpose * m = 1 := h.1
  rw [this, Matrix.one_mulVec]

/-- A turn about a coordinate axis moves no vector by more than its angle. -/
theorem rot_moves (a : ℝ) (axis : Axis) (h : axis = .ex ∨ axis = .ez) (v : Fin 3 → ℝ) : len ((rotR a axis).mulVec v - v) ≤ |a| * len v := by
  have hc : 2 * (1 - cos a) ≤ a ^ 2 := by have := one_sub_sq_div_two_le_cos (x := a); linarith
  have hs : sin a ^ 2 + cos a ^ 2 = 1 := sin_sq_add_cos_sq a
  have key : len ((rotR a axis).mulVec v - v) ^ 2 ≤ (|a| * len v) ^ 2 := by
    rw [mul_pow, sq_abs, len_sq, len_sq]
    rcases h with rfl | rfl
    · rw [rotR_x]
      simp [Matrix.mulVec, dotProduct, Fin.sum_univ_three]
      have e : (cos a * v 1 + sin a * v 2 - v 1) ^ 2 + (-(sin a * v 1) + cos a * v 2 - v 2) ^ 2 = 2 * (1 - cos a) * (v 1 ^ 2 + v 2 ^ 2) := by
        linear_combination (v 1 ^ 2 + v 2 ^ 2) * hs
      have : 2 * (1 - cos a) * (v 1 ^ 2 + v 2 ^ 2) ≤ a ^ 2 * (v 1 ^ 2 + v 2 ^ 2) := by gcongr
      nlinarith [sq_nonneg (a * v 0)]
    · rw [rotR_z]
      simp [Matrix.mulVec, dotProduct, Fin.sum_univ_three]
      have e : (cos a * v 0 + sin a * v 1 - v 0) ^ 2 + (-(sin a * v 0) + cos a * v 1 - v 1) ^ 2 = 2 * (1 - cos a) * (v 0 ^ 2 + v 1 ^ 2) := by
        linear_combination (v 0 ^ 2 + v 1 ^ 2) * hs
      have : 2 * (1 - cos a) * (v 0 ^ 2 + v 1 ^ 2) ≤ a ^ 2 * (v 0 ^ 2 + v 1 ^ 2) := by gcongr
      nlinarith [sq_nonneg (a * v 2)]
  exact (sq_le_sq₀ (len_nonneg _) (mul_nonneg (abs_nonneg _) (len_nonneg _))).1 key

/-- C201: the nutation matrix moves no direction by more than |Δψ| + |Δε|, whatever the series. -/
theorem nutation_moves (S : Frames.Series) (e : Epoch) (v : Fin 3 → ℝ) :
    len ((Frames.nutation S e).mulVec v - v) ≤ (|(S.nut e.val).2.1| + |(S.nut e.val).2.2|) * len v := by
  obtain ⟨⟨ε, ψ, δ⟩, hE⟩ : ∃ x, S.nut e.val = x := ⟨_, rfl⟩
  rw [hE]
  have hN : Frames.nutation S e = rotR (-δ) .ex * (rotR (-ε) .ex * rotR (-ψ) .ez * rotR ε .ex) := by
    unfold Frames.nutation
    rw [hE]
    simp only
    rw [show -(ε + δ) = -δ + -ε by ring, rotR_add _ _ (axis := .ex) trivial]
    simp only [Matrix.mul_assoc]
  set w := (rotR (-ε) .ex * rotR (-ψ) .ez * rotR ε .ex).mulVec v with hw
  have hrx : ∀ a, IsRotation (rotR a .ex) := fun a => rotR_isRot a trivial
  have hlw : len w = len v := by
    rw [hw]
    exact len_rot (isRot_mul (isRot_mul (hrx _) (rotR_isRot _ (axis := .ez) trivial)) (hrx _)) v
  have h1 : len ((rotR (-δ) .ex).mulVec w - w) ≤ |δ| * len v := by
    have := rot_moves (-δ) .ex (.inl rfl) w
    rwa [abs_neg, hlw] at this
  have h2 : len (w - v) ≤ |ψ| * len v := by
    set u := (rotR ε .ex).mulVec v with hu
    have hv : v = (rotR (-ε) .ex).mulVec u := by
      rw [hu, Matrix.mulVec_mulVec, ← rotR_add _ _ (axis := .ex) trivial]
      simp [rotR_zero (axis := .ex) trivial]
    have hwu : w = (rotR (-ε) .ex).mulVec ((rotR (-ψ) .ez).mulVec u) := by
      rw [hw, hu, Matrix.mulVec_mulVec, Matrix.mulVec_mulVec]
    have hlu : len u = len v := len_rot (hrx _) v
    have : w - v = (rotR (-ε) .ex).mulVec ((rotR (-ψ) .ez).mulVec u - u) := by
      rw [Matrix.mulVec_sub, ← hwu, ← hv]
    rw [this, len_rot (hrx _)]
    have := rot_moves (-ψ) .ez (.inr rfl) u
    rwa [abs_neg, hlu] at this
  have e3 : (Frames.nutation S e).mulVec v - v = ((rotR (-δ) .ex).mulVec w - w) + (w - v) := by
    rw [hN, hw, ← Matrix.mulVec_mulVec]; abel
  rw [e3]
  have tri : len (((rotR (-δ) .ex).mulVec w - w) + (w - v)) ≤ len ((rotR (-δ) .ex).mulVec w - w) + len (w - v) := by
    unfold len
    rw [WithLp.toLp_add]
    exact norm_add_le _ _
  simp only
  linarith

/-- The series of the package: nutation from the table, the rest as it may be. -/
noncomputable def packaged (S : Frames.Series) : Frames.Series := { S with nut := fun e => components table00b e true }

theorem packaged_nut (S : Frames.Series) (e : ℝ) : (|(e - 2000) / 100| ≤ 100 →
    |((packaged S).nut e).2.1| < asec 21.3 ∧ |((packaged S).nut e).2.2| < asec 10.3) := by
  intro h
  have hb := (nutation_small ((e - 2000) / 100)).2 h
  have hc := (components_epoch table00b e).2
  simp only [packaged, hc]
  have hm : ∀ x y : ℝ, |x| < y → |asec x| < asec y := by
    intro x y hxy
    unfold asec
    rw [abs_div, abs_mul, abs_of_pos pi_pos, abs_of_pos (by norm_num : (0:ℝ) < 648000)]
    have := pi_pos
    gcongr
  exact ⟨hm _ _ hb.1, hm _ _ hb.2⟩

/-- C201: within ten thousand years of J2000 the nutation of the package moves no direction by more than 31.6 arcseconds (chord of a unit
sphere). -/
theorem packaged_moves (S : Frames.Series) (e : Epoch) (h : |(e.val - 2000) / 100| ≤ 100) (v : Fin 3 → ℝ) :
    len ((Frames.nutation (packaged S) e).mulVec v - v) ≤ asec 31.6 * len v := by
  refine (nutation_moves _ e v).trans ?_
  have hb := packaged_nut S e.val h
  have := len_nonneg v
  have e2 : asec 31.6 = asec 21.3 + asec 10.3 := by unfold asec; ring
  rw [e2]
  gcongr
  · exact hb.1.le
  · exact hb.2.le

theorem nutation_22 (S : Frames.Series) (e : Epoch) : Frames.nutation S e 2 2 ≥ cos (S.nut e.val).2.2 - (1 - cos (S.nut e.val).2.1) := by
  obtain ⟨⟨ε, ψ, δ⟩, hE⟩ : ∃ x, S.nut e.val = x := ⟨_, rfl⟩
  unfold Frames.nutation
  rw [hE]
  simp only [rotR_x, rotR_z]
  have e1 : (!![1, 0, 0; 0, cos (-(ε + δ)), sin (-(ε + δ)); 0, -sin (-(ε + δ)), cos (-(ε + δ))] *
      !![cos (-ψ), sin (-ψ), 0; -sin (-ψ), cos (-ψ), 0; 0, 0, 1] *
      !![1, 0, 0; 0, cos ε, sin ε; 0, -sin ε, cos ε] : M3) 2 2 = sin (ε + δ) * cos ψ * sin ε + cos (ε + δ) * cos ε := by
    rw [show -(ε + δ) = -(ε + δ) from rfl, cos_neg, sin_neg, cos_neg, sin_neg]
    simp [Matrix.mul_apply, Fin.sum_univ_three]
  rw [e1]
  have e2 : cos δ = cos (ε + δ) * cos ε + sin (ε + δ) * sin ε := by rw [← cos_sub]; ring_nf
  have e3 : sin (ε + δ) * sin ε * (1 - cos ψ) ≤ 1 * (1 - cos ψ) := by
    apply mul_le_mul_of_nonneg_right _ (by linarith [cos_le_one ψ])
    nlinarith [sq_nonneg (sin (ε + δ) - sin ε), sin_sq_le_one (ε + δ), sin_sq_le_one ε]
  rw [e2]
  nlinarith

theorem frameBias_entries : |frameBias 0 2| ≤ 1 / 1000 ∧ |frameBias 1 2| ≤ 1 / 1000 ∧ 0.99 ≤ frameBias 2 2 := by
  have hpi := pi_lt_four
  have hp := pi_pos
  have small : ∀ x : ℝ, |x| ≤ 1 / 2000 → |sin x| ≤ 1 / 2000 := fun x hx => (abs_sin_le_abs).trans hx
  have big : ∀ x : ℝ, |x| ≤ 1 / 2000 → 0.999 ≤ cos x := by
    intro x hx
    have := one_sub_sq_div_two_le_cos (x := x)
    have h2 : x ^ 2 ≤ (1 / 2000) ^ 2 := by rw [← sq_abs]; gcongr
    norm_num at h2 ⊢
    linarith
  set a : ℝ := -(-6.8192) / 3600000 * π / 180 with ha
  set b : ℝ := -16.6170 / 3600000 * π / 180 with hb
  set c : ℝ := -14.6 / 3600000 * π / 180 with hc
  have Ha : |a| ≤ 1 / 2000 := by rw [ha, abs_of_nonneg (by positivity)]; norm_num; linarith
  have Hb : |b| ≤ 1 / 2000 := by rw [hb, abs_le]; constructor <;> norm_num <;> linarith
  have Hc : |c| ≤ 1 / 2000 := by rw [hc, abs_le]; constructor <;> norm_num <;> linarith
  have e : frameBias = rotR a .ex * rotR b .ey * rotR c .ez := by
    unfold frameBias; simp only [rot_rotR, ha, hb, hc]
  have e02 : frameBias 0 2 = -sin b := by rw [e, rotR_x, rotR_y, rotR_z]; simp [Matrix.mul_apply, Fin.sum_univ_three]
  have e12 : frameBias 1 2 = sin a * cos b := by rw [e, rotR_x, rotR_y, rotR_z]; simp [Matrix.mul_apply, Fin.sum_univ_three]
  have e22 : frameBias 2 2 = cos a * cos b := by rw [e, rotR_x, rotR_y, rotR_z]; simp [Matrix.mul_apply, Fin.sum_univ_three]
  refine ⟨?_, ?_, ?_⟩
  · rw [e02, abs_neg]; linarith [small b Hb]
  · rw [e12, abs_mul]
    have := small a Ha
    nlinarith [abs_cos_le_one b, abs_nonneg (sin a), abs_nonneg (cos b)]
  · rw [e22]
    have h1 := big a Ha
    have h2 := big b Hb
    nlinarith

/-- C201 (with C139): with the nutation of the package, the pole of date is on the side of the GCRS pole at every epoch within ten thousand years of
J2000, so the hypothesis of the CIRS theorems holds there. -/
theorem packaged_upright (S : Frames.Series) (e : Epoch) (h : |(e.val - 2000) / 100| ≤ 100) : Upright (packaged S) e := by
  have hpi := pi_lt_four
  have hp := pi_pos
  -- nutation
  have hN : 0 < Frames.nutation (packaged S) e 2 2 := by
    have hb := packaged_nut S e.val h
    have h22 := nutation_22 (packaged S) e
    have hx : ∀ x : ℝ, |x| < 1 / 2 → 0.8 ≤ cos x := by
      intro x hx
      have := one_sub_sq_div_two_le_cos (x := x)
      have h2 : x ^ 2 ≤ (1 / 2) ^ 2 := by rw [← sq_abs]; gcongr
      norm_num at h2 ⊢
      linarith
    have ha : asec 21.3 ≤ 1 / 2 := by unfold asec; norm_num; linarith
    have ha' : asec 10.3 ≤ 1 / 2 := by unfold asec; norm_num; linarith
    have h1 := hx _ (hb.1.trans_le ha)
    have h2 := hx _ (hb.2.trans_le ha')
    linarith
  -- precession and bias
  have hP : 0 < (precCapitaine e * frameBias) 2 2 := by
    obtain ⟨b0, b1, b2⟩ := frameBias_entries
    have hT := h
    set T := (e.val - 2000) / 100 with hTd
    set th := polyval [-0.0000001274, -0.000007089, -0.04182264, -0.4294934, 2004.191903, 0] T / 3600 with hth
    have hcos : precCapitaine e 2 2 = cos (th * π / 180) := by
      unfold precCapitaine
      exact (euler_entries _ _ _).2.2.2
    have hthb : |th| ≤ 70 := by
      have h2 : |T| ^ 2 ≤ 100 ^ 2 := by gcongr
      have h3 : |T| ^ 3 ≤ 100 ^ 3 := by gcongr
      have h4 : |T| ^ 4 ≤ 100 ^ 4 := by gcongr
      have h5 : |T| ^ 5 ≤ 100 ^ 5 := by gcongr
      rw [← abs_pow] at h2 h3 h4 h5
      rw [abs_le] at *
      rw [hth]
      simp only [polyval, List.foldl_cons, List.foldl_nil]
      constructor <;> norm_num <;> nlinarith
    have hcb : 0.3 ≤ cos (th * π / 180) := by
      rw [← cos_abs]
      have hle : |th * π / 180| ≤ 70 * π / 180 := by
        rw [abs_div, abs_mul, abs_of_pos hp, abs_of_pos (by norm_num : (0:ℝ) < 180)]
        gcongr
      have hmono : cos (70 * π / 180) ≤ cos |th * π / 180| :=
        cos_le_cos_of_nonneg_of_le_pi (abs_nonneg _) (by linarith) hle
      refine le_trans ?_ hmono
      have hs : cos (70 * π / 180) = sin (π / 9) := by
        rw [← sin_pi_div_two_sub]; congr 1; ring
      rw [hs]
      have hx0 : 0 < π / 9 := by positivity
      have := sin_gt_sub_cube hx0
      have hpi3 := pi_gt_three
      have hpi4 := pi_lt_d2
      have hcube : (π / 9) ^ 3 ≤ (0.35) ^ 3 := by gcongr; norm_num at hpi4 ⊢; linarith
      norm_num at hcube ⊢
      linarith
    have hu := bottom_unit (precCapitaine_isRot e)
    have q0 : |precCapitaine e 2 0| ≤ 1 := by
      rw [← sq_le_one_iff_abs_le_one]; nlinarith [sq_nonneg (precCapitaine e 2 1), sq_nonneg (precCapitaine e 2 2)]
    have q1 : |precCapitaine e 2 1| ≤ 1 := by
      rw [← sq_le_one_iff_abs_le_one]; nlinarith [sq_nonneg (precCapitaine e 2 0), sq_nonneg (precCapitaine e 2 2)]
    have m0 : |precCapitaine e 2 0 * frameBias 0 2| ≤ 1 * (1 / 1000) := by rw [abs_mul]; gcongr
    have m1 : |precCapitaine e 2 1 * frameBias 1 2| ≤ 1 * (1 / 1000) := by rw [abs_mul]; gcongr
    have m2 : 0.297 ≤ precCapitaine e 2 2 * frameBias 2 2 := by rw [hcos]; nlinarith
    simp only [Matrix.mul_apply, Fin.sum_univ_three]
    have := neg_abs_le (precCapitaine e 2 0 * frameBias 0 2)
    have := neg_abs_le (precCapitaine e 2 1 * frameBias 1 2)
    linarith
  -- two unit vectors with positive third entries are not opposite
  intro hz
  set A := Frames.nutation (packaged S) e with hA
  set C := precCapitaine e * frameBias with hC
  have hAr := bottom_unit (nutation_isRot (packaged S) e)
  have hCr := bottom_unit (isRot_transpose (isRot_mul (precCapitaine_isRot e) frameBias_isRot))
  rw [← hA] at hAr
  rw [← hC] at hCr
  simp only [Matrix.transpose_apply] at hCr
  have hsum : A 2 0 * C 0 2 + A 2 1 * C 1 2 + A 2 2 * C 2 2 = -1 := by
    have : npb (packaged S) e = A * C := by rw [hA, hC]; unfold npb; rw [Matrix.mul_assoc]
    rw [this] at hz
    simpa [Matrix.mul_apply, Fin.sum_univ_three] using hz
  nlinarith [sq_nonneg (A 2 0 + C 0 2), sq_nonneg (A 2 1 + C 1 2)]

/-- C201: so at those epochs the CIRS matrix is a rotation and assigning epochs to CIRS coordinates is reversible. -/
theorem packaged_cirs (S : Frames.Series) (e : Epoch) (h : |(e.val - 2000) / 100| ≤ 100) :
    IsRotation (cMatrix (packaged S) (some e)) ∧ (cMatrix (packaged S) (some e)).mulVec (npb (packaged S) e 2) = ![0, 0, 1] :=
  ⟨(transforms_are_rotations (packaged S) (some e) e (by rintro x hx; cases hx; exact packaged_upright S e h)).1,
   (cirs_pole _ e (packaged_upright S e h)).2⟩

end Verif.Nutation
