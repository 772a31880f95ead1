import Mathlib.Analysis.SpecialFunctions.Pow.Deriv
import Mathlib.Analysis.SpecialFunctions.Log.Deriv
import Mathlib.Analysis.SpecialFunctions.Integrals.Basic
import Mathlib.MeasureTheory.Integral.IntervalIntegral.FundThmCalculus
import Mathlib.Analysis.SpecialFunctions.Sqrt
import Mathlib.Tactic.Linarith
import Mathlib.Tactic.Ring
import Mathlib.Tactic.NormNum
import Mathlib.Tactic.FieldSimp
import Mathlib.Tactic.LinearCombination

/-!
# Density and surface brightness profiles (astropysics/models.py 256-300, 458-570, 1142-1224) (C113)

Over the reals.  The base classes (parameters, fitting, numerical integration) come from pymodelfit, outside the repository.
-/

namespace Verif.Profiles

open Real Filter Topology

/-! ## Model -/

/-- `BurkertModel.f`, models.py 270-271. -/
noncomputable def burkert (rho0 r0 r : ℝ) : ℝ := rho0 * r0 ^ 3 / ((r + r0) * (r ^ 2 + r0 ^ 2))

/-- `EinastoModel.f`, models.py 300-301. -/
noncomputable def einasto (A rs alpha r : ℝ) : ℝ := A * exp ((-2 / alpha) * ((r / rs) ^ alpha - 1))

/-- `HernquistModel.f`, models.py 479-480. -/
noncomputable def hernquist (A r0 r : ℝ) : ℝ := (A / 2 / π) * (r0 / r) * (r + r0) ^ (-3 : ℤ)

/-- `JaffeModel.f`, models.py 507-508. -/
noncomputable def jaffe (A rj r : ℝ) : ℝ := (A / 4 / π) * rj * r ^ (-2 : ℤ) * (r + rj) ^ (-2 : ℤ)

/-- `NFWModel.f`, models.py 535-537. -/
noncomputable def nfw (rho0 rc r : ℝ) : ℝ :=
  let x := r / rc
  rho0 / (x * (1 + x) ^ 2)

/-- `NFWModel.integrateSpherical(lower,upper,method)`, models.py 558-568: analytic from 0, otherwise the one-dimensional numerical integral. -/
noncomputable def nfwIntegrate (numeric : (ℝ → ℝ) → ℝ → ℝ → ℝ) (rho0 rc lower upper : ℝ) (method : Bool) : ℝ :=
  if method = true ∨ lower ≠ 0 then numeric (nfw rho0 rc) lower upper
  else
    let x := upper / rc
    4 * π * rho0 * rc ^ 3 * (log (1 + x) - x / (1 + x))

/-- `AlphaBetaGammaModel` of pymodelfit: A (r/rs)^-gamma (1+(r/rs)^alpha)^((gamma-beta)/alpha). -/
noncomputable def alphaBetaGamma (A rs alpha beta gamma r : ℝ) : ℝ := A * (r / rs) ^ (-gamma) * (1 + (r / rs) ^ alpha) ^ ((gamma - beta) / alpha)

/-- `MoffatModel.f`, `FWHM`, models.py 1149-1159. -/
noncomputable def moffat (A alpha beta r : ℝ) : ℝ :=
  let roa := r / alpha
  A * (beta - 1) / (π * alpha ^ 2) * (1 + roa * roa) ^ (-beta)
noncomputable def moffatFWHM (alpha beta : ℝ) : ℝ := alpha * 2 * (2 ^ (1 / beta) - 1) ^ (0.5 : ℝ)
noncomputable def moffatSetFWHM (val beta : ℝ) : ℝ := val * (4 * (2 ^ (1 / beta) - 1)) ^ (-0.5 : ℝ)

/-- `PlummerModel.f`, models.py 1177-1178. -/
noncomputable def plummer (rp M r : ℝ) : ℝ := 3 * M / (4 * π * rp ^ 3) * (1 + (r / rp) ^ 2) ^ (-2.5 : ℝ)

/-- `King2DrModel.f`, models.py 1196-1198. -/
noncomputable def king2 (rc rt A r : ℝ) : ℝ :=
  let rcsq := rc * rc
  A * rcsq * ((r * r + rcsq) ^ (-0.5 : ℝ) - (rt * rt + rcsq) ^ (-0.5 : ℝ)) ^ 2

/-- `ExponentialDiskModel.f` and `ExponentialSechSqDiskModel.f`, models.py 316-322, 380-390. -/
noncomputable def expDisk (A l h pa s z : ℝ) : ℝ :=
  let sr := cos pa * s + sin pa * z
  let zr := -sin pa * s + cos pa * z
  A * exp (-|sr / l| - |zr / h|)
noncomputable def sechDisk (A l h pa s z : ℝ) : ℝ :=
  let sr := if pa = 0 then s else cos pa * s + sin pa * z
  let zr := if pa = 0 then z else -sin pa * s + cos pa * z
  A * exp (-|sr / l|) * cosh (zr / h) ^ (-2 : ℤ)

/-! ## Specification -/

/-- The mass of a density inside a sphere, the light of a surface brightness inside a circle. -/
noncomputable def massWithin (rho : ℝ → ℝ) (r : ℝ) : ℝ := ∫ x in (0 : ℝ)..r, 4 * π * x ^ 2 * rho x
noncomputable def lightWithin (f : ℝ → ℝ) (r : ℝ) : ℝ := ∫ x in (0 : ℝ)..r, 2 * π * x * f x

/-- An antiderivative gives the integral (densities may be infinite at 0). -/
theorem integral_of_deriv (g M : ℝ → ℝ) (r : ℝ) (hr : 0 ≤ r) (h0 : M 0 = 0) (hc : ContinuousOn M (Set.Icc 0 r))
    (hd : ∀ x, 0 < x → HasDerivAt M (g x) x) (hn : ∀ x, 0 < x → 0 ≤ g x) : ∫ x in (0 : ℝ)..r, g x = M r := by
  have hi : IntervalIntegrable g MeasureTheory.volume 0 r := by
    rw [intervalIntegrable_iff_integrableOn_Ioc_of_le hr]
    exact intervalIntegral.integrableOn_deriv_of_nonneg hc (fun x hx => hd x hx.1) (fun x hx => hn x hx.1)
  rw [intervalIntegral.integral_eq_sub_of_hasDerivAt_of_le hr hc (fun x hx => hd x hx.1) hi, h0, sub_zero]

/-! ## Theorems -/

/-- Hernquist: the mass within r is A r²/(r+r0)²; it tends to the total mass A; half of it is within r0/(√2-1). -/
theorem hernquist_mass (A r0 : ℝ) (hA : 0 ≤ A) (h0 : 0 < r0) :
    (∀ r, 0 ≤ r → massWithin (hernquist A r0) r = A * r ^ 2 / (r + r0) ^ 2) ∧
    Tendsto (massWithin (hernquist A r0)) atTop (𝓝 A) ∧ massWithin (hernquist A r0) (r0 / (√2 - 1)) = A / 2 := by
  have hp := pi_pos
  have key : ∀ r, 0 ≤ r → massWithin (hernquist A r0) r = A * r ^ 2 / (r + r0) ^ 2 := by
    intro r hr
    refine integral_of_deriv _ (fun r => A * r ^ 2 / (r + r0) ^ 2) r hr (by simp) ?_ ?_ ?_
    · apply ContinuousOn.div (by fun_prop) (by fun_prop)
      intro x hx
      have : 0 < x + r0 := by linarith [hx.1]
      positivity
    · intro x hx
      have h1 : x + r0 ≠ 0 := by positivity
      have hd : HasDerivAt (fun r => A * r ^ 2 / (r + r0) ^ 2) ((A * (2 * x ^ 1 * 1) * (x + r0) ^ 2 - A * x ^ 2 * (2 * (x + r0) ^ 1 * 1)) / ((x + r0) ^ 2) ^ 2) x :=
        (((hasDerivAt_id x).pow 2).const_mul A).div (((hasDerivAt_id x).add_const r0).pow 2) (by positivity)
      refine hd.congr_deriv ?_
      unfold hernquist
      rw [zpow_neg]
      have hz : (x + r0) ^ (3 : ℤ) = (x + r0) ^ 3 := by norm_cast
      rw [hz]
      field_simp
      ring
    · intro x hx
      unfold hernquist
      positivity
  refine ⟨key, ?_, ?_⟩
  · have : Tendsto (fun r : ℝ => A * (1 - r0 / (r + r0)) ^ 2) atTop (𝓝 (A * (1 - 0) ^ 2)) := by
      refine Tendsto.const_mul A (Tendsto.pow (Tendsto.const_sub 1 ?_) 2)
      exact Tendsto.div_atTop tendsto_const_nhds (tendsto_atTop_add_const_right _ _ tendsto_id)
    rw [sub_zero, one_pow, mul_one] at this
    refine this.congr' ?_
    filter_upwards [eventually_gt_atTop 0] with r hr
    rw [key r hr.le]
    have : r + r0 ≠ 0 := by positivity
    field_simp
    ring
  · have hs : (1 : ℝ) < √2 := by
      rw [lt_sqrt (by norm_num)]; norm_num
    have hs2 : √2 ^ 2 = 2 := sq_sqrt (by norm_num)
    have hne : √2 - 1 ≠ 0 := by linarith
    rw [key _ (div_nonneg h0.le (by linarith))]
    have : r0 / (√2 - 1) + r0 = r0 * √2 / (√2 - 1) := by field_simp; ring
    rw [this]
    have : √2 ≠ 0 := by linarith
    field_simp
    rw [hs2]

/-- Jaffe: A r/(r+rj), total A, half within rj. -/
theorem jaffe_mass (A rj : ℝ) (hA : 0 ≤ A) (h0 : 0 < rj) :
    (∀ r, 0 ≤ r → massWithin (jaffe A rj) r = A * r / (r + rj)) ∧
    Tendsto (massWithin (jaffe A rj)) atTop (𝓝 A) ∧ massWithin (jaffe A rj) rj = A / 2 := by
  have hp := pi_pos
  have key : ∀ r, 0 ≤ r → massWithin (jaffe A rj) r = A * r / (r + rj) := by
    intro r hr
    refine integral_of_deriv _ (fun r => A * r / (r + rj)) r hr (by simp) ?_ ?_ ?_
    · apply ContinuousOn.div (by fun_prop) (by fun_prop)
      intro x hx
      have : 0 < x + rj := by linarith [hx.1]
      positivity
    · intro x hx
      have h1 : x + rj ≠ 0 := by positivity
      have hd : HasDerivAt (fun r => A * r / (r + rj)) ((A * 1 * (x + rj) - A * x * 1) / (x + rj) ^ 2) x :=
        ((hasDerivAt_id x).const_mul A).div ((hasDerivAt_id x).add_const rj) h1
      refine hd.congr_deriv ?_
      unfold jaffe
      rw [zpow_neg, zpow_neg]
      have hz : ∀ y : ℝ, y ^ (2 : ℤ) = y ^ 2 := fun y => by norm_cast
      rw [hz, hz]
      field_simp
      ring
    · intro x hx
      unfold jaffe
      positivity
  refine ⟨key, ?_, ?_⟩
  · have : Tendsto (fun r : ℝ => A * (1 - rj / (r + rj))) atTop (𝓝 (A * (1 - 0))) := by
      refine Tendsto.const_mul A (Tendsto.const_sub 1 ?_)
      exact Tendsto.div_atTop tendsto_const_nhds (tendsto_atTop_add_const_right _ _ tendsto_id)
    rw [sub_zero, mul_one] at this
    refine this.congr' ?_
    filter_upwards [eventually_gt_atTop 0] with r hr
    rw [key r hr.le]
    have : r + rj ≠ 0 := by positivity
    field_simp
    ring
  · rw [key _ h0.le]; field_simp; ring

/-- Plummer: M r³/(r²+rp²)^(3/2) and the total mass M. -/
theorem plummer_mass (rp M : ℝ) (hM : 0 ≤ M) (h0 : 0 < rp) :
    (∀ r, 0 ≤ r → massWithin (plummer rp M) r = M * (r / rp) ^ 3 * (1 + (r / rp) ^ 2) ^ (-1.5 : ℝ)) ∧
    Tendsto (massWithin (plummer rp M)) atTop (𝓝 M) := by
  have hp := pi_pos
  have hpos : ∀ x : ℝ, 0 < 1 + (x / rp) ^ 2 := fun x => by positivity
  have key : ∀ r, 0 ≤ r → massWithin (plummer rp M) r = M * (r / rp) ^ 3 * (1 + (r / rp) ^ 2) ^ (-1.5 : ℝ) := by
    intro r hr
    refine integral_of_deriv _ (fun r => M * (r / rp) ^ 3 * (1 + (r / rp) ^ 2) ^ (-1.5 : ℝ)) r hr (by simp) ?_ ?_ ?_
    · apply ContinuousOn.mul (by fun_prop)
      apply ContinuousOn.rpow_const (by fun_prop)
      intro x _; left; exact (hpos x).ne'
    · intro x hx
      have hq : HasDerivAt (fun r : ℝ => r / rp) (1 / rp) x := (hasDerivAt_id x).div_const rp
      have hb : HasDerivAt (fun r : ℝ => 1 + (r / rp) ^ 2) (2 * (x / rp) ^ 1 * (1 / rp)) x := (hq.pow 2).const_add 1
      have hd := ((hq.pow 3).const_mul M).mul (hb.rpow_const (p := (-1.5 : ℝ)) (Or.inl (hpos x).ne'))
      refine hd.congr_deriv ?_
      have e1 : (1 + (x / rp) ^ 2) ^ (-1.5 : ℝ) = (1 + (x / rp) ^ 2) ^ (-2.5 : ℝ) * (1 + (x / rp) ^ 2) := by
        rw [← rpow_add_one (hpos x).ne']; norm_num
      have e2 : ((-1.5 : ℝ) - 1) = -2.5 := by norm_num
      unfold plummer
      simp only [Pi.pow_apply]
      rw [e2, e1]
      push_cast
      field_simp
      ring
    · intro x hx
      have := (rpow_pos_of_pos (hpos x) (-2.5)).le
      unfold plummer
      positivity
  refine ⟨key, ?_⟩
  have h1 : Tendsto (fun r : ℝ => 1 + (rp / r) ^ 2) atTop (𝓝 (1 + 0 ^ 2)) :=
    Tendsto.const_add 1 ((Tendsto.div_atTop tendsto_const_nhds tendsto_id).pow 2)
  have h2 : Tendsto (fun r : ℝ => M * (1 + (rp / r) ^ 2) ^ (-1.5 : ℝ)) atTop (𝓝 (M * (1 + 0 ^ 2) ^ (-1.5 : ℝ))) :=
    (h1.rpow_const (Or.inl (by norm_num))).const_mul M
  have e : M * ((1 : ℝ) + 0 ^ 2) ^ (-1.5 : ℝ) = M := by
    rw [show ((1 : ℝ) + 0 ^ 2) = 1 by norm_num, one_rpow, mul_one]
  rw [e] at h2
  refine h2.congr' ?_
  filter_upwards [eventually_gt_atTop 0] with r hr
  rw [key r hr.le]
  have hx : 0 < r / rp := div_pos hr h0
  have e3 : 1 + (r / rp) ^ 2 = (r / rp) ^ 2 * (1 + (rp / r) ^ 2) := by field_simp; ring
  have e4 : ((r / rp) ^ 2 : ℝ) ^ (-1.5 : ℝ) = ((r / rp) ^ 3)⁻¹ := by
    rw [← rpow_natCast, ← rpow_mul hx.le, ← rpow_natCast, ← rpow_neg hx.le]; norm_num
  rw [e3, mul_rpow (by positivity) (by positivity), e4]
  field_simp

/-- NFW: the analytic integral from 0 is the mass within the radius. -/
theorem nfw_mass (numeric : (ℝ → ℝ) → ℝ → ℝ → ℝ) (rho0 rc r : ℝ) (hA : 0 ≤ rho0) (h0 : 0 < rc) (hr : 0 ≤ r) :
    nfwIntegrate numeric rho0 rc 0 r false = massWithin (nfw rho0 rc) r := by
  have hp := pi_pos
  symm
  have e : nfwIntegrate numeric rho0 rc 0 r false = (fun r => 4 * π * rho0 * rc ^ 3 * (log (1 + r / rc) - (r / rc) / (1 + r / rc))) r := by
    simp [nfwIntegrate]
  rw [e]
  refine integral_of_deriv _ (fun r => 4 * π * rho0 * rc ^ 3 * (log (1 + r / rc) - (r / rc) / (1 + r / rc))) r hr (by simp) ?_ ?_ ?_
  · have hpos : ∀ x ∈ Set.Icc 0 r, 1 + x / rc ≠ 0 := fun x hx => by have := hx.1; positivity
    apply ContinuousOn.mul (by fun_prop)
    apply ContinuousOn.sub
    · exact ContinuousOn.log (by fun_prop) hpos
    · exact ContinuousOn.div (by fun_prop) (by fun_prop) hpos
  · intro x hx
    have h1 : 1 + x / rc ≠ 0 := by positivity
    have hq : HasDerivAt (fun r : ℝ => r / rc) (1 / rc) x := (hasDerivAt_id x).div_const rc
    have hb : HasDerivAt (fun r : ℝ => 1 + r / rc) (1 / rc) x := hq.const_add 1
    have hd := ((hb.log h1).sub (hq.div hb h1)).const_mul (4 * π * rho0 * rc ^ 3)
    refine hd.congr_deriv ?_
    unfold nfw
    field_simp
    ring
  · intro x hx
    unfold nfw
    positivity

/-- With another lower limit (or a method) the result is the integral of the density along a line, without the factor 4 pi r²: for radii above 1 it is
smaller than the mass of the shell, by at least 4 pi lower². -/
theorem nfw_shell_counterexample (numeric : (ℝ → ℝ) → ℝ → ℝ → ℝ) (hnum : ∀ f a b, numeric f a b = ∫ x in a..b, f x)
    (rho0 rc lower upper : ℝ) (hA : 0 < rho0) (h0 : 0 < rc) (hl : 0 < lower) (hlu : lower < upper) :
    nfwIntegrate numeric rho0 rc lower upper false * (4 * π * lower ^ 2) ≤ ∫ x in lower..upper, 4 * π * x ^ 2 * nfw rho0 rc x ∧
    0 < nfwIntegrate numeric rho0 rc lower upper false := by
  have hp := pi_pos
  have e : nfwIntegrate numeric rho0 rc lower upper false = ∫ x in lower..upper, nfw rho0 rc x := by
    simp [nfwIntegrate, hl.ne', hnum]
  have hcont : ContinuousOn (nfw rho0 rc) (Set.uIcc lower upper) := by
    rw [Set.uIcc_of_le hlu.le]
    unfold nfw
    apply ContinuousOn.div (by fun_prop) (by fun_prop)
    intro x hx
    have : 0 < x := lt_of_lt_of_le hl hx.1
    positivity
  have hpos : ∀ x, 0 < x → 0 < nfw rho0 rc x := fun x hx => by unfold nfw; positivity
  constructor
  · rw [e, mul_comm, ← intervalIntegral.integral_const_mul]
    apply intervalIntegral.integral_mono_on hlu.le
    · exact (ContinuousOn.mul (by fun_prop) hcont).intervalIntegrable
    · exact (ContinuousOn.mul (by fun_prop) hcont).intervalIntegrable
    · intro x hx
      have hx0 : 0 < x := lt_of_lt_of_le hl hx.1
      apply mul_le_mul_of_nonneg_right _ (hpos x hx0).le
      have : lower ^ 2 ≤ x ^ 2 := by nlinarith [hx.1]
      nlinarith
  · rw [e]
    apply intervalIntegral.intervalIntegral_pos_of_pos_on hcont.intervalIntegrable _ hlu
    intro x hx
    exact hpos x (lt_trans hl hx.1)

/-- The equivalent alpha-beta-gamma model is the same function. -/
theorem nfw_alphaBetaGamma (rho0 rc r : ℝ) (h0 : 0 < rc) (hr : 0 < r) : alphaBetaGamma rho0 rc 1 3 1 r = nfw rho0 rc r := by
  have hx : 0 < r / rc := div_pos hr h0
  unfold alphaBetaGamma nfw
  rw [rpow_neg hx.le, rpow_one, show ((1 : ℝ) - 3) / 1 = -2 by norm_num, rpow_neg (by positivity)]
  have : (1 + r / rc) ^ (2 : ℝ) = (1 + r / rc) ^ 2 := by norm_cast
  rw [this]
  field_simp

/-- So are, up to their constant factors, Hernquist (1,4,1) and Jaffe (1,4,2). -/
theorem hernquist_jaffe_alphaBetaGamma (A s r : ℝ) (h0 : 0 < s) (hr : 0 < r) :
    hernquist A s r = alphaBetaGamma (A / (2 * π * s ^ 3)) s 1 4 1 r ∧ jaffe A s r = alphaBetaGamma (A / (4 * π * s ^ 3)) s 1 4 2 r := by
  have hx : 0 < r / s := div_pos hr h0
  have hp := pi_pos
  have hz : ∀ y : ℝ, y ^ (2 : ℤ) = y ^ 2 := fun y => by norm_cast
  have hz3 : ∀ y : ℝ, y ^ (3 : ℤ) = y ^ 3 := fun y => by norm_cast
  have hr2 : ∀ y : ℝ, y ^ (2 : ℝ) = y ^ 2 := fun y => by norm_cast
  have hr3 : ∀ y : ℝ, y ^ (3 : ℝ) = y ^ 3 := fun y => by norm_cast
  constructor
  · unfold hernquist alphaBetaGamma
    rw [rpow_neg hx.le, rpow_one, show ((1 : ℝ) - 4) / 1 = -3 by norm_num, rpow_neg (by positivity), hr3, zpow_neg, hz3]
    field_simp
    ring
  · unfold jaffe alphaBetaGamma
    rw [rpow_neg hx.le, rpow_one, show ((2 : ℝ) - 4) / 1 = -2 by norm_num, rpow_neg (by positivity), hr2, hr2, zpow_neg, zpow_neg, hz, hz]
    field_simp
    ring

/-- Moffat: at half the FWHM the profile is half its central value; setting the FWHM gives that FWHM; the total light is A. -/
theorem moffat_fwhm (A alpha beta v : ℝ) (ha : 0 < alpha) (hb : 0 < beta) :
    moffat A alpha beta (moffatFWHM alpha beta / 2) = moffat A alpha beta 0 / 2 ∧
    moffatFWHM (moffatSetFWHM v beta) beta = v ∧ moffatSetFWHM (moffatFWHM alpha beta) beta = alpha := by
  set q := (2 : ℝ) ^ (1 / beta) - 1 with hq
  have hq0 : 0 < q := by
    have : (1 : ℝ) < 2 ^ (1 / beta) := one_lt_rpow (by norm_num) (by positivity)
    linarith
  have hs : (q ^ (0.5 : ℝ)) ^ 2 = q := by
    rw [← rpow_natCast, ← rpow_mul hq0.le]; norm_num
  have hsp : 0 < q ^ (0.5 : ℝ) := rpow_pos_of_pos hq0 _
  have h4 : (4 * q) ^ (-0.5 : ℝ) = 1 / (2 * q ^ (0.5 : ℝ)) := by
    rw [mul_rpow (by norm_num) hq0.le, show (4 : ℝ) = 2 ^ (2 : ℝ) by norm_num, ← rpow_mul (by norm_num), show (2 : ℝ) * -0.5 = -1 by norm_num,
      rpow_neg_one, show (-0.5 : ℝ) = -(0.5) by norm_num, rpow_neg hq0.le]
    field_simp
  refine ⟨?_, ?_, ?_⟩
  · unfold moffat moffatFWHM
    rw [← hq]
    have e : 1 + alpha * 2 * q ^ (0.5 : ℝ) / 2 / alpha * (alpha * 2 * q ^ (0.5 : ℝ) / 2 / alpha) = 2 ^ (1 / beta) := by
      have : alpha * 2 * q ^ (0.5 : ℝ) / 2 / alpha = q ^ (0.5 : ℝ) := by field_simp
      rw [this, ← sq, hs, hq]; ring
    simp only
    rw [e, ← rpow_mul (by norm_num), show 1 / beta * -beta = -1 by field_simp, rpow_neg_one]
    simp
    ring
  · unfold moffatFWHM moffatSetFWHM
    rw [← hq, h4]; field_simp
  · unfold moffatFWHM moffatSetFWHM
    rw [← hq, h4]; field_simp

theorem moffat_total (A alpha beta : ℝ) (hA : 0 ≤ A) (ha : 0 < alpha) (hb : 1 < beta) :
    (∀ r, 0 ≤ r → lightWithin (moffat A alpha beta) r = A * (1 - (1 + (r / alpha) ^ 2) ^ (1 - beta))) ∧
    Tendsto (lightWithin (moffat A alpha beta)) atTop (𝓝 A) := by
  have hp := pi_pos
  have hpos : ∀ x : ℝ, 0 < 1 + (x / alpha) ^ 2 := fun x => by positivity
  have key : ∀ r, 0 ≤ r → lightWithin (moffat A alpha beta) r = A * (1 - (1 + (r / alpha) ^ 2) ^ (1 - beta)) := by
    intro r hr
    refine integral_of_deriv _ (fun r => A * (1 - (1 + (r / alpha) ^ 2) ^ (1 - beta))) r hr (by simp) ?_ ?_ ?_
    · apply ContinuousOn.mul (by fun_prop)
      apply ContinuousOn.sub (by fun_prop)
      apply ContinuousOn.rpow_const (by fun_prop)
      intro x _; left; exact (hpos x).ne'
    · intro x hx
      have hq : HasDerivAt (fun r : ℝ => r / alpha) (1 / alpha) x := (hasDerivAt_id x).div_const alpha
      have hbb : HasDerivAt (fun r : ℝ => 1 + (r / alpha) ^ 2) (2 * (x / alpha) ^ 1 * (1 / alpha)) x := (hq.pow 2).const_add 1
      have hd := (((hbb.rpow_const (p := 1 - beta) (Or.inl (hpos x).ne'))).const_sub 1).const_mul A
      refine hd.congr_deriv ?_
      unfold moffat
      have e : (1 : ℝ) - beta - 1 = -beta := by ring
      rw [e]
      have e2 : x / alpha * (x / alpha) = (x / alpha) ^ 2 := by ring
      simp only
      rw [e2]
      field_simp
      ring
    · intro x hx
      have h1 := (rpow_pos_of_pos (hpos x) (-beta)).le
      have h2 : 0 ≤ beta - 1 := by linarith
      unfold moffat
      have e2 : x / alpha * (x / alpha) = (x / alpha) ^ 2 := by ring
      simp only
      rw [e2]
      positivity
  refine ⟨key, ?_⟩
  have h1 : Tendsto (fun r : ℝ => 1 + (r / alpha) ^ 2) atTop atTop := by
    apply tendsto_atTop_add_const_left
    exact (tendsto_pow_atTop (by norm_num)).comp (Tendsto.atTop_div_const ha tendsto_id)
  have h2 : Tendsto (fun r : ℝ => A * (1 - (1 + (r / alpha) ^ 2) ^ (1 - beta))) atTop (𝓝 (A * (1 - 0))) := by
    refine Tendsto.const_mul A (Tendsto.const_sub 1 ?_)
    have := (tendsto_rpow_neg_atTop (y := beta - 1) (by linarith)).comp h1
    refine this.congr fun r => ?_
    simp
  rw [sub_zero, mul_one] at h2
  refine h2.congr' ?_
  filter_upwards [eventually_ge_atTop 0] with r hr
  rw [key r hr]

/-- Burkert: rho0 is the density at the centre, and a quarter of it is left at r0. -/
theorem burkert_centre (rho0 r0 : ℝ) (h0 : 0 < r0) : burkert rho0 r0 0 = rho0 ∧ burkert rho0 r0 r0 = rho0 / 4 := by
  unfold burkert
  constructor
  · field_simp; ring
  · field_simp; ring

/-- Einasto: A is the density at rs, and there the logarithmic slope is -2. -/
theorem einasto_slope (A rs alpha r : ℝ) (hA : 0 < A) (hs : 0 < rs) (ha : alpha ≠ 0) (hr : 0 < r) :
    einasto A rs alpha rs = A ∧ log (einasto A rs alpha r / A) = (-2 / alpha) * ((r / rs) ^ alpha - 1) ∧
    HasDerivAt (einasto A rs alpha) (-2 * (r / rs) ^ alpha * einasto A rs alpha r / r) r := by
  refine ⟨?_, ?_, ?_⟩
  · simp [einasto, div_self hs.ne']
  · unfold einasto; rw [mul_div_cancel_left₀ _ hA.ne', log_exp]
  · have hx : 0 < r / rs := div_pos hr hs
    have hq : HasDerivAt (fun r : ℝ => r / rs) (1 / rs) r := (hasDerivAt_id r).div_const rs
    have h1 := hq.rpow_const (p := alpha) (Or.inl hx.ne')
    have h2 := (((h1.sub_const 1).const_mul (-2 / alpha)).exp).const_mul A
    refine h2.congr_deriv ?_
    unfold einasto
    have : (r / rs) ^ (alpha - 1) = (r / rs) ^ alpha / (r / rs) := rpow_sub_one hx.ne' alpha
    rw [this]
    field_simp

/-- King (projected): zero at the tidal radius and falling before it. -/
theorem king_tidal (rc rt A : ℝ) (hc : 0 < rc) (hA : 0 < A) :
    king2 rc rt A rt = 0 ∧ ∀ r s, 0 ≤ r → r < s → s ≤ rt → king2 rc rt A s < king2 rc rt A r := by
  constructor
  · simp [king2]
  · intro r s hr hrs hst
    have hp : ∀ x : ℝ, 0 < x * x + rc * rc := fun x => by nlinarith [mul_self_nonneg x]
    have mono : ∀ x y : ℝ, 0 ≤ x → x < y → (y * y + rc * rc) ^ (-0.5 : ℝ) < (x * x + rc * rc) ^ (-0.5 : ℝ) := by
      intro x y hx hxy
      exact rpow_lt_rpow_of_neg (hp x) (by nlinarith) (by norm_num)
    have h1 := mono r s hr hrs
    have h2 : (rt * rt + rc * rc) ^ (-0.5 : ℝ) ≤ (s * s + rc * rc) ^ (-0.5 : ℝ) := by
      rcases eq_or_lt_of_le hst with h | h
      · rw [h]
      · exact (mono s rt (by linarith) h).le
    unfold king2
    have : 0 < A * (rc * rc) := by positivity
    apply mul_lt_mul_of_pos_left _ this
    nlinarith

/-- Beyond the tidal radius it does not stay zero, as a truncated profile must: it rises again. -/
theorem king_beyond_counterexample (rc rt A : ℝ) (hc : 0 < rc) (hA : 0 < A) (ht : 0 ≤ rt) (r s : ℝ) (hr : rt ≤ r) (hrs : r < s) :
    king2 rc rt A r < king2 rc rt A s := by
  have hp : ∀ x : ℝ, 0 < x * x + rc * rc := fun x => by nlinarith [mul_self_nonneg x]
  have mono : ∀ x y : ℝ, 0 ≤ x → x < y → (y * y + rc * rc) ^ (-0.5 : ℝ) < (x * x + rc * rc) ^ (-0.5 : ℝ) := by
    intro x y hx hxy
    exact rpow_lt_rpow_of_neg (hp x) (by nlinarith) (by norm_num)
  have h1 := mono r s (by linarith) hrs
  have h2 : (r * r + rc * rc) ^ (-0.5 : ℝ) ≤ (rt * rt + rc * rc) ^ (-0.5 : ℝ) := by
    rcases eq_or_lt_of_le hr with h | h
    · rw [h]
    · exact (mono rt r ht h).le
  unfold king2
  have : 0 < A * (rc * rc) := by positivity
  apply mul_lt_mul_of_pos_left _ this
  nlinarith

/-- The disks: for pa = 0 the documented profiles; pa rotates counter-clockwise: the value at a point turned by pa is the unrotated value. -/
theorem disks (A l h pa s z : ℝ) :
    expDisk A l h 0 s z = A * exp (-|s / l|) * exp (-|z / h|) ∧
    sechDisk A l h 0 s z = A * exp (-|s / l|) * (1 / cosh (z / h)) ^ 2 ∧
    expDisk A l h pa (cos pa * s - sin pa * z) (sin pa * s + cos pa * z) = expDisk A l h 0 s z ∧
    sechDisk A l h pa (cos pa * s - sin pa * z) (sin pa * s + cos pa * z) = sechDisk A l h 0 s z := by
  have e := sin_sq_add_cos_sq pa
  have e1 : cos pa * (cos pa * s - sin pa * z) + sin pa * (sin pa * s + cos pa * z) = s := by linear_combination s * e
  have e2 : -sin pa * (cos pa * s - sin pa * z) + cos pa * (sin pa * s + cos pa * z) = z := by linear_combination z * e
  refine ⟨?_, ?_, ?_, ?_⟩
  · simp [expDisk, mul_assoc, ← exp_add, sub_eq_add_neg]
  · simp only [sechDisk, if_true, zpow_neg]
    rw [one_div, inv_pow]
    norm_cast
  · unfold expDisk
    simp only [e1, e2]
    simp
  · unfold sechDisk
    by_cases hpa : pa = 0
    · subst hpa; simp
    · simp only [hpa, if_false, if_true, e1, e2]

example : massWithin (hernquist 2 1) 1 = 1 / 2 := by rw [(hernquist_mass 2 1 (by norm_num) (by norm_num)).1 1 (by norm_num)]; norm_num

end Verif.Profiles
