import Verif.Profiles
import Mathlib.Analysis.SpecialFunctions.Gamma.Basic
import Mathlib.MeasureTheory.Integral.IntegralEqImproper
import Mathlib.MeasureTheory.Integral.IntervalIntegral.FundThmCalculus
import Mathlib.Analysis.SpecialFunctions.Pow.Deriv

/-!
# Schechter luminosity functions and Sersic profiles (astropysics/models.py 1226-1510) (C115)

Over the reals.  scipy's incomplete gamma functions are their integrals; numerical integration is the integral; `gammaincinv` is a parameter.
-/

namespace Verif.Schechter

open Real Filter Topology MeasureTheory Verif.Profiles

/-! ## The library functions -/

/-- The lower incomplete gamma function, unregularised. -/
noncomputable def lowerGamma (s x : ℝ) : ℝ := ∫ t in (0 : ℝ)..x, exp (-t) * t ^ (s - 1)

/-- scipy.special.gammainc and gammaincc (regularised; for s > 0 and x ≥ 0). -/
noncomputable def gammainc (s x : ℝ) : ℝ := lowerGamma s x / Gamma s
noncomputable def gammaincc (s x : ℝ) : ℝ := 1 - gammainc s x

/-! ## Model -/

/-- `SchechterLumModel.f` and `derivative`, models.py 1310-1325. -/
noncomputable def lumF (Lstar alpha phistar L : ℝ) : ℝ := phistar * (L / Lstar) ^ alpha * exp (-(L / Lstar)) / Lstar
noncomputable def lumD (Lstar alpha phistar L : ℝ) : ℝ :=
  phistar * Lstar ^ (-2 : ℤ) * (alpha - L / Lstar) * exp (-(L / Lstar)) * (L / Lstar) ^ (alpha - 1)

/-- An upper limit of integration: a number or infinity. -/
inductive Upper where
  | num (x : ℝ)
  | inf

/-- The four cases of both `integrate` methods, models.py 1277-1286, 1346-1353: s, the scaled limits and the original lower limit. -/
noncomputable def gammaPart (s l lower : ℝ) : Option ℝ → ℝ
  | none => if lower ≤ 0 then Gamma s else gammaincc s l * Gamma s
  | some u => if lower = 0 then gammainc s u * Gamma s else (gammainc s u - gammainc s l) * Gamma s

/-- Numerical integration of pymodelfit. -/
noncomputable def numeric (f : ℝ → ℝ) (lower : ℝ) : Upper → ℝ
  | .num u => ∫ x in lower..u, f x
  | .inf => ∫ x in Set.Ioi lower, f x

/-- `SchechterLumModel.integrate(lower,upper,method)`, models.py 1327-1355. -/
noncomputable def lumScaled (Lstar : ℝ) : Upper → Option ℝ
  | .num u => some (u / Lstar)
  | .inf => none
noncomputable def lumInt (Lstar alpha phistar lower : ℝ) (upper : Upper) (method : Bool) : ℝ :=
  if alpha ≤ -1 ∨ method = true then numeric (lumF Lstar alpha phistar) lower upper
  else phistar * gammaPart (alpha + 1) (lower / Lstar) lower (lumScaled Lstar upper)

/-- `SchechterMagModel.f` and `derivative`, models.py 1241-1260. -/
noncomputable def front : ℝ := log 10 * 0.4
noncomputable def xOf (Mstar M : ℝ) : ℝ := 10 ^ (0.4 * (Mstar - M))
noncomputable def magF (Mstar alpha phistar M : ℝ) : ℝ := front * phistar * xOf Mstar M ^ (1 + alpha) * exp (-xOf Mstar M)
noncomputable def magD (Mstar alpha phistar M : ℝ) : ℝ :=
  -front ^ 2 * phistar * exp (-xOf Mstar M) * xOf Mstar M ^ alpha * (alpha - xOf Mstar M + 1)

/-- `SchechterMagModel.integrate(lower,upper,method)`, models.py 1262-1288: the same four cases, although magnitudes run the other way. -/
noncomputable def magScaled (Mstar : ℝ) : Upper → Option ℝ
  | .num u => some (xOf Mstar u)
  | .inf => none
noncomputable def magInt (Mstar alpha phistar lower : ℝ) (upper : Upper) (method : Bool) : ℝ :=
  if alpha ≤ -1 ∨ method = true then numeric (magF Mstar alpha phistar) lower upper
  else -phistar * gammaPart (alpha + 1) (xOf Mstar lower) lower (magScaled Mstar upper)

/-! ## Incomplete gamma -/

theorem gamma_intervalIntegrable (s : ℝ) (hs : 0 < s) (a b : ℝ) (ha : 0 ≤ a) (hb : 0 ≤ b) :
    IntervalIntegrable (fun t => exp (-t) * t ^ (s - 1)) volume a b := by
  have key : ∀ x : ℝ, 0 ≤ x → IntervalIntegrable (fun t => exp (-t) * t ^ (s - 1)) volume 0 x := by
    intro x hx
    rw [intervalIntegrable_iff_integrableOn_Ioc_of_le hx]
    exact (GammaIntegral_convergent hs).mono_set Set.Ioc_subset_Ioi_self
  exact (key a ha).symm.trans (key b hb)

theorem lowerGamma_sub (s : ℝ) (hs : 0 < s) (a b : ℝ) (ha : 0 ≤ a) (hb : 0 ≤ b) :
    ∫ t in a..b, exp (-t) * t ^ (s - 1) = lowerGamma s b - lowerGamma s a := by
  unfold lowerGamma
  rw [intervalIntegral.integral_interval_sub_left (gamma_intervalIntegrable s hs 0 b le_rfl hb) (gamma_intervalIntegrable s hs 0 a le_rfl ha)]

theorem lowerGamma_zero (s : ℝ) : lowerGamma s 0 = 0 := by simp [lowerGamma]

theorem lowerGamma_deriv (s x : ℝ) (hs : 0 < s) (hx : 0 < x) : HasDerivAt (lowerGamma s) (exp (-x) * x ^ (s - 1)) x := by
  unfold lowerGamma
  apply intervalIntegral.integral_hasDerivAt_right (gamma_intervalIntegrable s hs 0 x le_rfl hx.le)
  · refine ContinuousAt.stronglyMeasurableAtFilter isOpen_Ioi (s := Set.Ioi 0) (fun y hy => ?_) x hx
    have : y ≠ 0 := ne_of_gt hy
    exact (by fun_prop : ContinuousAt (fun t => exp (-t)) y).mul (continuousAt_rpow_const _ _ (Or.inl this))
  · exact (by fun_prop : ContinuousAt (fun t => exp (-t)) x).mul (continuousAt_rpow_const _ _ (Or.inl hx.ne'))

theorem lowerGamma_mono (s : ℝ) (hs : 0 < s) (a b : ℝ) (ha : 0 ≤ a) (hab : a < b) : lowerGamma s a < lowerGamma s b := by
  have h := lowerGamma_sub s hs a b ha (by linarith)
  have : 0 < ∫ t in a..b, exp (-t) * t ^ (s - 1) := by
    apply intervalIntegral.intervalIntegral_pos_of_pos_on (gamma_intervalIntegrable s hs a b ha (by linarith)) _ hab
    intro t ht
    have : 0 < t := lt_of_le_of_lt ha ht.1
    have := rpow_pos_of_pos this (s - 1)
    positivity
  linarith

theorem lowerGamma_continuousOn (s : ℝ) (hs : 0 < s) (b : ℝ) (hb : 0 ≤ b) : ContinuousOn (lowerGamma s) (Set.Icc 0 b) := by
  have := intervalIntegral.continuousOn_primitive_interval (a := 0) (b := b) (μ := volume) (f := fun t => exp (-t) * t ^ (s - 1)) (by
    rw [Set.uIcc_of_le hb, integrableOn_Icc_iff_integrableOn_Ioc]
    exact (GammaIntegral_convergent hs).mono_set Set.Ioc_subset_Ioi_self)
  rw [Set.uIcc_of_le hb] at this
  exact this

theorem lowerGamma_tendsto (s : ℝ) (hs : 0 < s) : Tendsto (lowerGamma s) atTop (𝓝 (Gamma s)) := by
  rw [Gamma_eq_integral hs]
  exact intervalIntegral_tendsto_integral_Ioi 0 (GammaIntegral_convergent hs) tendsto_id

theorem lowerGamma_lt (s : ℝ) (hs : 0 < s) (x : ℝ) (hx : 0 ≤ x) : lowerGamma s x < Gamma s := by
  have h1 := lowerGamma_mono s hs x (x + 1) hx (by linarith)
  refine lt_of_lt_of_le h1 (ge_of_tendsto (lowerGamma_tendsto s hs) ?_)
  filter_upwards [eventually_gt_atTop (x + 1)] with y hy
  exact (lowerGamma_mono s hs _ _ (by linarith) hy).le

theorem gammaPart_eq (s l lower : ℝ) (hs : 0 < s) :
    gammaPart s l lower none = (if lower ≤ 0 then Gamma s else Gamma s - lowerGamma s l) ∧
    ∀ u, gammaPart s l lower (some u) = if lower = 0 then lowerGamma s u else lowerGamma s u - lowerGamma s l := by
  have hg : Gamma s ≠ 0 := (Gamma_pos_of_pos hs).ne'
  constructor
  · simp only [gammaPart, gammaincc, gammainc]
    split_ifs
    · rfl
    · field_simp
  · intro u
    simp only [gammaPart, gammainc]
    split_ifs <;> field_simp

/-! ## Theorems: luminosity form -/

/-- The derivative of the luminosity form is the derivative of the model. -/
theorem lum_derivative (Ls a phi L : ℝ) (hL : 0 < L) (hs : 0 < Ls) : HasDerivAt (lumF Ls a phi) (lumD Ls a phi L) L := by
  have hx : 0 < L / Ls := div_pos hL hs
  have hq : HasDerivAt (fun r : ℝ => r / Ls) (1 / Ls) L := (hasDerivAt_id L).div_const Ls
  have h := ((((hq.rpow_const (p := a) (Or.inl hx.ne')).const_mul phi).mul (hq.neg.exp)).div_const Ls)
  refine h.congr_deriv ?_
  unfold lumD
  have e : (L / Ls) ^ a = (L / Ls) ^ (a - 1) * (L / Ls) := by rw [← rpow_add_one hx.ne']; norm_num
  have hz : Ls ^ (-2 : ℤ) = (Ls ^ 2)⁻¹ := by rw [zpow_neg]; norm_cast
  simp only [Pi.neg_apply]
  rw [e, hz]
  field_simp
  ring

theorem lum_scaled (Ls a phi l u : ℝ) (hs : 0 < Ls) :
    ∫ x in l..u, lumF Ls a phi x = phi * ∫ t in (l / Ls)..(u / Ls), exp (-t) * t ^ ((a + 1) - 1) := by
  have e : (fun x => lumF Ls a phi x) = fun x => (fun t => phi / Ls * (exp (-t) * t ^ ((a + 1) - 1))) (x / Ls) := by
    funext x
    simp only [lumF, add_sub_cancel_right]
    ring
  rw [e, intervalIntegral.integral_comp_div (fun t => phi / Ls * (exp (-t) * t ^ ((a + 1) - 1))) hs.ne', intervalIntegral.integral_const_mul, smul_eq_mul]
  field_simp

/-- The integral of the luminosity form between any two luminosities, or to infinity, is the integral of the model. -/
theorem lum_integral (Ls a phi lower : ℝ) (upper : Upper) (method : Bool) (hs : 0 < Ls) (hl : 0 ≤ lower) (hu : ∀ u, upper = .num u → 0 ≤ u) :
    lumInt Ls a phi lower upper method = numeric (lumF Ls a phi) lower upper := by
  unfold lumInt
  split_ifs with h
  · rfl
  have ha : 0 < a + 1 := by
    by_contra hc; exact h (Or.inl (by linarith))
  have hl' : 0 ≤ lower / Ls := by positivity
  have hfin : ∀ u, 0 ≤ u → ∫ x in lower..u, lumF Ls a phi x = phi * (lowerGamma (a + 1) (u / Ls) - lowerGamma (a + 1) (lower / Ls)) := by
    intro u hu
    rw [lum_scaled Ls a phi lower u hs, lowerGamma_sub _ ha _ _ hl' (by positivity)]
  cases upper with
  | num u =>
    simp only [lumScaled, numeric]
    rw [(gammaPart_eq _ _ _ ha).2, hfin u (hu u rfl)]
    split_ifs with h0
    · rw [h0]; simp [lowerGamma_zero]
    · rfl
  | inf =>
    simp only [lumScaled, numeric]
    rw [(gammaPart_eq _ _ _ ha).1]
    have e : (fun x => lumF Ls a phi x) = fun x => (fun t => phi / Ls * (exp (-t) * t ^ ((a + 1) - 1))) (Ls⁻¹ * x) := by
      funext x
      simp only [lumF, add_sub_cancel_right]
      rw [show Ls⁻¹ * x = x / Ls by field_simp]
      ring
    have hval : ∫ x in Set.Ioi lower, lumF Ls a phi x = phi * (Gamma (a + 1) - lowerGamma (a + 1) (lower / Ls)) := by
      rw [e, integral_comp_mul_left_Ioi (fun t => phi / Ls * (exp (-t) * t ^ ((a + 1) - 1))) _ (inv_pos.2 hs), inv_inv, smul_eq_mul, integral_const_mul]
      have hsplit := intervalIntegral.integral_Ioi_sub_Ioi (f := fun t => exp (-t) * t ^ ((a + 1) - 1)) (GammaIntegral_convergent ha) hl'
      rw [show Ls⁻¹ * lower = lower / Ls by field_simp, Gamma_eq_integral ha]
      unfold lowerGamma
      rw [← hsplit]
      field_simp
      ring
    rw [hval]
    split_ifs with h0
    · have : lower = 0 := le_antisymm h0 hl
      rw [this]; simp [lowerGamma_zero]
    · rfl

/-! ## Theorems: magnitude form -/

theorem front_pos : 0 < front := by
  unfold front
  have := log_pos (show (1 : ℝ) < 10 by norm_num)
  positivity

theorem xOf_pos (Ms M : ℝ) : 0 < xOf Ms M := rpow_pos_of_pos (by norm_num) _

theorem xOf_deriv (Ms M : ℝ) : HasDerivAt (xOf Ms) (-front * xOf Ms M) M := by
  have h : HasDerivAt (fun M : ℝ => 0.4 * (Ms - M)) (0.4 * (-1)) M := ((hasDerivAt_id M).const_sub Ms).const_mul 0.4
  have h2 := h.const_rpow (a := (10 : ℝ)) (by norm_num)
  refine h2.congr_deriv ?_
  unfold front xOf
  ring

/-- The two forms describe the same galaxies: the number per magnitude is the number per luminosity times |dL/dM|, for L = Lstar 10^(0.4(Mstar-M)). -/
theorem mag_lum (Ls Ms a phi M : ℝ) (hs : 0 < Ls) :
    magF Ms a phi M = lumF Ls a phi (Ls * xOf Ms M) * (front * (Ls * xOf Ms M)) ∧
    HasDerivAt (fun M => Ls * xOf Ms M) (-(front * (Ls * xOf Ms M))) M := by
  have hx := xOf_pos Ms M
  constructor
  · unfold magF lumF
    rw [show Ls * xOf Ms M / Ls = xOf Ms M by field_simp, rpow_add hx, rpow_one]
    field_simp
  · refine ((xOf_deriv Ms M).const_mul Ls).congr_deriv ?_
    ring

/-- The derivative of the model in magnitudes. -/
theorem mag_true_derivative (Ms a phi M : ℝ) : HasDerivAt (magF Ms a phi) (xOf Ms M * magD Ms a phi M) M := by
  have hx := xOf_pos Ms M
  have h := (((xOf_deriv Ms M).rpow_const (p := 1 + a) (Or.inl hx.ne')).const_mul (front * phi)).mul ((xOf_deriv Ms M).neg.exp)
  refine h.congr_deriv ?_
  unfold magD
  simp only [Pi.neg_apply]
  rw [rpow_add hx, rpow_one, show 1 + a - 1 = a by ring]
  ring

/-- The `derivative` method lacks a factor: it is the derivative exactly where M = Mstar or at the maximum of the function. -/
theorem mag_derivative_counterexample (Ms a phi M : ℝ) (hphi : phi ≠ 0) :
    HasDerivAt (magF Ms a phi) (magD Ms a phi M) M ↔ M = Ms ∨ xOf Ms M = a + 1 := by
  have hx := xOf_pos Ms M
  have hf := front_pos
  have ht := mag_true_derivative Ms a phi M
  have hone : xOf Ms M = 1 ↔ M = Ms := by
    unfold xOf
    constructor
    · intro h
      have h2 := congrArg log h
      rw [log_rpow (by norm_num), log_one] at h2
      have h3 := log_pos (show (1 : ℝ) < 10 by norm_num)
      have := (mul_eq_zero.1 h2).resolve_right h3.ne'
      norm_num at this
      linarith
    · intro h; rw [h]; norm_num
  constructor
  · intro h
    have e := h.unique ht
    have e2 : (xOf Ms M - 1) * magD Ms a phi M = 0 := by linarith
    rcases mul_eq_zero.1 e2 with h1 | h1
    · left; exact hone.1 (by linarith)
    · right
      unfold magD at h1
      have hp := (rpow_pos_of_pos hx a).ne'
      have he := (exp_pos (-xOf Ms M)).ne'
      have : -front ^ 2 * phi * exp (-xOf Ms M) * xOf Ms M ^ a ≠ 0 :=
        mul_ne_zero (mul_ne_zero (mul_ne_zero (neg_ne_zero.2 (pow_ne_zero 2 hf.ne')) hphi) he) hp
      have := (mul_eq_zero.1 h1).resolve_left this
      linarith
  · rintro (h | h)
    · have : xOf Ms M = 1 := hone.2 h
      rw [this, one_mul] at ht
      exact ht
    · have e : magD Ms a phi M = 0 := by unfold magD; rw [h]; ring
      rw [e, mul_zero] at ht
      rw [e]; exact ht

theorem mag_antideriv (Ms a phi M : ℝ) (ha : 0 < a + 1) : HasDerivAt (fun M => -phi * lowerGamma (a + 1) (xOf Ms M)) (magF Ms a phi M) M := by
  have hx := xOf_pos Ms M
  refine (((lowerGamma_deriv (a + 1) _ ha hx).comp M (xOf_deriv Ms M)).const_mul (-phi)).congr_deriv ?_
  unfold magF
  rw [rpow_add hx, rpow_one, add_sub_cancel_right]
  ring

/-- The integral of the model between two magnitudes. -/
theorem mag_finite (Ms a phi l u : ℝ) (ha : 0 < a + 1) :
    ∫ M in l..u, magF Ms a phi M = phi * (lowerGamma (a + 1) (xOf Ms l) - lowerGamma (a + 1) (xOf Ms u)) := by
  have hc : Continuous (magF Ms a phi) := continuous_iff_continuousAt.2 fun M => (mag_true_derivative Ms a phi M).continuousAt
  rw [intervalIntegral.integral_eq_sub_of_hasDerivAt (fun M _ => mag_antideriv Ms a phi M ha) (hc.intervalIntegrable _ _)]
  ring

/-- `integrate` between two numbers is the integral of the model, except when the lower limit is exactly 0 (and alpha > -1). -/
theorem mag_integral (Ms a phi l u : ℝ) (method : Bool) (hl : l ≠ 0) :
    magInt Ms a phi l (.num u) method = numeric (magF Ms a phi) l (.num u) := by
  unfold magInt
  split_ifs with h
  · rfl
  have ha : 0 < a + 1 := by
    by_contra hc; exact h (Or.inl (by linarith))
  simp only [magScaled, numeric]
  rw [(gammaPart_eq _ _ _ ha).2, if_neg hl, mag_finite Ms a phi l u ha]
  ring

/-- From magnitude 0 the result is too small, by phistar times the incomplete gamma function of the luminosity of magnitude 0, and negative. -/
theorem mag_zero_counterexample (Ms a phi u : ℝ) (ha : -1 < a) (hphi : 0 < phi) :
    magInt Ms a phi 0 (.num u) false = numeric (magF Ms a phi) 0 (.num u) - phi * lowerGamma (a + 1) (xOf Ms 0) ∧
    magInt Ms a phi 0 (.num u) false < 0 ∧ (0 < u → 0 < numeric (magF Ms a phi) 0 (.num u)) := by
  have ha' : 0 < a + 1 := by linarith
  have hm : ∀ M, 0 < lowerGamma (a + 1) (xOf Ms M) := fun M => by
    have := lowerGamma_mono (a + 1) ha' 0 _ le_rfl (xOf_pos Ms M); rwa [lowerGamma_zero] at this
  have e : magInt Ms a phi 0 (.num u) false = -phi * lowerGamma (a + 1) (xOf Ms u) := by
    unfold magInt
    rw [if_neg (by simp; linarith)]
    simp only [magScaled]
    rw [(gammaPart_eq _ _ _ ha').2, if_pos rfl]
  refine ⟨?_, ?_, fun hu => ?_⟩
  · rw [e]; simp only [numeric]; rw [mag_finite Ms a phi 0 u ha']; ring
  · rw [e]; have := hm u; nlinarith
  · simp only [numeric]
    rw [mag_finite Ms a phi 0 u ha']
    have hlt : xOf Ms u < xOf Ms 0 := by
      unfold xOf
      exact rpow_lt_rpow_of_exponent_lt (by norm_num) (by norm_num; exact hu)
    have := lowerGamma_mono (a + 1) ha' _ _ (xOf_pos Ms u).le hlt
    have : 0 < lowerGamma (a + 1) (xOf Ms 0) - lowerGamma (a + 1) (xOf Ms u) := by linarith
    positivity

theorem xOf_tendsto (Ms : ℝ) : Tendsto (xOf Ms) atTop (𝓝 0) := by
  have e : xOf Ms = fun M => (10 : ℝ) ^ (0.4 * Ms) * exp (-(front * M)) := by
    funext M
    unfold xOf front
    rw [mul_sub, sub_eq_add_neg, rpow_add (by norm_num), rpow_def_of_pos (by norm_num : (0 : ℝ) < 10) (-(0.4 * M))]
    congr 2; ring
  rw [e]
  have h : Tendsto (fun M => front * M) atTop atTop := tendsto_id.const_mul_atTop front_pos
  have := (tendsto_exp_neg_atTop_nhds_zero.comp h).const_mul ((10 : ℝ) ^ (0.4 * Ms))
  simpa using this

/-- The integral of the model from a magnitude to infinity (all fainter galaxies). -/
theorem mag_infinite (Ms a phi l : ℝ) (ha : 0 < a + 1) (hphi : 0 ≤ phi) : numeric (magF Ms a phi) l .inf = phi * lowerGamma (a + 1) (xOf Ms l) := by
  have hcont : Tendsto (lowerGamma (a + 1)) (𝓝[>] 0) (𝓝 0) := by
    have h := (lowerGamma_continuousOn (a + 1) ha 1 zero_le_one) 0 ⟨le_rfl, zero_le_one⟩
    have h2 : Tendsto (lowerGamma (a + 1)) (𝓝[Set.Icc 0 1] 0) (𝓝 0) := by
      have := h.tendsto; rwa [lowerGamma_zero] at this
    refine h2.mono_left ?_
    rw [nhdsWithin_le_iff]
    have : Set.Iio (1 : ℝ) ∈ 𝓝[>] (0 : ℝ) := mem_nhdsWithin_of_mem_nhds (Iio_mem_nhds zero_lt_one)
    filter_upwards [self_mem_nhdsWithin, this] with x hx hx1
    exact ⟨le_of_lt hx, le_of_lt hx1⟩
  have hx : Tendsto (xOf Ms) atTop (𝓝[>] 0) := by
    rw [tendsto_nhdsWithin_iff]
    exact ⟨xOf_tendsto Ms, Eventually.of_forall fun M => xOf_pos Ms M⟩
  have hlim : Tendsto (fun M => -phi * lowerGamma (a + 1) (xOf Ms M)) atTop (𝓝 (-phi * 0)) := (hcont.comp hx).const_mul (-phi)
  have := integral_Ioi_of_hasDerivAt_of_nonneg' (a := l) (fun M _ => mag_antideriv Ms a phi M ha) (fun M _ => by
    unfold magF
    have := front_pos
    have := rpow_pos_of_pos (xOf_pos Ms M) (1 + a)
    positivity) hlim
  simp only [numeric]
  rw [this]; ring

/-- To infinity the method answers a negative number, the integral of the model being positive (for alpha > -1), whatever the lower limit. -/
theorem mag_inf_counterexample (Ms a phi l : ℝ) (ha : -1 < a) (hphi : 0 < phi) :
    magInt Ms a phi l .inf false < 0 ∧ 0 < numeric (magF Ms a phi) l .inf ∧
    (l ≤ 0 → magInt Ms a phi l .inf false = -phi * Gamma (a + 1)) ∧
    (0 < l → magInt Ms a phi l .inf false = numeric (magF Ms a phi) l .inf - phi * Gamma (a + 1)) := by
  have ha' : 0 < a + 1 := by linarith
  have hx := xOf_pos Ms l
  have hlt := lowerGamma_lt (a + 1) ha' _ hx.le
  have hg := Gamma_pos_of_pos ha'
  have hpos : 0 < lowerGamma (a + 1) (xOf Ms l) := by
    have := lowerGamma_mono (a + 1) ha' 0 _ le_rfl hx; rwa [lowerGamma_zero] at this
  have e : magInt Ms a phi l .inf false = -phi * (if l ≤ 0 then Gamma (a + 1) else Gamma (a + 1) - lowerGamma (a + 1) (xOf Ms l)) := by
    unfold magInt
    rw [if_neg (by simp; linarith)]
    simp only [magScaled]
    rw [(gammaPart_eq _ _ _ ha').1]
  refine ⟨?_, ?_, fun h => ?_, fun h => ?_⟩
  · rw [e]; split_ifs <;> nlinarith
  · rw [mag_infinite Ms a phi l ha' hphi.le]; positivity
  · rw [e, if_pos h]
  · rw [e, if_neg (not_le.2 h), mag_infinite Ms a phi l ha' hphi.le]; ring

/-- Example: a luminosity function with alpha = -1/2, from half to three L*. -/
example : lumInt 2 (-1 / 2) 1 1 (.num 6) false = ∫ x in (1 : ℝ)..6, lumF 2 (-1 / 2) 1 x :=
  lum_integral 2 (-1 / 2) 1 1 (.num 6) false (by norm_num) (by norm_num) (fun u h => by cases h; norm_num)

end Verif.Schechter
