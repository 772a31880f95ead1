import Verif.Profiles
import Mathlib.Analysis.SpecialFunctions.Arcosh
import Mathlib.Analysis.SpecialFunctions.Trigonometric.InverseDeriv

/-!
# The projected NFW profile (astropysics/models.py 1098-1140) (C113)
-/

namespace Verif.NfwProjected

open Real Filter Topology MeasureTheory Verif.Profiles

/-! ## Model -/

/-- `Cinv`: arccos of 1/x, or arccosh where that is not a number, models.py 1104-1106, 1127-1130. -/
noncomputable def cinv (x : ℝ) : ℝ := if x < 1 then arcosh (1 / x) else arccos (1 / x)

/-- `NFWProjectedModel.f(R,rc,sig0)`, models.py 1100-1111. -/
noncomputable def proj (rc sig0 R : ℝ) : ℝ :=
  let x := R / rc
  let xsqm1 := x * x - 1
  let xterm := if x = 1 then 1 / 3 else (1 - |xsqm1| ^ (-0.5 : ℝ) * cinv x) / xsqm1
  sig0 * xterm / (2 * π * rc ^ 2)

/-- `integrateCircular(lower,upper,method)`, models.py 1114-1136. -/
noncomputable def circular (numeric : (ℝ → ℝ) → ℝ → ℝ → ℝ) (rc sig0 lower upper : ℝ) (method : Bool) : ℝ :=
  if method = true ∨ lower ≠ 0 then numeric (proj rc sig0) lower upper
  else
    let x := upper / rc
    let xterm := if x = 1 then 1 - log 2 else cinv x * |x * x - 1| ^ (-0.5 : ℝ) + log (x / 2)
    sig0 * xterm

/-! ## Theorems -/

/-- The dimensionless light. -/
noncomputable def gg (x : ℝ) : ℝ := cinv x * |x * x - 1| ^ (-0.5 : ℝ) + log (x / 2)

theorem half_sqrt (y : ℝ) (hy : 0 < y) : y ^ (-0.5 : ℝ) = 1 / √y := by
  rw [show (-0.5 : ℝ) = -(1 / 2) by norm_num, rpow_neg hy.le, ← sqrt_eq_rpow, one_div]

theorem gg_deriv (x : ℝ) (hx : 0 < x) (h1 : x ≠ 1) : HasDerivAt gg (x * ((1 - |x * x - 1| ^ (-0.5 : ℝ) * cinv x) / (x * x - 1))) x := by
  have hlog : HasDerivAt (fun x : ℝ => log (x / 2)) (1 / 2 / (x / 2)) x := ((hasDerivAt_id x).div_const 2).log (by positivity)
  have hinv : HasDerivAt (fun x : ℝ => 1 / x) (-(x ^ 2)⁻¹) x := by
    have := hasDerivAt_inv hx.ne'
    simpa [one_div] using this
  rcases lt_or_gt_of_ne h1 with hlt | hgt
  · have hp : 0 < 1 - x * x := by nlinarith
    have hs := sqrt_pos.2 hp
    have hs2 := sq_sqrt hp.le
    have h1x : 1 < 1 / x := by rw [lt_div_iff₀ hx]; linarith
    have hac : HasDerivAt (fun x : ℝ => arcosh (1 / x)) _ x := (hasDerivAt_arcosh h1x).comp x hinv
    have hsq : HasDerivAt (fun x : ℝ => √(1 - x * x)) ((-(1 * x + x * 1)) / (2 * √(1 - x * x))) x :=
      (((hasDerivAt_id x).mul (hasDerivAt_id x)).const_sub 1).sqrt hp.ne'
    have hd := (hac.div hsq hs.ne').add hlog
    have heq : gg =ᶠ[𝓝 x] fun x => arcosh (1 / x) / √(1 - x * x) + log (x / 2) := by
      filter_upwards [Ioo_mem_nhds hx hlt] with y hy
      have hy1 : 0 < 1 - y * y := by nlinarith [hy.1, hy.2]
      unfold gg cinv
      rw [if_pos hy.2, abs_of_neg (by linarith), neg_sub, half_sqrt _ hy1]
      ring
    refine (hd.congr_of_eventuallyEq heq).congr_deriv ?_
    unfold cinv
    rw [if_pos hlt, abs_of_neg (by linarith), neg_sub, half_sqrt _ hp]
    have e1 : √((1 / x) ^ 2 - 1) = √(1 - x * x) / x := by
      rw [show (1 / x) ^ 2 - 1 = (1 - x * x) / x ^ 2 by field_simp, sqrt_div hp.le, sqrt_sq hx.le]
    rw [e1]
    have e3 : x * x - 1 = -(√(1 - x * x) ^ 2) := by rw [hs2]; ring
    rw [e3]
    have e4 : (√(1 - x * x)) ^ 2 + x ^ 2 = 1 := by rw [hs2]; ring
    generalize √(1 - x * x) = s at *
    field_simp
    linear_combination (2 * s) * e4
  · have hp : 0 < x * x - 1 := by nlinarith
    have hs := sqrt_pos.2 hp
    have hs2 := sq_sqrt hp.le
    have h1x : 1 / x < 1 := by rw [div_lt_iff₀ hx]; linarith
    have h0x : 0 < 1 / x := by positivity
    have hac : HasDerivAt (fun x : ℝ => arccos (1 / x)) _ x := (hasDerivAt_arccos (by linarith) h1x.ne).comp x hinv
    have hsq : HasDerivAt (fun x : ℝ => √(x * x - 1)) ((1 * x + x * 1) / (2 * √(x * x - 1))) x :=
      (((hasDerivAt_id x).mul (hasDerivAt_id x)).sub_const 1).sqrt hp.ne'
    have hd := (hac.div hsq hs.ne').add hlog
    have heq : gg =ᶠ[𝓝 x] fun x => arccos (1 / x) / √(x * x - 1) + log (x / 2) := by
      filter_upwards [Ioi_mem_nhds hgt] with y hy
      have hy' : 1 < y := hy
      have hy1 : 0 < y * y - 1 := by nlinarith
      unfold gg cinv
      rw [if_neg (not_lt.2 hy'.le), abs_of_pos hy1, half_sqrt _ hy1]
      ring
    refine (hd.congr_of_eventuallyEq heq).congr_deriv ?_
    unfold cinv
    rw [if_neg (not_lt.2 hgt.le), abs_of_pos hp, half_sqrt _ hp]
    have e1 : √(1 - (1 / x) ^ 2) = √(x * x - 1) / x := by
      rw [show 1 - (1 / x) ^ 2 = (x * x - 1) / x ^ 2 by field_simp, sqrt_div hp.le, sqrt_sq hx.le]
    rw [e1]
    have e3 : x * x - 1 = √(x * x - 1) ^ 2 := hs2.symm
    have e4 : (√(x * x - 1)) ^ 2 = x ^ 2 - 1 := by rw [hs2]; ring
    rw [show ∀ a : ℝ, a / (x * x - 1) = a / (√(x * x - 1) ^ 2) from fun a => by rw [hs2]]
    generalize √(x * x - 1) = s at *
    field_simp
    linear_combination (2 * s) * e4

theorem proj_cont (rc sig0 R : ℝ) (hrc : 0 < rc) (hR : 0 < R) (hne : R ≠ rc) : ContinuousAt (proj rc sig0) R := by
  have hx : 0 < R / rc := by positivity
  have h1 : R / rc ≠ 1 := by rw [Ne, div_eq_one_iff_eq hrc.ne']; exact hne
  have hq : ContinuousAt (fun R : ℝ => R / rc) R := by fun_prop
  have hcinv : ContinuousAt cinv (R / rc) := by
    have hi : ContinuousAt (fun x : ℝ => 1 / x) (R / rc) := continuousAt_const.div continuousAt_id hx.ne'
    rcases lt_or_gt_of_ne h1 with hlt | hgt
    · have : cinv =ᶠ[𝓝 (R / rc)] fun x => arcosh (1 / x) := by
        filter_upwards [Iio_mem_nhds hlt] with y hy
        unfold cinv; rw [if_pos (Set.mem_Iio.1 hy)]
      refine ContinuousAt.congr ?_ this.symm
      exact (hasDerivAt_arcosh (Set.mem_Ioi.2 (by rw [lt_div_iff₀ hx]; linarith))).continuousAt.comp' hi
    · have : cinv =ᶠ[𝓝 (R / rc)] fun x => arccos (1 / x) := by
        filter_upwards [Ioi_mem_nhds hgt] with y hy
        unfold cinv; rw [if_neg (not_lt.2 (le_of_lt hy))]
      refine ContinuousAt.congr ?_ this.symm
      exact continuous_arccos.continuousAt.comp' hi
  have hne2 : R / rc * (R / rc) - 1 ≠ 0 := by
    intro h; apply h1; nlinarith
  have heq : proj rc sig0 =ᶠ[𝓝 R] fun R => sig0 * ((1 - |R / rc * (R / rc) - 1| ^ (-0.5 : ℝ) * cinv (R / rc)) / (R / rc * (R / rc) - 1)) / (2 * π * rc ^ 2) := by
    have : ∀ᶠ y in 𝓝 R, y ≠ rc := isOpen_ne.mem_nhds hne
    filter_upwards [this] with y hy
    unfold proj
    have : y / rc ≠ 1 := by rw [Ne, div_eq_one_iff_eq hrc.ne']; exact hy
    simp only [if_neg this]
  refine ContinuousAt.congr ?_ heq.symm
  apply ContinuousAt.div_const
  apply ContinuousAt.mul continuousAt_const
  refine ContinuousAt.div (f := fun R : ℝ => 1 - |R / rc * (R / rc) - 1| ^ (-0.5 : ℝ) * cinv (R / rc)) (g := fun R : ℝ => R / rc * (R / rc) - 1) ?_ (by fun_prop) hne2
  apply ContinuousAt.sub continuousAt_const
  apply ContinuousAt.mul
  · apply ContinuousAt.rpow_const (by fun_prop)
    left; exact abs_ne_zero.2 hne2
  · exact ContinuousAt.comp' (f := fun R : ℝ => R / rc) hcinv hq

theorem sinh_le_mul_cosh (t : ℝ) (ht : 0 ≤ t) : sinh t ≤ t * cosh t := by
  rcases ht.eq_or_lt with h | h
  · rw [← h]; simp
  · obtain ⟨c, hc, e⟩ := exists_hasDerivAt_eq_slope sinh cosh h continuous_sinh.continuousOn fun x _ => hasDerivAt_sinh x
    rw [sinh_zero, sub_zero, sub_zero, eq_div_iff h.ne'] at e
    have : cosh c ≤ cosh t := cosh_le_cosh.2 (by rw [abs_of_pos hc.1, abs_of_pos h]; exact hc.2.le)
    nlinarith

/-- The ratio of the angle to the root lies between 1 and 1/x. -/
theorem ratio_bounds (x : ℝ) (hx : 0 < x) (h1 : x ≠ 1) :
    (x < 1 → 1 ≤ cinv x * |x * x - 1| ^ (-0.5 : ℝ) ∧ cinv x * |x * x - 1| ^ (-0.5 : ℝ) ≤ 1 / x) ∧
    (1 < x → 1 / x ≤ cinv x * |x * x - 1| ^ (-0.5 : ℝ) ∧ cinv x * |x * x - 1| ^ (-0.5 : ℝ) ≤ 1) := by
  constructor
  · intro hlt
    have hp : 0 < 1 - x * x := by nlinarith
    have h1x : 1 < 1 / x := by rw [lt_div_iff₀ hx]; linarith
    rw [abs_of_neg (by linarith), neg_sub, half_sqrt _ hp]
    unfold cinv
    rw [if_pos hlt]
    have ht : 0 ≤ arcosh (1 / x) := arcosh_nonneg h1x.le
    have hc : cosh (arcosh (1 / x)) = 1 / x := cosh_arcosh h1x.le
    have hsh : sinh (arcosh (1 / x)) = √(1 - x * x) / x := by
      rw [sinh_arcosh h1x.le, show (1 / x) ^ 2 - 1 = (1 - x * x) / x ^ 2 by field_simp, sqrt_div hp.le, sqrt_sq hx.le]
    have hs := sqrt_pos.2 hp
    have hle : arcosh (1 / x) ≤ sinh (arcosh (1 / x)) := self_le_sinh_iff.2 ht
    have hge : sinh (arcosh (1 / x)) ≤ arcosh (1 / x) * cosh (arcosh (1 / x)) := sinh_le_mul_cosh _ ht
    rw [hc, hsh] at hge
    rw [hsh] at hle
    generalize arcosh (1 / x) = t at *
    generalize √(1 - x * x) = s at *
    constructor
    · rw [mul_one_div, le_div_iff₀ hs, one_mul]
      rw [mul_one_div] at hge
      exact (div_le_div_iff_of_pos_right hx).1 hge
    · rw [mul_one_div, div_le_iff₀ hs]
      calc t ≤ s / x := hle
        _ = 1 / x * s := by ring
  · intro hgt
    have hp : 0 < x * x - 1 := by nlinarith
    have h1x : 1 / x < 1 := by rw [div_lt_iff₀ hx]; linarith
    have h0x : 0 < 1 / x := by positivity
    rw [abs_of_pos hp, half_sqrt _ hp]
    unfold cinv
    rw [if_neg (not_lt.2 hgt.le)]
    have ht : 0 < arccos (1 / x) := arccos_pos.2 h1x
    have ht2 : arccos (1 / x) < π / 2 := arccos_lt_pi_div_two.2 h0x
    have hsin : sin (arccos (1 / x)) = √(x * x - 1) / x := by
      rw [sin_arccos, show 1 - (1 / x) ^ 2 = (x * x - 1) / x ^ 2 by field_simp, sqrt_div hp.le, sqrt_sq hx.le]
    have hcos : cos (arccos (1 / x)) = 1 / x := cos_arccos (by linarith) h1x.le
    have hs := sqrt_pos.2 hp
    have hle : sin (arccos (1 / x)) ≤ arccos (1 / x) := (sin_lt ht).le
    have hge : arccos (1 / x) ≤ tan (arccos (1 / x)) := (lt_tan ht ht2).le
    rw [tan_eq_sin_div_cos, hsin, hcos] at hge
    rw [hsin] at hle
    generalize arccos (1 / x) = t at *
    generalize √(x * x - 1) = s at *
    constructor
    · rw [mul_one_div, le_div_iff₀ hs]
      calc 1 / x * s = s / x := by ring
        _ ≤ t := hle
    · rw [mul_one_div, div_le_iff₀ hs, one_mul]
      rwa [div_div_div_cancel_right₀ hx.ne', div_one] at hge

/-- The light inside a radius, as a function of the radius in units of the scale radius. -/
noncomputable def light (x : ℝ) : ℝ := if x = 0 then 0 else if x = 1 then 1 - log 2 else gg x

theorem light_cont_one : ContinuousAt light 1 := by
  have hl : light =ᶠ[𝓝 1] fun x => (if x = 1 then 1 else cinv x * |x * x - 1| ^ (-0.5 : ℝ)) + log (x / 2) := by
    filter_upwards [Ioi_mem_nhds (zero_lt_one : (0 : ℝ) < 1)] with y hy
    have : y ≠ 0 := (Set.mem_Ioi.1 hy).ne'
    unfold light gg
    rw [if_neg this]
    by_cases h : y = 1
    · subst h; rw [if_pos rfl, if_pos rfl, log_div one_ne_zero two_ne_zero, log_one]; ring
    · rw [if_neg h, if_neg h]
  refine ContinuousAt.congr ?_ hl.symm
  apply ContinuousAt.add
  · show Tendsto (fun x : ℝ => if x = 1 then (1 : ℝ) else cinv x * |x * x - 1| ^ (-0.5 : ℝ)) (𝓝 1) (𝓝 (if (1 : ℝ) = 1 then (1 : ℝ) else _))
    rw [if_pos rfl]
    have hinv : Tendsto (fun x : ℝ => 1 / x) (𝓝 1) (𝓝 1) := by
      have : ContinuousAt (fun x : ℝ => 1 / x) 1 := continuousAt_const.div continuousAt_id one_ne_zero
      simpa [ContinuousAt] using this
    have hmin : Tendsto (fun x : ℝ => min 1 (1 / x)) (𝓝 1) (𝓝 1) := by simpa using (tendsto_const_nhds (x := (1 : ℝ))).min hinv
    have hmax : Tendsto (fun x : ℝ => max 1 (1 / x)) (𝓝 1) (𝓝 1) := by simpa using (tendsto_const_nhds (x := (1 : ℝ))).max hinv
    refine tendsto_of_tendsto_of_tendsto_of_le_of_le' hmin hmax ?_ ?_
    all_goals
      filter_upwards [Ioi_mem_nhds (zero_lt_one : (0 : ℝ) < 1)] with y hy
      have hy0 : 0 < y := hy
      by_cases h : y = 1
      · simp [h]
      · rw [if_neg h]
        obtain ⟨hA, hB⟩ := ratio_bounds y hy0 h
        rcases lt_or_gt_of_ne h with hlt | hgt
        · first
            | exact (min_le_left _ _).trans (hA hlt).1
            | exact (hA hlt).2.trans (le_max_right _ _)
        · first
            | exact (min_le_right _ _).trans (hB hgt).1
            | exact (hB hgt).2.trans (le_max_left _ _)
  · exact (continuousAt_id.div_const 2).log (by norm_num)

theorem gg_inside (x : ℝ) (hx : 0 < x) (hlt : x < 1) :
    gg x = log (1 + √(1 - x * x)) / √(1 - x * x) - log 2 - (x * log x) * (x / (√(1 - x * x) * (1 + √(1 - x * x)))) := by
  have hp : 0 < 1 - x * x := by nlinarith
  have hs := sqrt_pos.2 hp
  have hs2 := sq_sqrt hp.le
  have harc : arcosh (1 / x) = log (1 + √(1 - x * x)) - log x := by
    unfold arcosh
    rw [show (1 / x) ^ 2 - 1 = (1 - x * x) / x ^ 2 by field_simp, sqrt_div hp.le, sqrt_sq hx.le, ← add_div, log_div (by positivity) hx.ne']
  unfold gg cinv
  rw [if_pos hlt, abs_of_neg (by linarith), neg_sub, half_sqrt _ hp, harc, log_div hx.ne' two_ne_zero]
  have hx2 : x * x = 1 - √(1 - x * x) ^ 2 := by rw [hs2]; ring
  generalize √(1 - x * x) = s at *
  have h1s : 1 + s ≠ 0 := by positivity
  generalize log (1 + s) = A
  generalize log x = B
  field_simp
  linear_combination B * hx2

theorem light_cont_zero : ContinuousWithinAt light (Set.Ici 0) 0 := by
  rw [← continuousWithinAt_Ioi_iff_Ici]
  have h0 : light 0 = 0 := by simp [light]
  show Tendsto _ _ _
  rw [h0]
  have heq : light =ᶠ[𝓝[>] 0] fun x => log (1 + √(1 - x * x)) / √(1 - x * x) - log 2 - (x * log x) * (x / (√(1 - x * x) * (1 + √(1 - x * x)))) := by
    have : Set.Ioo (0 : ℝ) 1 ∈ 𝓝[>] (0 : ℝ) := Ioo_mem_nhdsGT one_pos
    filter_upwards [this] with y hy
    unfold light
    rw [if_neg hy.1.ne', if_neg hy.2.ne, gg_inside y hy.1 hy.2]
  refine Tendsto.congr' heq.symm ?_
  have hroot : Tendsto (fun x : ℝ => √(1 - x * x)) (𝓝 0) (𝓝 1) := by
    have : Continuous (fun x : ℝ => √(1 - x * x)) := by fun_prop
    simpa using this.tendsto 0
  have hlog : Tendsto (fun x : ℝ => log (1 + √(1 - x * x)) / √(1 - x * x)) (𝓝 0) (𝓝 (log 2)) := by
    have h2 : Tendsto (fun x : ℝ => 1 + √(1 - x * x)) (𝓝 0) (𝓝 2) := by
      have := (tendsto_const_nhds (x := (1 : ℝ))).add hroot
      rwa [one_add_one_eq_two] at this
    have h3 := ((continuousAt_log two_ne_zero).tendsto.comp h2).div hroot one_ne_zero
    rw [div_one] at h3
    exact h3
  have hlast : Tendsto (fun x : ℝ => x / (√(1 - x * x) * (1 + √(1 - x * x)))) (𝓝 0) (𝓝 0) := by
    have := (tendsto_id (x := 𝓝 (0 : ℝ))).div (hroot.mul ((tendsto_const_nhds (x := (1 : ℝ))).add hroot)) (by norm_num)
    rw [zero_div] at this
    exact this
  have hxl : Tendsto (fun x : ℝ => x * log x) (𝓝 0) (𝓝 0) := by
    have := continuous_mul_log.tendsto 0
    simpa using this
  have := ((hlog.sub_const (log 2)).sub (hxl.mul hlast))
  simp only [sub_self, mul_zero] at this
  exact tendsto_nhdsWithin_of_tendsto_nhds this

theorem light_deriv (x : ℝ) (hx : 0 < x) (h1 : x ≠ 1) : HasDerivAt light (x * ((1 - |x * x - 1| ^ (-0.5 : ℝ) * cinv x) / (x * x - 1))) x := by
  refine (gg_deriv x hx h1).congr_of_eventuallyEq ?_
  filter_upwards [isOpen_ne.mem_nhds h1, isOpen_ne.mem_nhds hx.ne'] with y hy hy0
  unfold light
  rw [if_neg hy0, if_neg hy]

theorem light_contOn : ContinuousOn light (Set.Ici 0) := by
  intro x hx
  have hx' : 0 ≤ x := hx
  rcases hx'.eq_or_lt with h | h
  · rw [← h]; exact light_cont_zero
  · by_cases h1 : x = 1
    · rw [h1]; exact light_cont_one.continuousWithinAt
    · exact (light_deriv x h h1).continuousAt.continuousWithinAt

/-- The surface density is nowhere negative. -/
theorem slope_nonneg (x : ℝ) (hx : 0 < x) (h1 : x ≠ 1) : 0 ≤ x * ((1 - |x * x - 1| ^ (-0.5 : ℝ) * cinv x) / (x * x - 1)) := by
  obtain ⟨hA, hB⟩ := ratio_bounds x hx h1
  apply mul_nonneg hx.le
  rcases lt_or_gt_of_ne h1 with hlt | hgt
  · apply div_nonneg_of_nonpos
    · have := (hA hlt).1; rw [mul_comm]; linarith
    · nlinarith
  · apply div_nonneg
    · have := (hB hgt).2; rw [mul_comm]; linarith
    · nlinarith

theorem light_piece (u v : ℝ) (hu : 0 ≤ u) (huv : u ≤ v) (h1 : ∀ x ∈ Set.Ioo u v, x ≠ 1) :
    IntervalIntegrable (fun x => x * ((1 - |x * x - 1| ^ (-0.5 : ℝ) * cinv x) / (x * x - 1))) volume u v ∧
    ∫ x in u..v, x * ((1 - |x * x - 1| ^ (-0.5 : ℝ) * cinv x) / (x * x - 1)) = light v - light u := by
  have hc : ContinuousOn light (Set.Icc u v) := light_contOn.mono fun x hx => hu.trans hx.1
  have hd : ∀ x ∈ Set.Ioo u v, HasDerivAt light (x * ((1 - |x * x - 1| ^ (-0.5 : ℝ) * cinv x) / (x * x - 1))) x :=
    fun x hx => light_deriv x (hu.trans_lt hx.1) (h1 x hx)
  have hint : IntervalIntegrable (fun x => x * ((1 - |x * x - 1| ^ (-0.5 : ℝ) * cinv x) / (x * x - 1))) volume u v := by
    rw [intervalIntegrable_iff_integrableOn_Ioc_of_le huv]
    exact intervalIntegral.integrableOn_deriv_of_nonneg hc hd fun x hx => slope_nonneg x (hu.trans_lt hx.1) (h1 x hx)
  exact ⟨hint, intervalIntegral.integral_eq_sub_of_hasDerivAt_of_le huv hc hd hint⟩

theorem light_all (u v : ℝ) (hu : 0 ≤ u) (huv : u ≤ v) :
    ∫ x in u..v, x * ((1 - |x * x - 1| ^ (-0.5 : ℝ) * cinv x) / (x * x - 1)) = light v - light u := by
  by_cases h : u < 1 ∧ 1 < v
  · obtain ⟨i1, e1⟩ := light_piece u 1 hu h.1.le fun x hx => hx.2.ne
    obtain ⟨i2, e2⟩ := light_piece 1 v zero_le_one h.2.le fun x hx => hx.1.ne'
    rw [← intervalIntegral.integral_add_adjacent_intervals i1 i2, e1, e2]; ring
  · refine (light_piece u v hu huv fun x hx h1 => h ?_).2
    rw [h1] at hx; exact hx

theorem circular_light (numeric : (ℝ → ℝ) → ℝ → ℝ → ℝ) (rc sig0 b : ℝ) (hrc : 0 < rc) (hb : 0 < b) :
    circular numeric rc sig0 0 b false = sig0 * light (b / rc) := by
  have : b / rc ≠ 0 := (div_pos hb hrc).ne'
  unfold circular light gg
  simp [this]

theorem ring_light (rc sig0 a b : ℝ) (hrc : 0 < rc) :
    ∫ R in a..b, 2 * π * R * proj rc sig0 R = sig0 * ∫ x in (a / rc)..(b / rc), x * ((1 - |x * x - 1| ^ (-0.5 : ℝ) * cinv x) / (x * x - 1)) := by
  have hp := pi_pos
  rw [← intervalIntegral.inv_mul_integral_comp_div (c := rc), ← mul_assoc, ← intervalIntegral.integral_const_mul]
  apply intervalIntegral.integral_congr_ae
  have : ∀ᵐ R : ℝ, R ≠ rc := by simp [ae_iff, measure_singleton]
  filter_upwards [this] with R hR _
  have h1 : R / rc ≠ 1 := by rw [Ne, div_eq_one_iff_eq hrc.ne']; exact hR
  unfold proj
  simp only [if_neg h1]
  field_simp

/-- C113: differences of the analytic circular integral are the light of the ring, for every ring ... -/
theorem nfwProjected_rings (numeric : (ℝ → ℝ) → ℝ → ℝ → ℝ) (rc sig0 a b : ℝ) (hrc : 0 < rc) (ha : 0 < a) (hab : a ≤ b) :
    circular numeric rc sig0 0 b false - circular numeric rc sig0 0 a false = ∫ R in a..b, 2 * π * R * proj rc sig0 R := by
  rw [circular_light _ _ _ _ hrc (ha.trans_le hab), circular_light _ _ _ _ hrc ha, ← mul_sub,
    ← light_all _ _ (by positivity) (by gcongr), ring_light rc sig0 a b hrc]

/-- ... and the integral itself is the light inside the circle. -/
theorem nfwProjected_circle (numeric : (ℝ → ℝ) → ℝ → ℝ → ℝ) (rc sig0 b : ℝ) (hrc : 0 < rc) (hb : 0 < b) :
    circular numeric rc sig0 0 b false = ∫ R in (0 : ℝ)..b, 2 * π * R * proj rc sig0 R := by
  have h := light_all (0 / rc) (b / rc) (by simp) (by gcongr)
  rw [circular_light _ _ _ _ hrc hb, ring_light rc sig0 0 b hrc, h]
  simp [light]

/-- Given a lower limit the method answers the integral along a line, without the factor 2 pi R: for a ring outside radius 1 the two differ whenever the
light is not 0 (here: they agree only up to that factor, evaluated inside the integral). -/
theorem nfwProjected_fallback (rc sig0 a b : ℝ) (ha : a ≠ 0) :
    circular (fun f a b => ∫ x in a..b, f x) rc sig0 a b false = ∫ R in a..b, proj rc sig0 R := by
  simp [circular, ha]

/-- Example: the ring from 1/2 to 2 of a profile with scale radius 1. -/
example : circular (fun _ _ _ => 0) 1 1 0 2 false - circular (fun _ _ _ => 0) 1 1 0 (1 / 2) false = ∫ R in (1 / 2 : ℝ)..2, 2 * π * R * proj 1 1 R :=
  nfwProjected_rings _ 1 1 (1 / 2) 2 one_pos (by norm_num) (by norm_num)

end Verif.NfwProjected
