import Mathlib.Analysis.SpecialFunctions.Complex.Arg
import Mathlib.Analysis.SpecialFunctions.Trigonometric.Arctan
import Mathlib.Analysis.Real.Pi.Bounds
import Mathlib.Tactic.Linarith
import Mathlib.Tactic.Ring
import Mathlib.Tactic.FieldSimp

/-!
# Coordinate functions (astropysics/coords/funcs.py 215-388)

The conversions between cartesian, polar, spherical and cylindrical coordinates, in exact real arithmetic.  The functions act
elementwise on arrays; the model is the function of one element.  `(..)**0.5` is the square root, `np.arctan2(y,x)` is
`Complex.arg (x+iy)` (same branch cut, `arctan2(0,0)=0`; floating-point signed zeros are outside the model).
-/

namespace Verif.CoordFuncs

open Real

/-- `np.arctan2(y,x)`. -/
noncomputable def arctan2 (y x : ℝ) : ℝ := Complex.arg ⟨x, y⟩

/-- `np.degrees`. -/
noncomputable def toDeg (t : ℝ) : ℝ := t * 180 / π
/-- `np.radians`. -/
noncomputable def toRad (t : ℝ) : ℝ := t * π / 180

/-- `cartesian_to_polar`, coords/funcs.py 215-236. -/
noncomputable def cartesianToPolar (x y : ℝ) (degrees : Bool) : ℝ × ℝ :=
  let r := √(x * x + y * y)
  let t := arctan2 y x
  (r, if degrees then toDeg t else t)

/-- `polar_to_cartesian`, coords/funcs.py 238-260. -/
noncomputable def polarToCartesian (r t : ℝ) (degrees : Bool) : ℝ × ℝ :=
  let t := if degrees then toRad t else t
  (r * cos t, r * sin t)

/-- `cartesian_to_spherical`, coords/funcs.py 262-290. -/
noncomputable def cartesianToSpherical (x y z : ℝ) (degrees : Bool) : ℝ × ℝ × ℝ :=
  let xsq := x * x
  let ysq := y * y
  let zsq := z * z
  let r := √(xsq + ysq + zsq)
  let t := arctan2 (√(xsq + ysq)) z
  let p := arctan2 y x
  if degrees then (r, toDeg t, toDeg p) else (r, t, p)

/-- `spherical_to_cartesian`, coords/funcs.py 292-317. -/
noncomputable def sphericalToCartesian (r t p : ℝ) (degrees : Bool) : ℝ × ℝ × ℝ :=
  let t := if degrees then toRad t else t
  let p := if degrees then toRad p else p
  (r * sin t * cos p, r * sin t * sin p, r * cos t)

/-- `latitude_to_colatitude`, coords/funcs.py 319-327. -/
noncomputable def latitudeToColatitude (lat : ℝ) (degrees : Bool) : ℝ := if degrees then 90 - lat else π / 2 - lat
/-- `colatitude_to_latitude`, coords/funcs.py 329-346. -/
noncomputable def colatitudeToLatitude (theta : ℝ) (degrees : Bool) : ℝ := if degrees then 90 - theta else π / 2 - theta

/-- `cartesian_to_cylindrical`, coords/funcs.py 348-368 (the flag is not passed on). -/
noncomputable def cartesianToCylindrical (x y z : ℝ) (_degrees : Bool) : ℝ × ℝ × ℝ :=
  let st := cartesianToPolar x y false
  (st.1, st.2, z)

/-- `cylindrical_to_cartesian`, coords/funcs.py 370-388. -/
noncomputable def cylindricalToCartesian (s t z : ℝ) (degrees : Bool) : ℝ × ℝ × ℝ :=
  let xy := polarToCartesian s t degrees
  (xy.1, xy.2, z)

/-! ## Lemmas -/

theorem toRad_toDeg (t : ℝ) : toRad (toDeg t) = t := by unfold toRad toDeg; field_simp [pi_ne_zero]
theorem toDeg_toRad (t : ℝ) : toDeg (toRad t) = t := by unfold toRad toDeg; field_simp [pi_ne_zero]

theorem norm_mk (x y : ℝ) : ‖(⟨x, y⟩ : ℂ)‖ = √(x * x + y * y) := by
  rw [Complex.norm_def, Complex.normSq_mk]

theorem arctan2_cos (x y : ℝ) : √(x * x + y * y) * cos (arctan2 y x) = x := by
  have := Complex.norm_mul_cos_arg ⟨x, y⟩
  rw [norm_mk] at this
  exact this

theorem arctan2_sin (x y : ℝ) : √(x * x + y * y) * sin (arctan2 y x) = y := by
  have := Complex.norm_mul_sin_arg ⟨x, y⟩
  rw [norm_mk] at this
  exact this

theorem arctan2_polar (r t : ℝ) (hr : 0 < r) (ht : t ∈ Set.Ioc (-π) π) : arctan2 (r * sin t) (r * cos t) = t := by
  unfold arctan2
  have := Complex.arg_mul_cos_add_sin_mul_I hr ht
  refine Eq.trans ?_ this
  congr 1
  apply Complex.ext <;> simp [Complex.cos_ofReal_re, Complex.sin_ofReal_re, Complex.cos_ofReal_im, Complex.sin_ofReal_im]

theorem sqrt_polar (r t : ℝ) (hr : 0 ≤ r) : √((r * cos t) * (r * cos t) + (r * sin t) * (r * sin t)) = r := by
  rw [show (r * cos t) * (r * cos t) + (r * sin t) * (r * sin t) = r ^ 2 by
    nlinarith [sin_sq_add_cos_sq t]]
  exact sqrt_sq hr

/-- The angle in radians that an output means. -/
noncomputable def angle (degrees : Bool) (t : ℝ) : ℝ := if degrees then toRad t else t

theorem angle_out (degrees : Bool) (t : ℝ) : angle degrees (if degrees then toDeg t else t) = t := by
  cases degrees <;> simp [angle, toRad_toDeg]

theorem out_angle (degrees : Bool) (t : ℝ) : (if degrees then toDeg (angle degrees t) else angle degrees t) = t := by
  cases degrees <;> simp [angle, toDeg_toRad]

/-! ## Polar coordinates -/

/-- Cartesian to polar and back is the identity, for every point and either unit. -/
theorem polar_roundtrip (x y : ℝ) (degrees : Bool) :
    polarToCartesian (cartesianToPolar x y degrees).1 (cartesianToPolar x y degrees).2 degrees = (x, y) := by
  have h := angle_out degrees (arctan2 y x)
  unfold angle at h
  unfold cartesianToPolar polarToCartesian
  simp only [h, arctan2_cos, arctan2_sin]

/-- What `cartesian_to_polar` returns: a radius that is the length, and an angle within half a turn (in degrees if asked). -/
theorem polar_range (x y : ℝ) (degrees : Bool) :
    0 ≤ (cartesianToPolar x y degrees).1 ∧ (cartesianToPolar x y degrees).1 ^ 2 = x ^ 2 + y ^ 2 ∧
    -(if degrees then 180 else π) < (cartesianToPolar x y degrees).2 ∧
    (cartesianToPolar x y degrees).2 ≤ (if degrees then 180 else π) := by
  unfold cartesianToPolar
  have h1 := Complex.neg_pi_lt_arg ⟨x, y⟩
  have h2 := Complex.arg_le_pi ⟨x, y⟩
  have hpi := pi_pos
  refine ⟨sqrt_nonneg _, ?_, ?_, ?_⟩
  · simp only
    rw [sq_sqrt (by nlinarith [mul_self_nonneg x, mul_self_nonneg y])]; ring
  · cases degrees
    · simpa [arctan2] using h1
    · simp only [if_true, toDeg, arctan2]
      rw [lt_div_iff₀ hpi]; linarith
  · cases degrees
    · simpa [arctan2] using h2
    · simp only [if_true, toDeg, arctan2]
      rw [div_le_iff₀ hpi]; linarith

/-- Polar to cartesian and back is the identity on positive radii and angles within half a turn. -/
theorem polar_roundtrip_back (r t : ℝ) (degrees : Bool) (hr : 0 < r)
    (h1 : -(if degrees then 180 else π) < t) (h2 : t ≤ if degrees then 180 else π) :
    cartesianToPolar (polarToCartesian r t degrees).1 (polarToCartesian r t degrees).2 degrees = (r, t) := by
  have hpi := pi_pos
  have hm : angle degrees t ∈ Set.Ioc (-π) π := by
    cases degrees
    · simpa [angle] using And.intro h1 h2
    · simp only [if_true] at h1 h2
      constructor
      · simp only [angle, if_true, toRad]; nlinarith
      · simp only [angle, if_true, toRad]; nlinarith
  have e := out_angle degrees t
  have ea : (if degrees then toRad t else t) = angle degrees t := rfl
  unfold polarToCartesian cartesianToPolar
  simp only [ea]
  rw [sqrt_polar r _ hr.le, arctan2_polar r _ hr hm, e]

/-- For a positive radius and any angle, the round trip returns the same radius and an angle that differs by whole turns. -/
theorem polar_roundtrip_turns (r t : ℝ) (hr : 0 < r) :
    (cartesianToPolar (polarToCartesian r t false).1 (polarToCartesian r t false).2 false).1 = r ∧
    ∃ k : ℤ, (cartesianToPolar (polarToCartesian r t false).1 (polarToCartesian r t false).2 false).2 = t + k * (2 * π) := by
  set q := cartesianToPolar (polarToCartesian r t false).1 (polarToCartesian r t false).2 false with hq
  have h1 : q.1 = r := by
    rw [hq]; unfold cartesianToPolar polarToCartesian
    simpa using sqrt_polar r t hr.le
  refine ⟨h1, ?_⟩
  have h2 := polar_roundtrip (polarToCartesian r t false).1 (polarToCartesian r t false).2 false
  rw [← hq, h1] at h2
  unfold polarToCartesian at h2
  simp only [Bool.false_eq_true, if_false, Prod.mk.injEq] at h2
  have hc := mul_left_cancel₀ hr.ne' h2.1
  have hs := mul_left_cancel₀ hr.ne' h2.2
  have ha : (q.2 : Real.Angle) = (t : Real.Angle) := Real.Angle.cos_sin_inj hc hs
  rw [Real.Angle.angle_eq_iff_two_pi_dvd_sub] at ha
  obtain ⟨k, hk⟩ := ha
  exact ⟨k, by linarith⟩

/-! ## Spherical coordinates -/

/-- Cartesian to spherical and back is the identity, for every point, the poles and the origin included. -/
theorem spherical_roundtrip (x y z : ℝ) (degrees : Bool) :
    sphericalToCartesian (cartesianToSpherical x y z degrees).1 (cartesianToSpherical x y z degrees).2.1
      (cartesianToSpherical x y z degrees).2.2 degrees = (x, y, z) := by
  have hz := arctan2_cos z (√(x * x + y * y))
  have hs := arctan2_sin z (√(x * x + y * y))
  rw [mul_self_sqrt (by nlinarith [mul_self_nonneg x, mul_self_nonneg y] : (0 : ℝ) ≤ x * x + y * y)] at hz hs
  rw [show z * z + (x * x + y * y) = x * x + y * y + z * z by ring] at hz hs
  unfold cartesianToSpherical sphericalToCartesian
  cases degrees
  · simp only [Bool.false_eq_true, if_false]
    rw [hs, hz, arctan2_cos, arctan2_sin]
  · simp only [if_true, toRad_toDeg]
    rw [hs, hz, arctan2_cos, arctan2_sin]

/-- What `cartesian_to_spherical` returns: the length, an angle from the z axis between 0 and half a turn, and an azimuth within
half a turn. -/
theorem spherical_range (x y z : ℝ) (degrees : Bool) :
    0 ≤ (cartesianToSpherical x y z degrees).1 ∧
    (cartesianToSpherical x y z degrees).1 ^ 2 = x ^ 2 + y ^ 2 + z ^ 2 ∧
    0 ≤ (cartesianToSpherical x y z degrees).2.1 ∧
    (cartesianToSpherical x y z degrees).2.1 ≤ (if degrees then 180 else π) ∧
    (cartesianToSpherical x y z degrees).2.2 = (cartesianToPolar x y degrees).2 := by
  have hpi := pi_pos
  have h0 : 0 ≤ arctan2 (√(x * x + y * y)) z := Complex.arg_nonneg_iff.2 (sqrt_nonneg _)
  have h1 : arctan2 (√(x * x + y * y)) z ≤ π := Complex.arg_le_pi _
  unfold cartesianToSpherical cartesianToPolar
  cases degrees
  · simp only [Bool.false_eq_true, if_false]
    refine ⟨sqrt_nonneg _, ?_, h0, h1, trivial⟩
    rw [sq_sqrt (by nlinarith [mul_self_nonneg x, mul_self_nonneg y, mul_self_nonneg z])]; ring
  · simp only [if_true]
    refine ⟨sqrt_nonneg _, ?_, ?_, ?_, trivial⟩
    · rw [sq_sqrt (by nlinarith [mul_self_nonneg x, mul_self_nonneg y, mul_self_nonneg z])]; ring
    · unfold toDeg; positivity
    · unfold toDeg; rw [div_le_iff₀ hpi]; linarith

/-- Spherical to cartesian and back is the identity away from the z axis. -/
theorem spherical_roundtrip_back (r t p : ℝ) (degrees : Bool) (hr : 0 < r)
    (t1 : 0 < t) (t2 : t < if degrees then 180 else π)
    (p1 : -(if degrees then 180 else π) < p) (p2 : p ≤ if degrees then 180 else π) :
    cartesianToSpherical (sphericalToCartesian r t p degrees).1 (sphericalToCartesian r t p degrees).2.1
      (sphericalToCartesian r t p degrees).2.2 degrees = (r, t, p) := by
  have hpi := pi_pos
  have key : ∀ a b : ℝ, 0 < a → a < π → b ∈ Set.Ioc (-π) π →
      √(r * sin a * cos b * (r * sin a * cos b) + r * sin a * sin b * (r * sin a * sin b) + r * cos a * (r * cos a)) = r ∧
      arctan2 (√(r * sin a * cos b * (r * sin a * cos b) + r * sin a * sin b * (r * sin a * sin b))) (r * cos a) = a ∧
      arctan2 (r * sin a * sin b) (r * sin a * cos b) = b := by
    intro a b ha1 ha2 hb
    have hs : 0 < sin a := sin_pos_of_pos_of_lt_pi ha1 ha2
    have hrs : 0 < r * sin a := mul_pos hr hs
    have e1 : r * sin a * cos b * (r * sin a * cos b) + r * sin a * sin b * (r * sin a * sin b) = (r * sin a) ^ 2 := by
      nlinarith [sin_sq_add_cos_sq b]
    refine ⟨?_, ?_, ?_⟩
    · rw [e1, show (r * sin a) ^ 2 + r * cos a * (r * cos a) = r ^ 2 by nlinarith [sin_sq_add_cos_sq a]]
      exact sqrt_sq hr.le
    · rw [e1, sqrt_sq hrs.le]
      exact arctan2_polar r a hr ⟨by linarith, ha2.le⟩
    · exact arctan2_polar (r * sin a) b hrs hb
  unfold sphericalToCartesian cartesianToSpherical
  cases degrees
  · simp only [Bool.false_eq_true, if_false] at t2 p1 p2 ⊢
    obtain ⟨k1, k2, k3⟩ := key t p t1 t2 ⟨p1, p2⟩
    rw [k1, k2, k3]
  · simp only [if_true] at t2 p1 p2 ⊢
    have a1 : 0 < toRad t := by unfold toRad; positivity
    have a2 : toRad t < π := by unfold toRad; rw [div_lt_iff₀ (by norm_num)]; nlinarith
    have b : toRad p ∈ Set.Ioc (-π) π := by
      constructor
      · unfold toRad; rw [lt_div_iff₀ (by norm_num)]; nlinarith
      · unfold toRad; rw [div_le_iff₀ (by norm_num)]; nlinarith
    obtain ⟨k1, k2, k3⟩ := key _ _ a1 a2 b
    rw [k1, k2, k3, toDeg_toRad, toDeg_toRad]

/-- Latitude and colatitude are each other's inverse, and the colatitude of a latitude is the spherical angle:
`z = r sin(latitude)`. -/
theorem colatitude (a : ℝ) (degrees : Bool) :
    colatitudeToLatitude (latitudeToColatitude a degrees) degrees = a ∧
    latitudeToColatitude (colatitudeToLatitude a degrees) degrees = a ∧
    ∀ r p, (sphericalToCartesian r (latitudeToColatitude a degrees) p degrees).2.2 = r * sin (angle degrees a) := by
  unfold colatitudeToLatitude latitudeToColatitude sphericalToCartesian angle
  cases degrees
  · simp [cos_pi_div_two_sub]
  · simp only [if_true, sub_sub_cancel, true_and]
    intro r p
    rw [show toRad (90 - a) = π / 2 - toRad a by unfold toRad; ring, cos_pi_div_two_sub]

/-! ## Cylindrical coordinates -/

/-- In radians the round trip through cylindrical coordinates is the identity. -/
theorem cylindrical_roundtrip (x y z : ℝ) :
    cylindricalToCartesian (cartesianToCylindrical x y z false).1 (cartesianToCylindrical x y z false).2.1
      (cartesianToCylindrical x y z false).2.2 false = (x, y, z) := by
  have := polar_roundtrip x y false
  simp only [cartesianToCylindrical, cylindricalToCartesian, this]

/-- In degrees it is the identity exactly on the half line `y = 0, x ≥ 0`: `cartesian_to_cylindrical` ignores the flag. -/
theorem cylindrical_degrees_iff (x y z : ℝ) :
    cylindricalToCartesian (cartesianToCylindrical x y z true).1 (cartesianToCylindrical x y z true).2.1
      (cartesianToCylindrical x y z true).2.2 true = (x, y, z) ↔ y = 0 ∧ 0 ≤ x := by
  have hpi := pi_pos
  have hpi4 := pi_le_four
  simp only [cartesianToCylindrical, cylindricalToCartesian, cartesianToPolar, polarToCartesian, if_true, if_false,
    Bool.false_eq_true, Prod.mk.injEq, and_true]
  have hc := arctan2_cos x y
  have hs := arctan2_sin x y
  constructor
  · rintro ⟨h1, h2⟩
    by_cases h0 : √(x * x + y * y) = 0
    · rw [h0, zero_mul] at hc hs
      exact ⟨hs.symm, hc.le⟩
    · have e1 : cos (toRad (arctan2 y x)) = cos (arctan2 y x) := mul_left_cancel₀ h0 (h1.trans hc.symm)
      have e2 : sin (toRad (arctan2 y x)) = sin (arctan2 y x) := mul_left_cancel₀ h0 (h2.trans hs.symm)
      have ha : ((toRad (arctan2 y x) : ℝ) : Real.Angle) = (arctan2 y x : ℝ) := Real.Angle.cos_sin_inj e1 e2
      rw [Real.Angle.angle_eq_iff_two_pi_dvd_sub] at ha
      obtain ⟨k, hk⟩ := ha
      have b1 : -π < arctan2 y x := Complex.neg_pi_lt_arg _
      have b2 : arctan2 y x ≤ π := Complex.arg_le_pi _
      have d1 : |toRad (arctan2 y x) - arctan2 y x| < 2 * π := by
        rw [show toRad (arctan2 y x) - arctan2 y x = arctan2 y x * (π / 180 - 1) by unfold toRad; ring, abs_mul]
        have a1 : |arctan2 y x| ≤ π := abs_le.2 ⟨b1.le, b2⟩
        have a2 : |π / 180 - 1| < 1 := by
          rw [abs_lt]; constructor <;> linarith
        nlinarith [abs_nonneg (arctan2 y x), abs_nonneg (π / 180 - 1)]
      have k0 : k = 0 := by
        rw [hk, abs_mul, abs_of_pos (by linarith : (0 : ℝ) < 2 * π)] at d1
        have : |(k : ℝ)| < 1 := by
          by_contra hh
          push Not at hh
          nlinarith
        have : |k| < 1 := by exact_mod_cast this
        exact Int.abs_lt_one_iff.1 this
      rw [k0, Int.cast_zero, mul_zero] at hk
      have hz : arctan2 y x = 0 := by
        have : arctan2 y x * (π / 180 - 1) = 0 := by
          rw [← hk]; unfold toRad; ring
        rcases mul_eq_zero.1 this with h | h
        · exact h
        · exfalso; linarith
      rw [hz, cos_zero, mul_one] at hc
      rw [hz, sin_zero, mul_zero] at hs
      exact ⟨hs.symm, hc ▸ sqrt_nonneg _⟩
  · rintro ⟨rfl, hx⟩
    have : arctan2 0 x = 0 := Complex.arg_ofReal_of_nonneg hx
    rw [this]
    simp [toRad, sqrt_mul_self hx]

/-- A concrete case: the point (0, 1) comes back somewhere else. -/
example : cylindricalToCartesian (cartesianToCylindrical 0 1 5 true).1 (cartesianToCylindrical 0 1 5 true).2.1
      (cartesianToCylindrical 0 1 5 true).2.2 true ≠ (0, 1, 5) := by
  rw [Ne, cylindrical_degrees_iff]; norm_num

/-- The hypotheses of the round trips hold for a point in the second octant given in degrees. -/
example : cartesianToSpherical (sphericalToCartesian 3 30 135 true).1 (sphericalToCartesian 3 30 135 true).2.1
      (sphericalToCartesian 3 30 135 true).2.2 true = (3, 30, 135) :=
  spherical_roundtrip_back 3 30 135 true (by norm_num) (by norm_num) (by norm_num) (by norm_num) (by norm_num)

example : cartesianToPolar (polarToCartesian 2 (-90) true).1 (polarToCartesian 2 (-90) true).2 true = (2, -90) :=
  polar_roundtrip_back 2 (-90) true (by norm_num) (by norm_num) (by norm_num)

end Verif.CoordFuncs
