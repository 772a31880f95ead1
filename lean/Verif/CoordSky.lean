import Mathlib.Analysis.SpecialFunctions.Trigonometric.Arctan
import Mathlib.Analysis.SpecialFunctions.Trigonometric.Inverse
import Mathlib.Analysis.SpecialFunctions.Trigonometric.InverseDeriv
import Mathlib.Analysis.SpecialFunctions.Pow.Real
import Mathlib.Analysis.Real.Pi.Bounds
import Mathlib.Topology.Order.IntermediateValue
import Mathlib.Tactic.Linarith
import Mathlib.Tactic.Ring
import Mathlib.Tactic.FieldSimp

/-!
# Sidereal time, latitudes and angular sizes (astropysics/coords/funcs.py 72-213, 982-1110)

Exact real arithmetic.
-/

namespace Verif.CoordSky

open Real

/-- Python's `x % m` for a positive modulus. -/
noncomputable def pymod (x m : ℝ) : ℝ := x - m * ⌊x / m⌋

/-- `obstools.jd2000`. -/
def jd2000 : ℝ := 2451545

/-- The `degrees` argument of `earth_rotation_angle`: None, True or False. -/
inductive Unit
  | turns | degrees | radians
deriving DecidableEq, Repr

/-- `earth_rotation_angle(jd,degrees)`, coords/funcs.py 72-96. -/
noncomputable def earthRotationAngle (jd : ℝ) (u : Unit) : ℝ :=
  let d := jd - jd2000
  let res := pymod (0.7790572732640 + 0.00273781191135448 * d + pymod d 1) 1
  match u with
  | .turns => res
  | .degrees => res * 360
  | .radians => res * 2 * π

/-- `_gmst_poly_sofa`, coords/funcs.py 106-110. -/
noncomputable def gmstPoly (asecperrad t : ℝ) : ℝ :=
  0.00001882 / asecperrad * t ^ 4 + -0.00009344 / asecperrad * t ^ 3 + 1.39667721 / asecperrad * t ^ 2 +
    4612.15739966 / asecperrad * t + 0.014506 / asecperrad

/-- constants.py, `asecperrad`. -/
noncomputable def asecperrad : ℝ := 206264.8062470963551564734

/-- The nutation in longitude times the cosine of the obliquity, in radians, as a function of the date: `dpsi*np.cos(eps)` in
coords/funcs.py 148-160, from whichever nutation model. -/
abbrev Nutation := ℝ → ℝ

/-- Greenwich mean sidereal angle, coords/funcs.py 139-144. -/
noncomputable def gmst (jd : ℝ) : ℝ := earthRotationAngle jd .radians + gmstPoly asecperrad ((jd - 2451545) / 36525)

/-- `greenwich_sidereal_time(jd,apparent)`, coords/funcs.py 113-163. -/
noncomputable def greenwichSiderealTime (nut : Nutation) (jd : ℝ) (apparent : Bool) : ℝ :=
  if apparent then pymod ((gmst jd + nut jd) * 12 / π + 0) 24 else pymod (gmst jd * 12 / π) 24

/-- `equation_of_the_equinoxes(jd)`, coords/funcs.py 185-197. -/
noncomputable def equationOfTheEquinoxes (nut : Nutation) (jd : ℝ) : ℝ :=
  greenwichSiderealTime nut jd true - greenwichSiderealTime nut jd false

/-- `equation_of_the_origins(jd)`, coords/funcs.py 199-212. -/
noncomputable def equationOfTheOrigins (nut : Nutation) (jd : ℝ) : ℝ :=
  earthRotationAngle jd .turns * 24 - greenwichSiderealTime nut jd true

/-! ## Lemmas on the remainder -/

theorem pymod_nonneg (x m : ℝ) (hm : 0 < m) : 0 ≤ pymod x m := by
  unfold pymod
  have := Int.floor_le (x / m)
  rw [le_div_iff₀ hm] at this
  linarith

theorem pymod_lt (x m : ℝ) (hm : 0 < m) : pymod x m < m := by
  unfold pymod
  have := Int.lt_floor_add_one (x / m)
  rw [div_lt_iff₀ hm] at this
  linarith

theorem pymod_add (x m : ℝ) (hm : 0 < m) (k : ℤ) : pymod (x + m * k) m = pymod x m := by
  unfold pymod
  rw [show (x + m * k) / m = x / m + k by field_simp, Int.floor_add_intCast]
  push_cast
  ring

theorem pymod_of_mem (x m : ℝ) (h0 : 0 ≤ x) (h1 : x < m) : pymod x m = x := by
  unfold pymod
  have hm : 0 < m := lt_of_le_of_lt h0 h1
  have : ⌊x / m⌋ = 0 := by
    rw [Int.floor_eq_zero_iff]
    exact ⟨div_nonneg h0 hm.le, by rwa [div_lt_one hm]⟩
  rw [this]; simp

theorem pymod_congr (x m : ℝ) : ∃ k : ℤ, pymod x m = x + m * k := ⟨-⌊x / m⌋, by unfold pymod; push_cast; ring⟩

theorem pymod_unique (x m y : ℝ) (hm : 0 < m) (h0 : 0 ≤ y) (h1 : y < m) (k : ℤ) (h : y = x + m * k) : pymod x m = y := by
  rw [← pymod_add x m hm k, ← h, pymod_of_mem y m h0 h1]

/-! ## Earth rotation angle -/

/-- The turns the Earth has made since the epoch: a linear function of the date. -/
noncomputable def turns (jd : ℝ) : ℝ := 0.7790572732640 + 1.00273781191135448 * (jd - jd2000)

/-- The Earth rotation angle is the fractional part of a uniform rotation, for every date. -/
theorem era_linear (jd : ℝ) : earthRotationAngle jd .turns = pymod (turns jd) 1 := by
  unfold earthRotationAngle turns
  obtain ⟨k, hk⟩ := pymod_congr (jd - jd2000) 1
  simp only [hk]
  rw [← pymod_add (0.7790572732640 + 1.00273781191135448 * (jd - jd2000)) 1 one_pos k]
  congr 1
  ring

/-- The angle in the three units, and its range. -/
theorem era_range (jd : ℝ) :
    (0 ≤ earthRotationAngle jd .turns ∧ earthRotationAngle jd .turns < 1) ∧
    (0 ≤ earthRotationAngle jd .degrees ∧ earthRotationAngle jd .degrees < 360) ∧
    (0 ≤ earthRotationAngle jd .radians ∧ earthRotationAngle jd .radians < 2 * π) ∧
    earthRotationAngle jd .degrees = 360 * earthRotationAngle jd .turns ∧
    earthRotationAngle jd .radians = 2 * π * earthRotationAngle jd .turns := by
  have e1 : earthRotationAngle jd .degrees = 360 * earthRotationAngle jd .turns := by
    simp only [earthRotationAngle]; ring
  have e2 : earthRotationAngle jd .radians = 2 * π * earthRotationAngle jd .turns := by
    simp only [earthRotationAngle]; ring
  have h0 : 0 ≤ earthRotationAngle jd .turns := pymod_nonneg _ _ one_pos
  have h1 : earthRotationAngle jd .turns < 1 := pymod_lt _ _ one_pos
  have hpi := pi_pos
  rw [e1, e2]
  refine ⟨⟨h0, h1⟩, ⟨by linarith, by linarith⟩, ⟨by positivity, by nlinarith⟩, rfl, rfl⟩

/-- Between any two dates the angle advances by 1.00273781191135448 turns a day, up to whole turns. -/
theorem era_advances (jd δ : ℝ) :
    ∃ k : ℤ, earthRotationAngle (jd + δ) .turns = earthRotationAngle jd .turns + 1.00273781191135448 * δ + k := by
  obtain ⟨k, hk⟩ := pymod_congr (turns jd) 1
  obtain ⟨l, hl⟩ := pymod_congr (turns (jd + δ)) 1
  refine ⟨l - k, ?_⟩
  rw [era_linear, era_linear, hk, hl]
  unfold turns
  push_cast
  ring

/-! ## Sidereal time -/

/-- Greenwich sidereal time is an hour angle in [0,24), with and without nutation, for every date and nutation model. -/
theorem gst_range (nut : Nutation) (jd : ℝ) (apparent : Bool) :
    0 ≤ greenwichSiderealTime nut jd apparent ∧ greenwichSiderealTime nut jd apparent < 24 := by
  unfold greenwichSiderealTime
  cases apparent
  · exact ⟨pymod_nonneg _ _ (by norm_num), pymod_lt _ _ (by norm_num)⟩
  · exact ⟨pymod_nonneg _ _ (by norm_num), pymod_lt _ _ (by norm_num)⟩

/-- Apparent and mean sidereal time differ by the nutation in hours, up to a day. -/
theorem gst_nutation (nut : Nutation) (jd : ℝ) :
    ∃ k : ℤ, greenwichSiderealTime nut jd true = greenwichSiderealTime nut jd false + nut jd * 12 / π + 24 * k := by
  obtain ⟨k, hk⟩ := pymod_congr ((gmst jd + nut jd) * 12 / π + 0) 24
  obtain ⟨l, hl⟩ := pymod_congr (gmst jd * 12 / π) 24
  refine ⟨k - l, ?_⟩
  unfold greenwichSiderealTime
  simp only [if_true, Bool.false_eq_true, if_false]
  rw [hk, hl]
  push_cast
  ring

/-- The equation of the equinoxes is the nutation in hours exactly when adding it to the mean sidereal time does not cross 0h. -/
theorem eqeq_iff (nut : Nutation) (jd : ℝ) :
    equationOfTheEquinoxes nut jd = nut jd * 12 / π ↔
      0 ≤ greenwichSiderealTime nut jd false + nut jd * 12 / π ∧ greenwichSiderealTime nut jd false + nut jd * 12 / π < 24 := by
  have hr := gst_range nut jd true
  obtain ⟨k, hk⟩ := gst_nutation nut jd
  unfold equationOfTheEquinoxes
  constructor
  · intro h
    have : greenwichSiderealTime nut jd true = greenwichSiderealTime nut jd false + nut jd * 12 / π := by linarith
    rw [← this]; exact hr
  · rintro ⟨h0, h1⟩
    have hk0 : k = 0 := by
      have a1 : (-1 : ℝ) < k := by linarith
      have a2 : (k : ℝ) < 1 := by linarith
      have b1 : -1 < k := by exact_mod_cast a1
      have b2 : k < 1 := by exact_mod_cast a2
      omega
    rw [hk, hk0]; simp

/-- The mean sidereal angle without removing whole turns. -/
noncomputable def unwrapped (d : ℝ) : ℝ :=
  (0.7790572732640 + 1.00273781191135448 * d) * 2 * π + gmstPoly asecperrad (d / 36525)

theorem gmst_unwrapped (d : ℝ) : ∃ k : ℤ, gmst (jd2000 + d) = unwrapped d + 2 * π * k := by
  obtain ⟨k, hk⟩ := pymod_congr (turns (jd2000 + d)) 1
  have h := (era_range (jd2000 + d)).2.2.2.2
  rw [era_linear, hk] at h
  refine ⟨k, ?_⟩
  unfold gmst unwrapped
  rw [h]
  unfold turns jd2000
  ring_nf

theorem unwrapped_continuous : Continuous unwrapped := by
  unfold unwrapped gmstPoly
  fun_prop

/-- Every hour angle is reached within two days: there is a date at which the unwrapped angle is a whole number of turns plus `x`. -/
theorem every_angle (x : ℝ) : ∃ d : ℝ, ∃ k : ℤ, unwrapped d = x + 2 * π * k := by
  have hpi := pi_pos
  have hstep : unwrapped 0 + 2 * π ≤ unwrapped 2 := by
    unfold unwrapped gmstPoly asecperrad
    norm_num
    nlinarith
  -- the least whole number of turns that brings `x` past the start
  obtain ⟨k, hk1, hk2⟩ : ∃ k : ℤ, unwrapped 0 ≤ x + 2 * π * k ∧ x + 2 * π * k ≤ unwrapped 0 + 2 * π := by
    refine ⟨⌈(unwrapped 0 - x) / (2 * π)⌉, ?_, ?_⟩
    · have := Int.le_ceil ((unwrapped 0 - x) / (2 * π))
      rw [div_le_iff₀ (by linarith)] at this
      linarith
    · have := Int.ceil_lt_add_one ((unwrapped 0 - x) / (2 * π))
      have h2 : (⌈(unwrapped 0 - x) / (2 * π)⌉ : ℝ) * (2 * π) < ((unwrapped 0 - x) / (2 * π) + 1) * (2 * π) :=
        mul_lt_mul_of_pos_right this (by linarith)
      rw [add_mul, div_mul_cancel₀ _ (by linarith : (2 * π : ℝ) ≠ 0)] at h2
      linarith
  have := intermediate_value_Icc (by norm_num : (0 : ℝ) ≤ 2) unwrapped_continuous.continuousOn
  obtain ⟨d, _, hd⟩ := this ⟨hk1, hk2.trans hstep⟩
  exact ⟨d, k, hd⟩

/-- With a constant positive nutation below a day there is a date at which the equation of the equinoxes is almost a whole day
off: it returns the nutation minus 24 hours. -/
theorem eqeq_jumps (e : ℝ) (he : 0 < e) (he2 : e < 24) :
    ∃ jd, equationOfTheEquinoxes (fun _ => e * π / 12) jd = e - 24 := by
  have hpi := pi_pos
  have hpi0 := pi_ne_zero
  obtain ⟨d, k, hd⟩ := every_angle (-(e * π / 24))
  obtain ⟨l, hl⟩ := gmst_unwrapped d
  refine ⟨jd2000 + d, ?_⟩
  have hm : gmst (jd2000 + d) * 12 / π = -(e / 2) + 24 * ((k + l : ℤ) : ℝ) := by
    rw [hl, hd]; push_cast; field_simp; ring
  have ha : (gmst (jd2000 + d) + e * π / 12) * 12 / π + 0 = e / 2 + 24 * ((k + l : ℤ) : ℝ) := by
    have : (gmst (jd2000 + d) + e * π / 12) * 12 / π = gmst (jd2000 + d) * 12 / π + e := by field_simp
    rw [this, hm]; ring
  unfold equationOfTheEquinoxes greenwichSiderealTime
  simp only [if_true, Bool.false_eq_true, if_false]
  rw [ha, hm, pymod_add _ _ (by norm_num), pymod_add _ _ (by norm_num), pymod_of_mem (e / 2) 24 (by linarith) (by linarith),
    pymod_unique (-(e / 2)) 24 (24 - e / 2) (by norm_num) (by linarith) (by linarith) 1 (by push_cast; ring)]
  ring

/-- `equation_of_the_origins`: Earth rotation angle minus apparent sidereal time, in hours between -24 and 24, and equal to minus
the accumulated precession and nutation up to a day. -/
theorem eqorigins_spec (nut : Nutation) (jd : ℝ) :
    (-24 < equationOfTheOrigins nut jd ∧ equationOfTheOrigins nut jd < 24) ∧
    ∃ k : ℤ, equationOfTheOrigins nut jd = -(gmstPoly asecperrad ((jd - 2451545) / 36525) + nut jd) * 12 / π + 24 * k := by
  have h1 := (era_range jd).1
  have h2 := gst_range nut jd true
  refine ⟨⟨by unfold equationOfTheOrigins; linarith, by unfold equationOfTheOrigins; linarith⟩, ?_⟩
  obtain ⟨k, hk⟩ := pymod_congr ((gmst jd + nut jd) * 12 / π + 0) 24
  refine ⟨-k, ?_⟩
  unfold equationOfTheOrigins greenwichSiderealTime
  simp only [if_true]
  rw [hk]
  unfold gmst
  rw [(era_range jd).2.2.2.2]
  have := pi_ne_zero
  push_cast
  field_simp
  ring

/-! ## Latitudes -/

/-- constants.py 124-125: `Rea`, `Reb` (only their ratio matters). -/
noncomputable def Rea : ℝ := 637813700
noncomputable def Reb : ℝ := Rea * (1 - 1 / 298.257223563)

/-- `(Reb/Rea)**2`. -/
noncomputable def boasq : ℝ := (Reb / Rea) ^ 2

/-- `geographic_to_geocentric_latitude`, coords/funcs.py 1062-1087, on the angle in radians. -/
noncomputable def toGeocentric (rads : ℝ) : ℝ := arctan (boasq * tan rads)
/-- `geocentric_to_geographic_latitude`, coords/funcs.py 1089-1114. -/
noncomputable def toGeographic (rads : ℝ) : ℝ := arctan ((1 / boasq) * tan rads)

theorem boasq_pos : 0 < boasq := by unfold boasq Reb Rea; norm_num
theorem boasq_lt_one : boasq < 1 := by unfold boasq Reb Rea; norm_num

/-- The two conversions are inverse to each other between the poles. -/
theorem latitude_roundtrip (x : ℝ) (h1 : -(π / 2) < x) (h2 : x < π / 2) :
    toGeographic (toGeocentric x) = x ∧ toGeocentric (toGeographic x) = x := by
  have hb := boasq_pos.ne'
  constructor
  · unfold toGeographic toGeocentric
    rw [tan_arctan, ← mul_assoc, one_div, inv_mul_cancel₀ hb, one_mul, arctan_tan h1 h2]
  · unfold toGeographic toGeocentric
    rw [tan_arctan, ← mul_assoc, one_div, mul_inv_cancel₀ hb, one_mul, arctan_tan h1 h2]

/-- Both results lie between the poles, and both functions are strictly increasing there, so no two latitudes are mapped to one. -/
theorem latitude_monotone (x y : ℝ) (h1 : -(π / 2) < x) (h : x < y) (h2 : y < π / 2) :
    toGeocentric x < toGeocentric y ∧ toGeographic x < toGeographic y ∧
    -(π / 2) < toGeocentric x ∧ toGeocentric x < π / 2 ∧ -(π / 2) < toGeographic x ∧ toGeographic x < π / 2 := by
  have ht : tan x < tan y := tan_lt_tan_of_lt_of_lt_pi_div_two h1 h2 h
  refine ⟨arctan_strictMono ?_, arctan_strictMono ?_, neg_pi_div_two_lt_arctan _, arctan_lt_pi_div_two _,
    neg_pi_div_two_lt_arctan _, arctan_lt_pi_div_two _⟩
  · exact mul_lt_mul_of_pos_left ht boasq_pos
  · exact mul_lt_mul_of_pos_left ht (one_div_pos.2 boasq_pos)

/-- The geocentric latitude is nearer to the equator: strictly, except at the equator, and on the same side of it. -/
theorem geocentric_smaller (x : ℝ) (h1 : 0 < x) (h2 : x < π / 2) :
    0 < toGeocentric x ∧ toGeocentric x < x ∧ toGeocentric (-x) = -toGeocentric x ∧ toGeocentric 0 = 0 := by
  have ht : 0 < tan x := tan_pos_of_pos_of_lt_pi_div_two h1 h2
  refine ⟨?_, ?_, ?_, ?_⟩
  · exact arctan_pos.2 (mul_pos boasq_pos ht)
  · calc toGeocentric x < arctan (tan x) := arctan_strictMono (by nlinarith [boasq_lt_one])
      _ = x := arctan_tan (by linarith [pi_pos]) h2
  · unfold toGeocentric; rw [tan_neg, mul_neg, arctan_neg]
  · unfold toGeocentric; simp

/-- The point of the ellipse with semi-axes `Rea`, `Reb` whose normal has the geographic latitude `x` has the geocentric latitude
the function returns: the ellipse point is proportional to `(Rea² cos x, Reb² sin x)`. -/
theorem geocentric_is_ellipse (x : ℝ) (h1 : -(π / 2) < x) (h2 : x < π / 2) :
    tan (toGeocentric x) = (Reb ^ 2 * sin x) / (Rea ^ 2 * cos x) := by
  unfold toGeocentric
  rw [tan_arctan, tan_eq_sin_div_cos]
  unfold boasq
  have : cos x ≠ 0 := (cos_pos_of_mem_Ioo ⟨h1, h2⟩).ne'
  have : Rea ≠ 0 := by unfold Rea; norm_num
  field_simp

/-! ## Sizes -/

/-- How a distance is given: directly, or as a redshift (with the angular diameter distance in Mpc as a function of it). -/
noncomputable def distanceOf (dA : ℝ → ℝ) (zord : ℝ) (usez : Bool) : ℝ := if usez then dA zord * 1000000 else zord

/-- `angular_to_physical_size(angsize,zord,usez)`, coords/funcs.py 982-1017 (the angle in arcsec). -/
noncomputable def angularToPhysical (dA : ℝ → ℝ) (angsize zord : ℝ) (usez : Bool) : ℝ :=
  let sintheta := sin (angsize / asecperrad)
  distanceOf dA zord usez * (1 / sintheta / sintheta - 1) ^ (-(1 / 2) : ℝ)

/-- `physical_to_angular_size(physize,zord,usez)`, coords/funcs.py 1019-1060, with `objout=False`. -/
noncomputable def physicalToAngular (dA : ℝ → ℝ) (physize zord : ℝ) (usez : Bool) : ℝ :=
  let d := distanceOf dA zord usez
  asecperrad * arcsin (physize * (d * d + physize * physize) ^ (-(1 / 2) : ℝ))

theorem asec_pos : 0 < asecperrad := by unfold asecperrad; norm_num

theorem rpow_neg_half (x : ℝ) (hx : 0 ≤ x) : x ^ (-(1 / 2) : ℝ) = (√x)⁻¹ := by
  rw [rpow_neg hx, ← sqrt_eq_rpow]

/-- For an angle below a right angle the physical size is `d tan θ`. -/
theorem physical_tan (dA : ℝ → ℝ) (a zord : ℝ) (usez : Bool) (h1 : 0 < a / asecperrad) (h2 : a / asecperrad < π / 2) :
    angularToPhysical dA a zord usez = distanceOf dA zord usez * tan (a / asecperrad) := by
  unfold angularToPhysical
  simp only
  set t := a / asecperrad with ht
  have hs : 0 < sin t := sin_pos_of_pos_of_lt_pi h1 (by linarith [pi_pos])
  have hc : 0 < cos t := cos_pos_of_mem_Ioo ⟨by linarith, h2⟩
  have e : 1 / sin t / sin t - 1 = (cos t / sin t) ^ 2 := by
    field_simp
    nlinarith [sin_sq_add_cos_sq t]
  rw [e, rpow_neg_half _ (by positivity), sqrt_sq (by positivity), inv_div, tan_eq_sin_div_cos]

/-- For a positive distance the angular size is `arctan(r/d)`. -/
theorem angular_arctan (dA : ℝ → ℝ) (r zord : ℝ) (usez : Bool) (hd : 0 < distanceOf dA zord usez) :
    physicalToAngular dA r zord usez = asecperrad * arctan (r / distanceOf dA zord usez) := by
  unfold physicalToAngular
  simp only
  set d := distanceOf dA zord usez
  rw [rpow_neg_half _ (by nlinarith [mul_self_nonneg r, mul_self_nonneg d]), arctan_eq_arcsin]
  congr 2
  rw [← div_eq_mul_inv]
  have : √(1 + (r / d) ^ 2) = √(d * d + r * r) / d := by
    rw [show d * d + r * r = d ^ 2 * (1 + (r / d) ^ 2) by field_simp, sqrt_mul (sq_nonneg _), sqrt_sq hd.le]
    field_simp
  rw [this]
  field_simp

/-- With the same meaning of the distance the two functions are inverse to each other. -/
theorem size_roundtrip (dA : ℝ → ℝ) (zord : ℝ) (usez : Bool) (hd : 0 < distanceOf dA zord usez) :
    (∀ r, 0 < r → angularToPhysical dA (physicalToAngular dA r zord usez) zord usez = r) ∧
    (∀ a, 0 < a → a < asecperrad * (π / 2) → physicalToAngular dA (angularToPhysical dA a zord usez) zord usez = a) := by
  have ha := asec_pos
  constructor
  · intro r hr
    have e := angular_arctan dA r zord usez hd
    have e2 : physicalToAngular dA r zord usez / asecperrad = arctan (r / distanceOf dA zord usez) := by
      rw [e]; field_simp
    rw [physical_tan dA _ zord usez (by rw [e2]; exact arctan_pos.2 (by positivity)) (by rw [e2]; exact arctan_lt_pi_div_two _), e2,
      tan_arctan]
    field_simp
  · intro a h1 h2
    have b1 : 0 < a / asecperrad := by positivity
    have b2 : a / asecperrad < π / 2 := by rw [div_lt_iff₀ ha]; linarith
    rw [physical_tan dA a zord usez b1 b2, angular_arctan dA _ zord usez hd, mul_div_cancel_left₀ _ hd.ne',
      arctan_tan (by linarith [pi_pos]) b2]
    field_simp

/-- With the default arguments they are not: `angular_to_physical_size(a,d)` reads `d` as a distance and
`physical_to_angular_size(r,d)` as a redshift.  The round trip returns the angle exactly if the number is its own angular
diameter distance in parsec. -/
theorem size_defaults_iff (dA : ℝ → ℝ) (a d : ℝ) (h1 : 0 < a) (h2 : a < asecperrad * (π / 2)) (hd : 0 < d) (hz : 0 < dA d) :
    physicalToAngular dA (angularToPhysical dA a d false) d true = a ↔ dA d * 1000000 = d := by
  have ha := asec_pos
  have b1 : 0 < a / asecperrad := by positivity
  have b2 : a / asecperrad < π / 2 := by rw [div_lt_iff₀ ha]; linarith
  have hD : 0 < distanceOf dA d true := by simp only [distanceOf, if_true]; positivity
  have htp : 0 < tan (a / asecperrad) := tan_pos_of_pos_of_lt_pi_div_two b1 b2
  rw [physical_tan dA a d false b1 b2, angular_arctan dA _ d true hD]
  simp only [distanceOf, if_true, Bool.false_eq_true, if_false]
  have hpos : (0 : ℝ) < dA d * 1000000 := by positivity
  constructor
  · intro h
    have e : arctan (d * tan (a / asecperrad) / (dA d * 1000000)) = arctan (tan (a / asecperrad)) := by
      rw [arctan_tan (by linarith [pi_pos]) b2]
      field_simp
      linarith
    have e2 := arctan_injective e
    rw [div_eq_iff hpos.ne'] at e2
    have := mul_right_cancel₀ htp.ne' (e2.trans (mul_comm _ _))
    exact this.symm
  · intro h
    rw [h, mul_div_cancel_left₀ _ hd.ne', arctan_tan (by linarith [pi_pos]) b2]
    field_simp

/-- Non-trivial cases. -/
example : angularToPhysical id (physicalToAngular id 3 1000 false) 1000 false = 3 :=
  (size_roundtrip id 1000 false (by simp [distanceOf])).1 3 (by norm_num)

example : toGeographic (toGeocentric 0.8) = 0.8 :=
  (latitude_roundtrip 0.8 (by linarith [pi_gt_three]) (by linarith [pi_gt_three])).1

example : ∃ jd, equationOfTheEquinoxes (fun _ => (1 / 3600) * π / 12) jd = 1 / 3600 - 24 :=
  eqeq_jumps (1 / 3600) (by norm_num) (by norm_num)

end Verif.CoordSky
