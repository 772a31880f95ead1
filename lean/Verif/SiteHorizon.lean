import Verif.CoordSky
import Mathlib.Analysis.SpecialFunctions.Complex.Arg
import Mathlib.Analysis.SpecialFunctions.Complex.LogDeriv
import Mathlib.Analysis.SpecialFunctions.Sqrt
import Mathlib.Tactic.Linarith
import Mathlib.Tactic.Ring
import Mathlib.Tactic.FieldSimp
import Mathlib.Tactic.NormNum
import Mathlib.Tactic.Positivity

/-!
# Equatorial to horizontal coordinates (astropysics/obstools.py 1014-1083) (C100)

Exact real arithmetic.  `epoch` is None (with an epoch the position is precessed first; precession is not part of this model).
-/

namespace Verif.SiteHorizon

open Real Verif.CoordSky

/-- What the method reads of an equatorial position: right ascension in hours, declination in radians and the two errors in radians. -/
structure EqPos where
  ra : ℝ
  dec : ℝ
  raerr : Option ℝ := none
  decerr : Option ℝ := none

/-- A `HorizontalCoordinates` object; all in degrees. -/
structure Horiz where
  alt : ℝ
  az : ℝ
  alterr : Option ℝ := none
  azerr : Option ℝ := none

/-- `HorizontalCoordinates.__init__(self,alt,az,alterr,azerr)`, coords/coordsys.py 3340-3344 (positional arguments). -/
def Horiz.init (alt az : ℝ) (alterr azerr : Option ℝ) : Horiz := ⟨alt, az, alterr, azerr⟩

/-- `np.degrees`. -/
noncomputable def degrees (x : ℝ) : ℝ := x * 180 / π

/-- `np.radians`. -/
noncomputable def radians (x : ℝ) : ℝ := x * π / 180

/-- `np.arctan2(y,x)`. -/
noncomputable def arctan2 (y x : ℝ) : ℝ := Complex.arg ⟨x, y⟩

/-- The hour angle in radians, obstools.py 1041-1043. -/
noncomputable def hourAngle (lst ra : ℝ) : ℝ := π * (lst - ra) / 12

/-- `alts`, obstools.py 1050: latitude, declination and hour angle in radians. -/
noncomputable def altRad (lat dec H : ℝ) : ℝ := arcsin (sin lat * sin dec + cos lat * cos dec * cos H)

/-- `azs`, obstools.py 1052. -/
noncomputable def azRad (lat dec H : ℝ) : ℝ :=
  pymod (arctan2 (-cos dec * sin H) (cos lat * sin dec - sin lat * cos dec * cos H)) (2 * π)

/-- `daltdH`, obstools.py 1059. -/
noncomputable def daltdH (lat dec H : ℝ) : ℝ := -cos lat * cos dec * sin H / cos (altRad lat dec H)

/-- `daltddec`, obstools.py 1060. -/
noncomputable def daltddec (lat dec H : ℝ) : ℝ := (sin lat * cos dec - cos lat * sin dec * cos H) / cos (altRad lat dec H)

/-- `dtanaz`, obstools.py 1065. -/
noncomputable def dtanaz (lat dec H : ℝ) : ℝ := 1 + tan (azRad lat dec H) ^ 2

/-- `dazdH`, obstools.py 1066-1068. -/
noncomputable def dazdH (lat dec H : ℝ) : ℝ :=
  (cos H * cos dec / (cos H * cos dec * sin lat - cos lat * sin dec)
    + cos dec * cos dec * sin H * sin H * sin lat * ((cos H * cos dec * sin lat - cos lat * sin dec) ^ 2)⁻¹) / dtanaz lat dec H

/-- `dazddec`, obstools.py 1069-1071. -/
noncomputable def dazddec (lat dec H : ℝ) : ℝ :=
  (sin H * sin dec / (cos lat * sin dec - cos H * cos dec * sin lat)
    + ((cos dec * cos lat + cos H * sin dec * sin lat) * cos dec * sin H) * ((cos H * cos dec * sin lat - cos lat * sin dec) ^ 2)⁻¹)
      / dtanaz lat dec H

/-- obstools.py 1061 and 1073: two contributions added in quadrature. -/
noncomputable def quadrature (dH ddec raerr decerr : ℝ) : ℝ := sqrt ((dH * raerr) ^ 2 + (ddec * decerr) ^ 2)

/-- One position of `Site.equatorialToHorizontal(eqpos,lsts)`, obstools.py 1028-1083; `latDeg` is `self.latitude.d`. -/
noncomputable def toHorizontal (latDeg : ℝ) (p : EqPos) (lst : ℝ) : Horiz :=
  let lat := radians latDeg
  let H := hourAngle lst p.ra
  let alt := altRad lat p.dec H
  let az := azRad lat p.dec H
  if p.decerr.isSome ∨ p.raerr.isSome then
    let decerr := p.decerr.getD 0
    let raerr := p.raerr.getD 0
    let dalt := quadrature (daltdH lat p.dec H) (daltddec lat p.dec H) raerr decerr
    let daz := quadrature (dazdH lat p.dec H) (dazddec lat p.dec H) raerr decerr
    Horiz.init (degrees alt) (degrees az) (some (degrees daz)) (some (degrees dalt))
  else
    Horiz.init (degrees alt) (degrees az) none none

/-- The same for a sequence of sidereal times, obstools.py 1079-1083. -/
noncomputable def toHorizontalList (latDeg : ℝ) (p : EqPos) (lsts : List ℝ) : List Horiz := lsts.map (toHorizontal latDeg p)

/-! ## Specification: directions in space -/

/-- A direction in space by three components. -/
structure Vec where
  x : ℝ
  y : ℝ
  z : ℝ

/-- The direction with the given elevation above the base plane and azimuth in it (radians). -/
noncomputable def direction (elev azim : ℝ) : Vec := ⟨cos elev * cos azim, cos elev * sin azim, sin elev⟩

/-- The inner product: the cosine of the angle between two directions. -/
def Vec.dot (u v : Vec) : ℝ := u.x * v.x + u.y * v.y + u.z * v.z

/-- The direction of a horizontal position: x to the north, y to the east, z to the zenith. -/
noncomputable def Horiz.direction (h : Horiz) : Vec := SiteHorizon.direction (radians h.alt) (radians h.az)

/-- The direction of an equatorial position as seen at a sidereal time: x to the meridian point of the equator, y to the west, z to the pole. -/
noncomputable def EqPos.direction (p : EqPos) (lst : ℝ) : Vec := SiteHorizon.direction p.dec (hourAngle lst p.ra)

/-- The change of axes at latitude `lat` (the pole stands `lat` above the north point, west is opposite to east). -/
noncomputable def tilt (lat : ℝ) (v : Vec) : Vec :=
  ⟨cos lat * v.z - sin lat * v.x, -v.y, sin lat * v.z + cos lat * v.x⟩

/-! ## Lemmas -/

theorem radians_degrees (x : ℝ) : radians (degrees x) = x := by
  unfold radians degrees
  field_simp [pi_ne_zero]

theorem degrees_radians (x : ℝ) : degrees (radians x) = x := by
  unfold radians degrees
  field_simp [pi_ne_zero]

theorem toHorizontal_alt (latDeg : ℝ) (p : EqPos) (lst : ℝ) :
    (toHorizontal latDeg p lst).alt = degrees (altRad (radians latDeg) p.dec (hourAngle lst p.ra)) := by
  unfold toHorizontal
  simp only
  split <;> rfl

theorem toHorizontal_az (latDeg : ℝ) (p : EqPos) (lst : ℝ) :
    (toHorizontal latDeg p lst).az = degrees (azRad (radians latDeg) p.dec (hourAngle lst p.ra)) := by
  unfold toHorizontal
  simp only
  split <;> rfl

theorem unit_identity (lat dec H : ℝ) :
    (sin lat * sin dec + cos lat * cos dec * cos H) ^ 2 + ((cos lat * sin dec - sin lat * cos dec * cos H) ^ 2
      + (-cos dec * sin H) ^ 2) = 1 := by
  have h1 := sin_sq_add_cos_sq lat
  have h2 := sin_sq_add_cos_sq dec
  have h3 := sin_sq_add_cos_sq H
  have : (sin lat * sin dec + cos lat * cos dec * cos H) ^ 2 + ((cos lat * sin dec - sin lat * cos dec * cos H) ^ 2
      + (-cos dec * sin H) ^ 2) =
      (sin lat ^ 2 + cos lat ^ 2) * (sin dec ^ 2 + cos dec ^ 2 * cos H ^ 2) + cos dec ^ 2 * sin H ^ 2 := by ring
  rw [this, h1]
  nlinarith [h2, h3]

theorem sin_altRad (lat dec H : ℝ) : sin (altRad lat dec H) = sin lat * sin dec + cos lat * cos dec * cos H := by
  have h := unit_identity lat dec H
  have h1 := sq_nonneg (cos lat * sin dec - sin lat * cos dec * cos H)
  have h2 := sq_nonneg (-cos dec * sin H)
  have h3 : (sin lat * sin dec + cos lat * cos dec * cos H) ^ 2 ≤ 1 := by linarith
  have h4 : -1 ≤ sin lat * sin dec + cos lat * cos dec * cos H ∧ sin lat * sin dec + cos lat * cos dec * cos H ≤ 1 :=
    abs_le.1 ((sq_le_one_iff_abs_le_one _).1 h3)
  unfold altRad
  rw [sin_arcsin h4.1 h4.2]

theorem cos_altRad (lat dec H : ℝ) :
    cos (altRad lat dec H) = ‖(⟨cos lat * sin dec - sin lat * cos dec * cos H, -cos dec * sin H⟩ : ℂ)‖ := by
  have h := unit_identity lat dec H
  unfold altRad
  rw [cos_arcsin, Complex.norm_eq_sqrt_sq_add_sq]
  congr 1
  simp only
  linarith

theorem cos_arctan2 (y x : ℝ) : ‖(⟨x, y⟩ : ℂ)‖ * cos (arctan2 y x) = x := by
  unfold arctan2
  exact Complex.norm_mul_cos_arg ⟨x, y⟩

theorem sin_arctan2 (y x : ℝ) : ‖(⟨x, y⟩ : ℂ)‖ * sin (arctan2 y x) = y := by
  unfold arctan2
  exact Complex.norm_mul_sin_arg ⟨x, y⟩

theorem cos_pymod (x : ℝ) : cos (pymod x (2 * π)) = cos x := by
  obtain ⟨k, hk⟩ := pymod_congr x (2 * π)
  rw [hk, show x + 2 * π * (k : ℝ) = x + k * (2 * π) by ring, cos_add_int_mul_two_pi]

theorem sin_pymod (x : ℝ) : sin (pymod x (2 * π)) = sin x := by
  obtain ⟨k, hk⟩ := pymod_congr x (2 * π)
  rw [hk, show x + 2 * π * (k : ℝ) = x + k * (2 * π) by ring, sin_add_int_mul_two_pi]

theorem cos_azRad (lat dec H : ℝ) :
    cos (altRad lat dec H) * cos (azRad lat dec H) = cos lat * sin dec - sin lat * cos dec * cos H := by
  unfold azRad
  rw [cos_pymod, cos_altRad, cos_arctan2]

theorem sin_azRad (lat dec H : ℝ) : cos (altRad lat dec H) * sin (azRad lat dec H) = -cos dec * sin H := by
  unfold azRad
  rw [sin_pymod, cos_altRad, sin_arctan2]

/-! ## C100 -/

/-- The horizontal position points where the object stands: its direction is the equatorial direction seen in the axes of the site, for every
latitude, position and sidereal time. -/
theorem horizontal_direction (latDeg : ℝ) (p : EqPos) (lst : ℝ) :
    (toHorizontal latDeg p lst).direction = tilt (radians latDeg) (p.direction lst) := by
  unfold Horiz.direction EqPos.direction direction tilt
  rw [toHorizontal_alt, toHorizontal_az, radians_degrees, radians_degrees, cos_azRad, sin_azRad, sin_altRad]
  simp only [Vec.mk.injEq]
  refine ⟨by ring, by ring, by ring⟩

/-- The angle between two objects is the same in both systems. -/
theorem angles_preserved (latDeg : ℝ) (p q : EqPos) (lst : ℝ) :
    (toHorizontal latDeg p lst).direction.dot (toHorizontal latDeg q lst).direction = (p.direction lst).dot (q.direction lst) := by
  rw [horizontal_direction, horizontal_direction]
  unfold tilt Vec.dot
  have h := sin_sq_add_cos_sq (radians latDeg)
  simp only
  generalize sin (radians latDeg) = s at *
  generalize cos (radians latDeg) = c at *
  have : ∀ x1 y1 z1 x2 y2 z2 : ℝ, (c * z1 - s * x1) * (c * z2 - s * x2) + -y1 * -y2 + (s * z1 + c * x1) * (s * z2 + c * x2) =
      (s ^ 2 + c ^ 2) * (x1 * x2 + z1 * z2) + y1 * y2 := by intros; ring
  rw [this, h]
  ring

/-- The altitude lies in -90..90 degrees and the azimuth in 0..360 (360 excluded). -/
theorem horizontal_range (latDeg : ℝ) (p : EqPos) (lst : ℝ) :
    -90 ≤ (toHorizontal latDeg p lst).alt ∧ (toHorizontal latDeg p lst).alt ≤ 90 ∧
    0 ≤ (toHorizontal latDeg p lst).az ∧ (toHorizontal latDeg p lst).az < 360 := by
  rw [toHorizontal_alt, toHorizontal_az]
  have hpi := pi_pos
  have h1 := neg_pi_div_two_le_arcsin (sin (radians latDeg) * sin p.dec + cos (radians latDeg) * cos p.dec * cos (hourAngle lst p.ra))
  have h2 := arcsin_le_pi_div_two (sin (radians latDeg) * sin p.dec + cos (radians latDeg) * cos p.dec * cos (hourAngle lst p.ra))
  have h3 : 0 ≤ azRad (radians latDeg) p.dec (hourAngle lst p.ra) := pymod_nonneg _ _ (by linarith)
  have h4 : azRad (radians latDeg) p.dec (hourAngle lst p.ra) < 2 * π := pymod_lt _ _ (by linarith)
  change -(π / 2) ≤ altRad (radians latDeg) p.dec (hourAngle lst p.ra) at h1
  change altRad (radians latDeg) p.dec (hourAngle lst p.ra) ≤ π / 2 at h2
  unfold degrees
  rw [le_div_iff₀ hpi, div_le_iff₀ hpi, div_lt_iff₀ hpi]
  refine ⟨by linarith, by linarith, by positivity, by linarith⟩

/-- The position repeats after every sidereal day, and only the difference of sidereal time and right ascension matters. -/
theorem sidereal_day (latDeg : ℝ) (p : EqPos) (lst : ℝ) (k : ℤ) :
    toHorizontal latDeg p (lst + 24 * k) = toHorizontal latDeg p lst := by
  have hH : hourAngle (lst + 24 * k) p.ra = hourAngle lst p.ra + k * (2 * π) := by unfold hourAngle; ring
  have hs : sin (hourAngle lst p.ra + k * (2 * π)) = sin (hourAngle lst p.ra) := sin_add_int_mul_two_pi _ _
  have hc : cos (hourAngle lst p.ra + k * (2 * π)) = cos (hourAngle lst p.ra) := cos_add_int_mul_two_pi _ _
  unfold toHorizontal
  simp only [hH, daltdH, daltddec, dtanaz, dazdH, dazddec, altRad, azRad, hs, hc]

theorem only_difference (latDeg : ℝ) (p : EqPos) (lst δ : ℝ) :
    toHorizontal latDeg { p with ra := p.ra + δ } (lst + δ) = toHorizontal latDeg p lst := by
  have hH : hourAngle (lst + δ) (p.ra + δ) = hourAngle lst p.ra := by unfold hourAngle; congr 2; ring
  unfold toHorizontal
  simp only [hH]

theorem arcsin_cos_abs (x : ℝ) (h : |x| ≤ π) : arcsin (cos x) = π / 2 - |x| := by
  rw [← cos_abs, ← sin_pi_div_two_sub, arcsin_sin]
  · have := abs_nonneg x; linarith
  · have := abs_nonneg x; linarith

/-- On the meridian the object stands 90 degrees minus the difference of latitude and declination above the horizon, and it never stands
higher. -/
theorem transit_altitude (latDeg : ℝ) (p : EqPos) (hlat : |latDeg| ≤ 90) (hdec : |p.dec| ≤ π / 2) (lst : ℝ) :
    (toHorizontal latDeg p p.ra).alt = 90 - |latDeg - degrees p.dec| ∧
    (toHorizontal latDeg p lst).alt ≤ (toHorizontal latDeg p p.ra).alt := by
  have hpi := pi_pos
  have hl : |radians latDeg| ≤ π / 2 := by
    unfold radians
    rw [abs_div, abs_mul, abs_of_pos hpi, abs_of_pos (by norm_num : (0:ℝ) < 180), div_le_iff₀ (by norm_num)]
    nlinarith
  obtain ⟨a1, a2⟩ := abs_le.1 hl
  obtain ⟨b1, b2⟩ := abs_le.1 hdec
  have hcl : 0 ≤ cos (radians latDeg) := cos_nonneg_of_mem_Icc ⟨a1, a2⟩
  have hcd : 0 ≤ cos p.dec := cos_nonneg_of_mem_Icc ⟨b1, b2⟩
  have h0 : hourAngle p.ra p.ra = 0 := by unfold hourAngle; simp
  have hd : degrees (π / 2 - |radians latDeg - p.dec|) = 90 - |latDeg - degrees p.dec| := by
    have : radians latDeg - p.dec = (latDeg - degrees p.dec) * (π / 180) := by
      unfold radians degrees; field_simp
    rw [this, abs_mul, abs_of_pos (by positivity : 0 < π / 180)]
    unfold degrees
    field_simp
    ring
  constructor
  · rw [toHorizontal_alt, h0, ← hd]
    congr 1
    unfold altRad
    rw [cos_zero, show sin (radians latDeg) * sin p.dec + cos (radians latDeg) * cos p.dec * 1 = cos (radians latDeg - p.dec) by
      rw [cos_sub]; ring]
    exact arcsin_cos_abs _ (abs_le.2 ⟨by linarith, by linarith⟩)
  · rw [toHorizontal_alt, toHorizontal_alt, h0]
    unfold degrees altRad
    apply div_le_div_of_nonneg_right _ hpi.le
    apply mul_le_mul_of_nonneg_right _ (by norm_num)
    apply monotone_arcsin
    have := cos_le_one (hourAngle lst p.ra)
    have h5 : 0 ≤ cos (radians latDeg) * cos p.dec := mul_nonneg hcl hcd
    rw [cos_zero]
    nlinarith

/-- The celestial pole stands due north, as high as the latitude, at every sidereal time (northern sites). -/
theorem pole_altitude (latDeg : ℝ) (h0 : 0 ≤ latDeg) (h1 : latDeg < 90) (ra lst : ℝ) :
    (toHorizontal latDeg ⟨ra, π / 2, none, none⟩ lst).alt = latDeg ∧ (toHorizontal latDeg ⟨ra, π / 2, none, none⟩ lst).az = 0 := by
  have hpi := pi_pos
  have r0 : -(π / 2) ≤ radians latDeg := by
    have : 0 ≤ radians latDeg := by unfold radians; positivity
    linarith
  have r1 : radians latDeg < π / 2 := by unfold radians; rw [div_lt_iff₀ (by norm_num)]; nlinarith
  have hc : 0 < cos (radians latDeg) := cos_pos_of_mem_Ioo ⟨by
    have : 0 ≤ radians latDeg := by unfold radians; positivity
    linarith, r1⟩
  rw [toHorizontal_alt, toHorizontal_az]
  simp only [altRad, azRad, sin_pi_div_two, cos_pi_div_two]
  constructor
  · rw [show sin (radians latDeg) * 1 + cos (radians latDeg) * 0 * cos (hourAngle lst ra) = sin (radians latDeg) by ring,
      arcsin_sin r0 r1.le, degrees_radians]
  · rw [show -0 * sin (hourAngle lst ra) = 0 by ring,
      show cos (radians latDeg) * 1 - sin (radians latDeg) * 0 * cos (hourAngle lst ra) = cos (radians latDeg) by ring]
    have : arctan2 0 (cos (radians latDeg)) = 0 := by
      unfold arctan2
      rw [Complex.arg_eq_zero_iff]
      exact ⟨hc.le, rfl⟩
    rw [this, pymod_of_mem _ _ le_rfl (by linarith)]
    unfold degrees; simp

/-- Before transit (hour angle between -12 and 0 hours) the object is in the eastern half of the sky and afterwards in the western one. -/
theorem east_then_west (latDeg : ℝ) (p : EqPos) (hdec : |p.dec| < π / 2) (h : ℝ) (h0 : 0 < h) (h1 : h < 12) :
    ((toHorizontal latDeg p (p.ra - h)).az < 180 ∧ 0 < (toHorizontal latDeg p (p.ra - h)).az) ∧
    180 < (toHorizontal latDeg p (p.ra + h)).az := by
  have hpi := pi_pos
  obtain ⟨b1, b2⟩ := abs_lt.1 hdec
  have hcd : 0 < cos p.dec := cos_pos_of_mem_Ioo ⟨b1, b2⟩
  have hs : 0 < sin (π * h / 12) := sin_pos_of_pos_of_lt_pi (by positivity) (by rw [div_lt_iff₀ (by norm_num)]; nlinarith)
  have H1 : hourAngle (p.ra - h) p.ra = -(π * h / 12) := by unfold hourAngle; ring
  have H2 : hourAngle (p.ra + h) p.ra = π * h / 12 := by unfold hourAngle; ring
  have key : ∀ H, 0 ≤ cos (altRad (radians latDeg) p.dec H) := fun H => by rw [cos_altRad]; exact norm_nonneg _
  have conv : ∀ z, azRad (radians latDeg) p.dec z < 2 * π := fun z => pymod_lt _ _ (by linarith)
  have conv0 : ∀ z, 0 ≤ azRad (radians latDeg) p.dec z := fun z => pymod_nonneg _ _ (by linarith)
  have e1 := sin_azRad (radians latDeg) p.dec (-(π * h / 12))
  have e2 := sin_azRad (radians latDeg) p.dec (π * h / 12)
  have s1 : 0 < sin (azRad (radians latDeg) p.dec (-(π * h / 12))) := by
    rw [sin_neg] at e1
    have : 0 < cos p.dec * sin (π * h / 12) := mul_pos hcd hs
    by_contra hn
    nlinarith [key (-(π * h / 12)), mul_nonneg (key (-(π * h / 12))) (not_lt.1 hn |> neg_nonneg.2)]
  have s2 : sin (azRad (radians latDeg) p.dec (π * h / 12)) < 0 := by
    have : 0 < cos p.dec * sin (π * h / 12) := mul_pos hcd hs
    by_contra hn
    nlinarith [key (π * h / 12), mul_nonneg (key (π * h / 12)) (not_lt.1 hn)]
  rw [toHorizontal_az, toHorizontal_az, H1, H2]
  unfold degrees
  rw [div_lt_iff₀ hpi, lt_div_iff₀ hpi, lt_div_iff₀ hpi]
  have t1 : azRad (radians latDeg) p.dec (-(π * h / 12)) < π := by
    by_contra hn
    have := sin_nonneg_of_nonneg_of_le_pi (x := azRad (radians latDeg) p.dec (-(π * h / 12)) - π) (by linarith)
      (by linarith [conv (-(π * h / 12))])
    rw [sin_sub_pi] at this
    linarith
  have t0 : 0 < azRad (radians latDeg) p.dec (-(π * h / 12)) := by
    rcases (conv0 (-(π * h / 12))).lt_or_eq with hlt | heq
    · exact hlt
    · rw [← heq, sin_zero] at s1; exact absurd s1 (lt_irrefl _)
  have t2 : π < azRad (radians latDeg) p.dec (π * h / 12) := by
    by_contra hn
    have := sin_nonneg_of_nonneg_of_le_pi (conv0 (π * h / 12)) (not_lt.1 hn)
    linarith
  refine ⟨⟨by nlinarith, by nlinarith⟩, by nlinarith⟩

/-! ### Errors -/

/-- The two altitude coefficients are the derivatives of the altitude. -/
theorem alt_coefficients (lat dec H : ℝ) (h : cos (altRad lat dec H) ≠ 0) :
    HasDerivAt (fun t => altRad lat dec t) (daltdH lat dec H) H ∧ HasDerivAt (fun t => altRad lat t H) (daltddec lat dec H) dec := by
  have hs := sin_altRad lat dec H
  have hne : ∀ u : ℝ, u = sin lat * sin dec + cos lat * cos dec * cos H → u ≠ -1 ∧ u ≠ 1 := by
    intro u hu
    rw [← hs] at hu
    have hsq := sin_sq_add_cos_sq (altRad lat dec H)
    rw [← hu] at hsq
    have hp : 0 < cos (altRad lat dec H) ^ 2 := by positivity
    constructor <;> (intro hc; rw [hc] at hsq; linarith)
  obtain ⟨n1, n2⟩ := hne _ rfl
  have hcos : sqrt (1 - (sin lat * sin dec + cos lat * cos dec * cos H) ^ 2) = cos (altRad lat dec H) := by
    unfold altRad; rw [cos_arcsin]
  constructor
  · have h1 : HasDerivAt (fun t => sin lat * sin dec + cos lat * cos dec * cos t) (cos lat * cos dec * -sin H) H :=
      ((hasDerivAt_cos H).const_mul _).const_add _
    have := (hasDerivAt_arcsin n1 n2).comp H h1
    rw [hcos] at this
    refine HasDerivAt.congr_deriv (f := fun t => altRad lat dec t) this ?_
    unfold daltdH
    ring
  · have h1 : HasDerivAt (fun t => sin lat * sin t + cos lat * cos t * cos H) (sin lat * cos dec + cos lat * -sin dec * cos H) dec :=
      ((hasDerivAt_sin dec).const_mul _).add (((hasDerivAt_cos dec).const_mul _).mul_const _)
    have := (hasDerivAt_arcsin n1 n2).comp dec h1
    rw [hcos] at this
    refine HasDerivAt.congr_deriv (f := fun t => altRad lat t H) this ?_
    unfold daltddec
    ring

theorem hasDerivAt_arctan2 (x y : ℝ → ℝ) (x' y' t : ℝ) (hx : HasDerivAt x x' t) (hy : HasDerivAt y y' t) (hne : y t ≠ 0) :
    HasDerivAt (fun s => pymod (arctan2 (y s) (x s)) (2 * π)) ((y' * x t - y t * x') / (x t ^ 2 + y t ^ 2)) t := by
  have hpi := pi_pos
  have hf : HasDerivAt (fun s => (⟨x s, y s⟩ : ℂ)) ⟨x', y'⟩ t := by
    have h1 : HasDerivAt (fun s => ((x s : ℂ) + (y s : ℂ) * Complex.I)) ((x' : ℂ) + (y' : ℂ) * Complex.I) t :=
      hx.ofReal_comp.add (hy.ofReal_comp.mul_const _)
    have e : ∀ a b : ℝ, (a : ℂ) + (b : ℂ) * Complex.I = ⟨a, b⟩ := fun a b => by
      apply Complex.ext <;> simp
    simpa only [e] using h1
  have hslit : (⟨x t, y t⟩ : ℂ) ∈ Complex.slitPlane := Or.inr hne
  have hl := hf.clog_real hslit
  have him := (Complex.imCLM.hasFDerivAt.comp_hasDerivAt t hl)
  have harg : HasDerivAt (fun s => arctan2 (y s) (x s)) ((y' * x t - y t * x') / (x t ^ 2 + y t ^ 2)) t := by
    have hfun : (fun s => arctan2 (y s) (x s)) = (⇑Complex.imCLM ∘ fun t => Complex.log { re := x t, im := y t }) := by
      funext s
      simp only [Function.comp_apply, Complex.imCLM_apply, Complex.log_im, arctan2]
    rw [hfun]
    refine HasDerivAt.congr_deriv him ?_
    simp only [Complex.imCLM_apply, Complex.div_im, Complex.normSq_mk]
    have h2 : x t * x t + y t * y t ≠ 0 := by
      have p1 := mul_self_pos.2 hne
      have p2 := mul_self_nonneg (x t)
      intro h0
      linarith
    rw [sq, sq]
    field_simp
  have hcont : ContinuousAt y t := hy.continuousAt
  rcases lt_or_gt_of_ne hne with hneg | hpos
  · have hev : ∀ᶠ s in nhds t, y s < 0 := hcont.eventually_lt continuousAt_const hneg
    have := harg.add_const (2 * π)
    refine this.congr_of_eventuallyEq ?_
    filter_upwards [hev] with s hs
    have a1 : arctan2 (y s) (x s) < 0 := by unfold arctan2; exact Complex.arg_neg_iff.2 hs
    have a2 : -π < arctan2 (y s) (x s) := by unfold arctan2; exact Complex.neg_pi_lt_arg _
    exact pymod_unique _ _ _ (by linarith) (by linarith) (by linarith) 1 (by simp)
  · have hev : ∀ᶠ s in nhds t, 0 < y s := continuousAt_const.eventually_lt hcont hpos
    refine harg.congr_of_eventuallyEq ?_
    filter_upwards [hev] with s hs
    have a1 : 0 ≤ arctan2 (y s) (x s) := by unfold arctan2; exact Complex.arg_nonneg_iff.2 hs.le
    have a2 : arctan2 (y s) (x s) ≤ π := by unfold arctan2; exact Complex.arg_le_pi _
    exact pymod_of_mem _ _ a1 (by linarith)

theorem dtanaz_eq (lat dec H : ℝ) (hn : cos lat * sin dec - sin lat * cos dec * cos H ≠ 0) :
    dtanaz lat dec H = ((cos lat * sin dec - sin lat * cos dec * cos H) ^ 2 + (-cos dec * sin H) ^ 2) /
      (cos lat * sin dec - sin lat * cos dec * cos H) ^ 2 := by
  have h1 := cos_azRad lat dec H
  have h2 := sin_azRad lat dec H
  have hc : cos (altRad lat dec H) ≠ 0 := fun h => hn (by rw [← h1, h, zero_mul])
  have hz : cos (azRad lat dec H) ≠ 0 := fun h => hn (by rw [← h1, h, mul_zero])
  unfold dtanaz
  rw [tan_eq_sin_div_cos, ← h1, ← h2]
  field_simp

/-- The two azimuth coefficients are the derivatives of the azimuth (away from the meridian and the prime vertical, where the formula divides
by 0 or the azimuth jumps). -/
theorem az_coefficients (lat dec H : ℝ) (he : -cos dec * sin H ≠ 0) (hn : cos lat * sin dec - sin lat * cos dec * cos H ≠ 0) :
    HasDerivAt (fun t => azRad lat dec t) (dazdH lat dec H) H ∧ HasDerivAt (fun t => azRad lat t H) (dazddec lat dec H) dec := by
  have hn' : cos H * cos dec * sin lat - cos lat * sin dec ≠ 0 := fun h => hn (by linarith)
  have hn2 : cos lat * sin dec - cos H * cos dec * sin lat ≠ 0 := fun h => hn (by linarith)
  have hq : (cos lat * sin dec - sin lat * cos dec * cos H) ^ 2 + (-cos dec * sin H) ^ 2 ≠ 0 := by positivity
  constructor
  · have hx : HasDerivAt (fun t => cos lat * sin dec - sin lat * cos dec * cos t) (-(sin lat * cos dec * -sin H)) H :=
      ((hasDerivAt_cos H).const_mul _).const_sub _
    have hy : HasDerivAt (fun t => -cos dec * sin t) (-cos dec * cos H) H := (hasDerivAt_sin H).const_mul _
    have := hasDerivAt_arctan2 _ _ _ _ H hx hy he
    refine HasDerivAt.congr_deriv (f := fun t => azRad lat dec t) this ?_
    unfold dazdH
    rw [dtanaz_eq lat dec H hn]
    rw [show cos H * cos dec * sin lat - cos lat * sin dec = -(cos lat * sin dec - sin lat * cos dec * cos H) by ring]
    generalize hN : cos lat * sin dec - sin lat * cos dec * cos H = N at *
    field_simp
    ring
  · have hx : HasDerivAt (fun t => cos lat * sin t - sin lat * cos t * cos H) (cos lat * cos dec - sin lat * -sin dec * cos H) dec :=
      ((hasDerivAt_sin dec).const_mul _).sub (((hasDerivAt_cos dec).const_mul _).mul_const _)
    have hy : HasDerivAt (fun t => -cos t * sin H) (-(-sin dec) * sin H) dec := ((hasDerivAt_cos dec).neg).mul_const _
    have := hasDerivAt_arctan2 _ _ _ _ dec hx hy he
    refine HasDerivAt.congr_deriv (f := fun t => azRad lat t H) this ?_
    unfold dazddec
    rw [dtanaz_eq lat dec H hn]
    rw [show cos H * cos dec * sin lat - cos lat * sin dec = -(cos lat * sin dec - sin lat * cos dec * cos H) by ring,
      show cos lat * sin dec - cos H * cos dec * sin lat = cos lat * sin dec - sin lat * cos dec * cos H by ring]
    generalize hN : cos lat * sin dec - sin lat * cos dec * cos H = N at *
    field_simp
    ring

/-- The errors handed out are those of the other coordinate: the field called altitude error holds the azimuth error and the other way round,
for every position that has an error. -/
theorem errors_swapped (latDeg : ℝ) (p : EqPos) (lst : ℝ) (h : p.raerr.isSome ∨ p.decerr.isSome) :
    (toHorizontal latDeg p lst).alterr = some (degrees (quadrature (dazdH (radians latDeg) p.dec (hourAngle lst p.ra))
      (dazddec (radians latDeg) p.dec (hourAngle lst p.ra)) (p.raerr.getD 0) (p.decerr.getD 0))) ∧
    (toHorizontal latDeg p lst).azerr = some (degrees (quadrature (daltdH (radians latDeg) p.dec (hourAngle lst p.ra))
      (daltddec (radians latDeg) p.dec (hourAngle lst p.ra)) (p.raerr.getD 0) (p.decerr.getD 0))) := by
  unfold toHorizontal
  simp only
  rw [if_pos (by rcases h with h | h <;> simp [h])]
  exact ⟨rfl, rfl⟩

/-- A case: at transit at the equator, an error in right ascension alone leaves the altitude unchanged to first order, but the whole error is
reported for the altitude and 0 for the azimuth (which is what changes). -/
theorem errors_counterexample (r : ℝ) :
    HasDerivAt (fun t => altRad (radians 0) (π / 4) t) 0 (hourAngle 0 0) ∧
    (toHorizontal 0 ⟨0, π / 4, some r, none⟩ 0).alterr = some (degrees |r|) ∧
    (toHorizontal 0 ⟨0, π / 4, some r, none⟩ 0).azerr = some 0 := by
  have hH : hourAngle 0 0 = 0 := by unfold hourAngle; simp
  have hr : radians 0 = 0 := by unfold radians; simp
  have hs4 : sin (π / 4) ≠ 0 := by rw [sin_pi_div_four]; positivity
  have hsc : cos (π / 4) = sin (π / 4) := by rw [sin_pi_div_four, cos_pi_div_four]
  have halt : altRad 0 (π / 4) 0 = π / 4 := by
    unfold altRad
    rw [sin_zero, cos_zero, hsc, zero_mul, one_mul, mul_one, zero_add, arcsin_sin (by linarith [pi_pos]) (by linarith [pi_pos])]
  have hdH : daltdH 0 (π / 4) 0 = 0 := by unfold daltdH; simp
  have hn : cos 0 * sin (π / 4) - sin 0 * cos (π / 4) * cos 0 ≠ 0 := by simpa using hs4
  have hdz : dazdH 0 (π / 4) 0 = -1 := by
    unfold dazdH
    rw [dtanaz_eq _ _ _ hn]
    simp only [cos_zero, sin_zero, hsc]
    field_simp
    norm_num
  obtain ⟨e1, e2⟩ := errors_swapped 0 ⟨0, π / 4, some r, none⟩ 0 (Or.inl rfl)
  simp only [hH, hr, hdH, hdz, Option.getD_some, Option.getD_none, quadrature] at e1 e2
  refine ⟨?_, ?_, ?_⟩
  · rw [hH, hr]
    have := (alt_coefficients 0 (π / 4) 0 (by rw [halt, hsc]; exact hs4)).1
    rwa [hdH] at this
  · rw [e1]
    congr 2
    rw [mul_zero, zero_pow two_ne_zero, add_zero, sqrt_sq_eq_abs]
    simp
  · rw [e2]
    simp [degrees]

/-- Without errors there are none in the result. -/
theorem no_errors (latDeg : ℝ) (p : EqPos) (lst : ℝ) (h1 : p.raerr = none) (h2 : p.decerr = none) :
    (toHorizontal latDeg p lst).alterr = none ∧ (toHorizontal latDeg p lst).azerr = none := by
  unfold toHorizontal
  simp [h1, h2, Horiz.init]

/-- A sequence of sidereal times gives the positions one by one. -/
theorem list_each (latDeg : ℝ) (p : EqPos) (lsts : List ℝ) :
    toHorizontalList latDeg p lsts = lsts.map (fun t => toHorizontal latDeg p t) := rfl

end Verif.SiteHorizon
