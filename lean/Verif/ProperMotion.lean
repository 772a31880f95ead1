import Verif.EphemObj

/-!
# Objects with proper motion (astropysics/coords/ephems.py 286-394) (C110)

Over the reals.  The class of the output coordinates (and what it does with a declination beyond 90 degrees) is not modelled: the result is the
triple of numbers and the epoch given to it.
-/

namespace Verif.ProperMotion

open Real

/-! ## Model -/

/-- constants.py 141, 143, 149. -/
def secperyr : ℝ := 365.25 * 86400
def cmperpc : ℝ := 3.08568025e18
def asecperrad : ℝ := 206264.8062470963551564734

/-- `math.degrees`, `math.radians`. -/
noncomputable def degrees (x : ℝ) : ℝ := x * (180 / π)
noncomputable def radians (x : ℝ) : ℝ := x * (π / 180)

/-- `epoch_to_jd`, `jd_to_epoch` for numbers, obstools.py 501, 561. -/
noncomputable def epochToJd (e : ℝ) : ℝ := (e - 2000) * 365.25 + 2451545
noncomputable def jdToEpoch (jd : ℝ) : ℝ := 2000 + (jd - 2451545) / 365.25

/-- The attributes of a `ProperMotionObject`, ephems.py 313-333. -/
structure PM where
  ra0 : ℝ
  dec0 : ℝ
  dra : ℝ
  ddec : ℝ
  epoch0 : ℝ
  jd0 : ℝ
  dist0 : Option ℝ
  rv : ℝ
  jd : ℝ
  dyr : ℝ

/-- `_jdhook`, ephems.py 382-383, and the assignment of the date. -/
noncomputable def PM.setJd (p : PM) (jd : ℝ) : PM := { p with jd := jd, dyr := (jd - p.jd0) / 365.25 }

/-- The constructor, ephems.py 291-333: the date is first J2000, then the starting epoch. -/
noncomputable def create (ra0 dec0 dra ddec epoch0 : ℝ) (dist0 : Option ℝ) (rv : ℝ) : PM :=
  let jd0 := epochToJd epoch0
  let p : PM := ⟨ra0, dec0, dra, ddec, epoch0, jd0, dist0, rv, 2451545, (2451545 - jd0) / 365.25⟩
  p.setJd jd0

/-- `drastar` and its setter, ephems.py 335-350. -/
noncomputable def PM.drastar (p : PM) : ℝ := p.dra * cos (radians p.dec0)
noncomputable def PM.setDrastar (p : PM) (v : ℝ) : PM := { p with dra := v / cos (radians p.dec0) }

/-- `ra`, `dec`, `distancepc`, ephems.py 353-380. -/
noncomputable def PM.ra (p : PM) : ℝ := p.ra0 + degrees (p.dyr * p.dra / asecperrad)
noncomputable def PM.dec (p : PM) : ℝ := p.dec0 + degrees (p.dyr * p.ddec / asecperrad)
noncomputable def PM.dist (p : PM) : Option ℝ := p.dist0.map fun d => d + p.dyr * p.rv * secperyr * 1e5 / cmperpc

/-- What the coordinates are made of, ephems.py 385-393. -/
structure Result where
  ra : ℝ
  dec : ℝ
  dist : Option ℝ
  epoch : ℝ

noncomputable def PM.coords (p : PM) : Result := ⟨p.ra, p.dec, p.dist, jdToEpoch p.jd⟩

/-- Assignments to the public attributes. -/
inductive Op where
  | jd (x : ℝ) | ra0 (x : ℝ) | dec0 (x : ℝ) | dra (x : ℝ) | ddec (x : ℝ) | rv (x : ℝ) | dist0 (d : Option ℝ) | epoch0 (x : ℝ) | drastar (x : ℝ)

noncomputable def PM.step (p : PM) : Op → PM
  | .jd x => p.setJd x
  | .ra0 x => { p with ra0 := x }
  | .dec0 x => { p with dec0 := x }
  | .dra x => { p with dra := x }
  | .ddec x => { p with ddec := x }
  | .rv x => { p with rv := x }
  | .dist0 d => { p with dist0 := d }
  | .epoch0 x => { p with epoch0 := x }
  | .drastar x => p.setDrastar x

/-- The object is in the state an epoch of reference `e0` and a date give. -/
def PM.Good (p : PM) (e0 : ℝ) : Prop := p.jd0 = epochToJd e0 ∧ p.dyr = (p.jd - p.jd0) / 365.25

/-! ## Theorems -/

/-- Degrees per arcsecond: the constant is right to 1e-17 relative. -/
theorem arcsec (x : ℝ) : |degrees (x / asecperrad) - x / 3600| ≤ |x| / 3600 * 1e-17 := by
  have h1 := pi_gt_d20
  have h2 := pi_lt_d20
  have hp := pi_pos
  have hd : degrees (x / asecperrad) - x / 3600 = x / 3600 * (648000 / (asecperrad * π) - 1) := by
    unfold degrees asecperrad
    field_simp
    ring
  rw [hd, abs_mul, abs_div, abs_of_pos (by norm_num : (0 : ℝ) < 3600)]
  apply mul_le_mul_of_nonneg_left _ (by positivity)
  have hpos : 0 < asecperrad * π := mul_pos (by unfold asecperrad; norm_num) hp
  rw [abs_le]
  constructor
  · have : (1 - 1e-17 : ℝ) ≤ 648000 / (asecperrad * π) := by
      rw [le_div_iff₀ hpos]; unfold asecperrad; norm_num at h2 ⊢; nlinarith
    linarith
  · have : 648000 / (asecperrad * π) ≤ (1 + 1e-17 : ℝ) := by
      rw [div_le_iff₀ hpos]; unfold asecperrad; norm_num at h1 ⊢; nlinarith
    linarith

/-- Whatever is assigned, in any order, the elapsed years belong to the date and to the epoch given to the constructor. -/
theorem history (ra0 dec0 dra ddec e0 : ℝ) (d : Option ℝ) (rv : ℝ) (ops : List Op) :
    (ops.foldl PM.step (create ra0 dec0 dra ddec e0 d rv)).Good e0 := by
  have h : ∀ (ops : List Op) (p : PM), p.Good e0 → (ops.foldl PM.step p).Good e0 := by
    intro ops
    induction ops with
    | nil => exact fun p h => h
    | cons op ops ih =>
      intro p hp
      apply ih
      cases op <;> first | exact hp | exact ⟨hp.1, rfl⟩
  exact h ops _ ⟨rfl, rfl⟩

/-- A new object is at its starting position and epoch. -/
theorem create_position (ra0 dec0 dra ddec e0 : ℝ) (d : Option ℝ) (rv : ℝ) :
    (create ra0 dec0 dra ddec e0 d rv).coords = ⟨ra0, dec0, d, e0⟩ := by
  have he : jdToEpoch (epochToJd e0) = e0 := by unfold jdToEpoch epochToJd; norm_num
  cases d <;> simp [create, PM.setJd, PM.coords, PM.ra, PM.dec, PM.dist, degrees, he]

/-- The position at the epoch `e0 + y`: proper motion times years in RA and declination (arcseconds per year into degrees, to 1e-17), and the
radial velocity times years in distance; the coordinates carry the epoch of the date. -/
theorem position (p : PM) (e0 y : ℝ) (h : p.Good e0) :
    let q := (p.setJd (epochToJd (e0 + y))).coords
    |q.ra - (p.ra0 + y * p.dra / 3600)| ≤ |y * p.dra| / 3600 * 1e-17 ∧ |q.dec - (p.dec0 + y * p.ddec / 3600)| ≤ |y * p.ddec| / 3600 * 1e-17 ∧
    q.epoch = e0 + y ∧ (p.dist0 = none → q.dist = none) ∧
    (∀ d0, p.dist0 = some d0 → ∃ d, q.dist = some d ∧ (d - d0) * cmperpc = (p.rv * 1e5) * (y * secperyr)) := by
  intro q
  have hy : (p.setJd (epochToJd (e0 + y))).dyr = y := by
    simp only [PM.setJd, h.1, epochToJd]; ring
  refine ⟨?_, ?_, ?_, fun hd => ?_, fun d0 hd => ⟨d0 + y * p.rv * secperyr * 1e5 / cmperpc, ?_, ?_⟩⟩
  · have := arcsec (y * p.dra)
    have e : q.ra - (p.ra0 + y * p.dra / 3600) = degrees (y * p.dra / asecperrad) - y * p.dra / 3600 := by
      simp only [q, PM.coords, PM.ra, hy]; simp only [PM.setJd]; ring
    rw [e]; exact this
  · have := arcsec (y * p.ddec)
    have e : q.dec - (p.dec0 + y * p.ddec / 3600) = degrees (y * p.ddec / asecperrad) - y * p.ddec / 3600 := by
      simp only [q, PM.coords, PM.dec, hy]; simp only [PM.setJd]; ring
    rw [e]; exact this
  · simp only [q, PM.coords, PM.setJd, jdToEpoch, epochToJd]; ring
  · simp [q, PM.coords, PM.dist, PM.setJd, hd]
  · simp only [q, PM.coords, PM.dist, hy]
    simp only [PM.setJd, hd, Option.map_some]
  · have : cmperpc ≠ 0 := by unfold cmperpc; norm_num
    field_simp
    ring

/-- Positions depend on the date only: going to another date and back changes nothing. -/
theorem date_roundtrip (p : PM) (e0 jd : ℝ) (h : p.Good e0) : (p.setJd jd).setJd p.jd = p := by
  obtain ⟨_, h2⟩ := h
  cases p
  simp only [PM.setJd] at h2 ⊢
  rw [h2]

/-- `drastar` is the proper motion in RA times cos(dec0); away from the poles setting it and reading it back gives the same number. -/
theorem drastar_roundtrip (p : PM) (v : ℝ) (h : cos (radians p.dec0) ≠ 0) :
    (p.setDrastar v).drastar = v ∧ (p.setDrastar v).dra * cos (radians p.dec0) = v ∧ p.setDrastar p.drastar = p := by
  refine ⟨?_, ?_, ?_⟩
  · simp only [PM.setDrastar, PM.drastar]; exact div_mul_cancel₀ v h
  · simp only [PM.setDrastar]; exact div_mul_cancel₀ v h
  · cases p; simp only [PM.setDrastar, PM.drastar] at h ⊢; rw [mul_div_cancel_right₀ _ h]

/-- Declinations strictly between the poles satisfy the condition. -/
theorem cos_dec_ne_zero (d : ℝ) (h1 : -90 < d) (h2 : d < 90) : cos (radians d) ≠ 0 := by
  apply ne_of_gt
  have hp := pi_pos
  apply cos_pos_of_mem_Ioo
  unfold radians
  constructor <;> nlinarith

/-- Assigning `epoch0` afterwards changes the attribute but neither the elapsed time nor any position, now or at later dates. -/
theorem epoch0_ignored (p : PM) (x jd : ℝ) :
    (p.step (.epoch0 x)).coords = p.coords ∧ ((p.step (.epoch0 x)).setJd jd).coords = (p.setJd jd).coords := ⟨rfl, rfl⟩

/-- So an object whose epoch is corrected to 1950 is not at its starting position in 1950. -/
theorem epoch0_counterexample : ∃ p : PM, p.Good 2000 ∧
    ((p.step (.epoch0 1950)).setJd (epochToJd 1950)).ra ≠ (p.step (.epoch0 1950)).ra0 := by
  refine ⟨create 10 20 1 0 2000 none 0, ⟨rfl, rfl⟩, ?_⟩
  have hp := pi_pos
  simp only [PM.step, PM.setJd, PM.ra, create, epochToJd, degrees, asecperrad]
  norm_num

/-- Without proper motion and radial velocity nothing moves. -/
theorem fixed (p : PM) (jd : ℝ) (h1 : p.dra = 0) (h2 : p.ddec = 0) (h3 : p.rv = 0) :
    (p.setJd jd).ra = p.ra0 ∧ (p.setJd jd).dec = p.dec0 ∧ (p.setJd jd).dist = p.dist0 := by
  refine ⟨?_, ?_, ?_⟩
  · simp [PM.ra, PM.setJd, h1, degrees]
  · simp [PM.dec, PM.setJd, h2, degrees]
  · cases hd : p.dist0 <;> simp [PM.dist, PM.setJd, hd, h3]

/-- Barnard's star: the conditions can be met. -/
noncomputable example : PM := create 269.45 4.69 (-0.8) 10.3 2000 (some 1.83) (-110)
example : (create 269.45 4.69 (-0.8) 10.3 2000 (some 1.83) (-110)).Good 2000 := ⟨rfl, rfl⟩

end Verif.ProperMotion
