import Mathlib.Analysis.SpecialFunctions.Complex.Arg
import Mathlib.Analysis.SpecialFunctions.Pow.Real
import Mathlib.Analysis.SpecialFunctions.Log.Base
import Mathlib.Tactic.Linarith
import Mathlib.Tactic.Ring
import Mathlib.Tactic.FieldSimp
import Mathlib.Tactic.Positivity
import Verif.Phot

/-!
# Photometry of images (astropysics/phot.py 1734-2420)

Point spread functions, isophotal ellipses, model photometry and the magnitudes of `PhotometryBase`.
-/

namespace Verif.PhotModel

open Real

inductive Err
  | value | attribute | recursion | notImplemented
deriving DecidableEq, Repr

/-! ## GaussianPointSpreadFunction, phot.py 1919-1948 -/

/-- `__fwhmtosig`, phot.py 1924. -/
noncomputable def fwhmToSig : ℝ := sqrt (8 * log 2)

/-- `fwhm` getter and setter, phot.py 1925-1929 (the state is `sigma`). -/
noncomputable def getFwhm (sigma : ℝ) : ℝ := fwhmToSig * sigma
noncomputable def setFwhm (val : ℝ) : ℝ := val / fwhmToSig

/-- `fit(arr2d)`, phot.py 1936-1946: sigma is the mean of the raw second moments along the two axes (`moments(arr2d,2)`). -/
noncomputable def rawMoment {m n : Nat} (arr : Fin m → Fin n → ℝ) (k : Nat) : ℝ × ℝ :=
  ((∑ i, ∑ j, arr i j * (i : ℝ) ^ k) / (∑ i, ∑ j, arr i j), (∑ i, ∑ j, arr i j * (j : ℝ) ^ k) / (∑ i, ∑ j, arr i j))
noncomputable def psfFit {m n : Nat} (arr : Fin m → Fin n → ℝ) : ℝ := ((rawMoment arr 2).1 + (rawMoment arr 2).2) / 2

/-- The Gaussian with standard deviation `sigma` (what scipy's `gaussian_filter` convolves with). -/
noncomputable def gauss (sigma x : ℝ) : ℝ := exp (-(x ^ 2 / (2 * sigma ^ 2)))

theorem fwhmToSig_pos : 0 < fwhmToSig := by
  unfold fwhmToSig
  have : 0 < log 2 := log_pos (by norm_num)
  positivity

/-- **C122.** A FWHM that is set is read back, and the Gaussian with the sigma stored falls to half of its maximum at half of that width. -/
theorem fwhm_set (v : ℝ) (hv : 0 < v) : getFwhm (setFwhm v) = v ∧ gauss (setFwhm v) (v / 2) = gauss (setFwhm v) 0 / 2 ∧
    gauss (setFwhm v) (-(v / 2)) = gauss (setFwhm v) 0 / 2 := by
  have h := fwhmToSig_pos
  have hl : 0 < log 2 := log_pos (by norm_num)
  have hsq : fwhmToSig ^ 2 = 8 * log 2 := by unfold fwhmToSig; exact sq_sqrt (by positivity)
  have key : (v / 2) ^ 2 / (2 * (v / fwhmToSig) ^ 2) = log 2 := by
    rw [div_pow v fwhmToSig, hsq]
    field_simp
    ring
  refine ⟨by unfold getFwhm setFwhm; field_simp, ?_, ?_⟩
  · unfold gauss setFwhm
    rw [key]
    rw [exp_neg, exp_log (by norm_num)]
    simp
  · unfold gauss setFwhm
    rw [neg_sq, key]
    rw [exp_neg, exp_log (by norm_num)]
    simp

/-- A point source at the pixel (a,b). -/
def pointSource {m n : Nat} (a : Fin m) (b : Fin n) : Fin m → Fin n → ℝ := fun i j => if i = a ∧ j = b then 1 else 0

theorem sum_point {m n : Nat} (a : Fin m) (b : Fin n) (g : Fin m → Fin n → ℝ) :
    ∑ i, ∑ j, pointSource a b i j * g i j = g a b := by
  rw [Finset.sum_eq_single a]
  · rw [Finset.sum_eq_single b]
    · simp [pointSource]
    · intro j _ hj; simp [pointSource, hj]
    · intro h; exact absurd (Finset.mem_univ _) h
  · intro i _ hi
    refine Finset.sum_eq_zero ?_
    intro j _
    simp [pointSource, hi]
  · intro h; exact absurd (Finset.mem_univ _) h

/-- **C122, limit.** The width fitted is no width: for a point source it depends on the position of the source, `(a²+b²)/2` instead of 0. -/
theorem psf_fit_position {m n : Nat} (a : Fin m) (b : Fin n) : psfFit (pointSource a b) = ((a : ℝ) ^ 2 + (b : ℝ) ^ 2) / 2 := by
  have h0 : ∑ i, ∑ j, pointSource a b i j = 1 := by
    have := sum_point a b (fun _ _ => 1)
    simpa using this
  unfold psfFit rawMoment
  rw [h0, sum_point a b (fun i _ => (i : ℝ) ^ 2), sum_point a b (fun _ j => (j : ℝ) ^ 2)]
  simp

/-! ## PhotometryBase, phot.py 1734-1822 -/

/-- `zeropoint`, phot.py 1790-1799: the own one, else that of the image, else 0. -/
noncomputable def zeropoint (own image : Option ℝ) : ℝ := own.getD (image.getD 0)
/-- `_fluxToMag` and `_magToFlux`, phot.py 1780-1787. -/
noncomputable def fluxToMag (zpt flux : ℝ) : ℝ := Phot.fluxToMag flux + zpt
noncomputable def magToFlux (zpt mag : ℝ) : ℝ := Phot.magToFlux (mag - zpt)
/-- `totalmag`, phot.py 1817-1819: the conversion in the wrong direction. -/
noncomputable def totalmag (zpt totalflux : ℝ) : ℝ := magToFlux zpt totalflux

/-- **C122.** The two conversions are inverse to each other for every zero point. -/
theorem mag_flux_inverse (zpt flux mag : ℝ) (hf : 0 < flux) :
    magToFlux zpt (fluxToMag zpt flux) = flux ∧ fluxToMag zpt (magToFlux zpt mag) = mag := by
  have ha : Phot.a ≠ 0 := by
    unfold Phot.a
    have : (0 : ℝ) < log 10 := log_pos (by norm_num)
    have h2 : (-2.5 : ℝ) / log 10 < 0 := div_neg_of_neg_of_pos (by norm_num) this
    exact ne_of_lt h2
  constructor
  · unfold magToFlux fluxToMag Phot.magToFlux Phot.fluxToMag
    rw [add_sub_cancel_right, mul_div_cancel_left₀ _ ha, exp_log hf]
  · unfold magToFlux fluxToMag Phot.magToFlux Phot.fluxToMag
    rw [log_exp, mul_div_cancel₀ _ ha]
    ring

/-- **C122, limit.** `totalmag` is not the magnitude of the total flux: a total flux 1 with zero point 0 has magnitude 0, and a positive number is
returned; a larger flux gives a smaller positive number, never a negative one. -/
theorem totalmag_wrong : fluxToMag 0 1 = 0 ∧ 0 < totalmag 0 1 ∧ ∀ zpt f, 0 < totalmag zpt f := by
  refine ⟨by simp [fluxToMag, Phot.fluxToMag], exp_pos _, fun zpt f => exp_pos _⟩

/-! ## IsophotalEllipse, phot.py 2137-2340 -/

/-- `_th2r`, phot.py 2205-2209. -/
noncomputable def th2r (a b phi th : ℝ) : ℝ :=
  a * b * (a * sin (th - phi) * (a * sin (th - phi)) + b * cos (th - phi) * (b * cos (th - phi))) ^ (-(1 / 2) : ℝ)

/-- One point of `cartesian`, phot.py 2211-2218. -/
noncomputable def point (a b phi x0 y0 th : ℝ) : ℝ × ℝ :=
  (th2r a b phi th * cos th + x0, th2r a b phi th * sin th + y0)

/-- The point (x,y) is on the ellipse with centre (x0,y0), half axes `a` along the direction `phi` and `b` across it. -/
def OnEllipse (a b phi x0 y0 x y : ℝ) : Prop :=
  (((x - x0) * cos phi + (y - y0) * sin phi) / a) ^ 2 + ((-(x - x0) * sin phi + (y - y0) * cos phi) / b) ^ 2 = 1

theorem th2r_pos_sq (a b phi th : ℝ) (ha : 0 < a) (hb : 0 < b) :
    0 < th2r a b phi th ∧
    th2r a b phi th ^ 2 * ((a * sin (th - phi)) ^ 2 + (b * cos (th - phi)) ^ 2) = (a * b) ^ 2 := by
  have hq : 0 < a * sin (th - phi) * (a * sin (th - phi)) + b * cos (th - phi) * (b * cos (th - phi)) := by
    by_cases h : sin (th - phi) = 0
    · have hc : cos (th - phi) ≠ 0 := by
        intro hc
        have := sin_sq_add_cos_sq (th - phi)
        rw [h, hc] at this
        norm_num at this
      have : 0 < b * cos (th - phi) * (b * cos (th - phi)) := by
        have := mul_pos hb hb
        have h2 : 0 < cos (th - phi) * cos (th - phi) := mul_self_pos.2 hc
        nlinarith
      rw [h]; simpa using this
    · have h2 : 0 < sin (th - phi) * sin (th - phi) := mul_self_pos.2 h
      have : 0 < a * sin (th - phi) * (a * sin (th - phi)) := by
        have := mul_pos ha ha
        nlinarith
      have h3 : 0 ≤ b * cos (th - phi) * (b * cos (th - phi)) := mul_self_nonneg _
      linarith
  unfold th2r
  set q := a * sin (th - phi) * (a * sin (th - phi)) + b * cos (th - phi) * (b * cos (th - phi)) with hqd
  refine ⟨mul_pos (mul_pos ha hb) (rpow_pos_of_pos hq _), ?_⟩
  have h1 : (q ^ (-(1 / 2) : ℝ)) ^ 2 = q⁻¹ := by
    rw [← rpow_natCast, ← rpow_mul hq.le]
    norm_num
    exact rpow_neg_one q
  have h2 : (a * sin (th - phi)) ^ 2 + (b * cos (th - phi)) ^ 2 = q := by rw [hqd]; ring
  rw [h2, mul_pow, h1]
  field_simp

/-- **C122.** The points of `cartesian` are on the ellipse with the half axes, rotation and centre of the object. -/
theorem points_on_ellipse (a b phi x0 y0 th : ℝ) (ha : 0 < a) (hb : 0 < b) :
    OnEllipse a b phi x0 y0 (point a b phi x0 y0 th).1 (point a b phi x0 y0 th).2 := by
  obtain ⟨-, h⟩ := th2r_pos_sq a b phi th ha hb
  unfold OnEllipse point
  set r := th2r a b phi th
  have e1 : (r * cos th + x0 - x0) * cos phi + (r * sin th + y0 - y0) * sin phi = r * cos (th - phi) := by
    rw [cos_sub]; ring
  have e2 : -(r * cos th + x0 - x0) * sin phi + (r * sin th + y0 - y0) * cos phi = r * sin (th - phi) := by
    rw [sin_sub]; ring
  simp only [e1, e2]
  rw [div_pow, div_pow, div_add_div _ _ (by positivity) (by positivity), div_eq_one_iff_eq (by positivity)]
  linear_combination h

/-- **C122.** And every point of that ellipse is drawn: it is the point at its own position angle. -/
theorem ellipse_complete (a b phi x0 y0 x y : ℝ) (ha : 0 < a) (hb : 0 < b) (h : OnEllipse a b phi x0 y0 x y) :
    ∃ th ∈ Set.Ioc (-π) π, point a b phi x0 y0 th = (x, y) := by
  set z : ℂ := ⟨x - x0, y - y0⟩ with hz
  have hre : ‖z‖ * cos z.arg = x - x0 := by
    have := Complex.norm_mul_cos_arg z
    rw [this]
  have him : ‖z‖ * sin z.arg = y - y0 := by
    have := Complex.norm_mul_sin_arg z
    rw [this]
  refine ⟨z.arg, ⟨Complex.neg_pi_lt_arg z, Complex.arg_le_pi z⟩, ?_⟩
  obtain ⟨hp, hs⟩ := th2r_pos_sq a b phi z.arg ha hb
  set r := th2r a b phi z.arg with hr
  set ρ := ‖z‖ with hρ
  have hρ0 : 0 ≤ ρ := norm_nonneg z
  have hrho : ρ ^ 2 * ((a * sin (z.arg - phi)) ^ 2 + (b * cos (z.arg - phi)) ^ 2) = (a * b) ^ 2 := by
    unfold OnEllipse at h
    have e1 : (x - x0) * cos phi + (y - y0) * sin phi = ρ * cos (z.arg - phi) := by
      rw [cos_sub, ← hre, ← him]; ring
    have e2 : -(x - x0) * sin phi + (y - y0) * cos phi = ρ * sin (z.arg - phi) := by
      rw [sin_sub, ← hre, ← him]; ring
    rw [e1, e2, div_pow, div_pow, div_add_div _ _ (by positivity) (by positivity), div_eq_one_iff_eq (by positivity)] at h
    linear_combination h
  have hq : 0 < (a * sin (z.arg - phi)) ^ 2 + (b * cos (z.arg - phi)) ^ 2 := by
    by_contra hc
    have h0 : (a * sin (z.arg - phi)) ^ 2 + (b * cos (z.arg - phi)) ^ 2 = 0 :=
      le_antisymm (not_lt.1 hc) (by positivity)
    rw [h0, mul_zero] at hs
    have : 0 < (a * b) ^ 2 := by positivity
    linarith
  have hsq : r ^ 2 = ρ ^ 2 := mul_right_cancel₀ hq.ne' (hs.trans hrho.symm)
  have hreq : r = ρ := by
    rcases sq_eq_sq_iff_eq_or_eq_neg.1 hsq with h1 | h1
    · exact h1
    · linarith
  unfold point
  rw [← hr, hreq, hre, him]
  simp

/-- A solution (a, b, phi) after the exchange of the axes, phot.py 2257-2259. -/
noncomputable def exchange (s : ℝ × ℝ × ℝ) : ℝ × ℝ × ℝ := if s.1 < s.2.1 then (s.2.1, s.1, s.2.2 + π / 2) else s

/-- **C122.** Exchanging the axes leaves the ellipse as it is, and the first axis is then the larger one. -/
theorem exchange_same (s : ℝ × ℝ × ℝ) (th : ℝ) :
    th2r (exchange s).1 (exchange s).2.1 (exchange s).2.2 th = th2r s.1 s.2.1 s.2.2 th ∧ (exchange s).2.1 ≤ (exchange s).1 := by
  obtain ⟨a, b, phi⟩ := s
  unfold exchange
  by_cases h : a < b
  · simp only [h, if_true]
    refine ⟨?_, h.le⟩
    unfold th2r
    rw [show th - (phi + π / 2) = th - phi - π / 2 by ring, sin_sub_pi_div_two, cos_sub_pi_div_two]
    congr 1
    · ring
    · congr 1
      ring
  · simp only [h, if_false]
    exact ⟨trivial, not_lt.1 h⟩

/-- `_fitEllipse`, phot.py 2220-2268, for the values (a, b, phi): `solve` is what leastsq makes of the starting values.  The reduction of the angle reads the
property `phi`, which, the fit not being marked as done, fits again (`fuel` is the recursion limit); the property has no setter. -/
noncomputable def fit (solve : ℝ × ℝ × ℝ → ℝ × ℝ × ℝ) : Nat → ℝ × ℝ × ℝ → Except Err (ℝ × ℝ × ℝ)
  | 0, _ => .error .recursion
  | n + 1, start =>
    let s := exchange (solve start)
    if s.2.2 ≥ 2 * π then
      match fit solve n s with
      | .error e => .error e
      | .ok _ => .error .attribute
    else if s.2.2 < 0 then
      match fit solve n s with
      | .error e => .error e
      | .ok t => .ok (t.1, t.2.1, s.2.2 + 2 * π * (⌊-t.2.2 / 2 / π⌋ : ℝ))
    else .ok s

/-- **C122.** A solution with an angle between 0 and a full turn is stored, with the larger axis first. -/
theorem fit_ok (solve : ℝ × ℝ × ℝ → ℝ × ℝ × ℝ) (n : Nat) (start : ℝ × ℝ × ℝ) (h0 : 0 ≤ (exchange (solve start)).2.2)
    (h1 : (exchange (solve start)).2.2 < 2 * π) : fit solve (n + 1) start = .ok (exchange (solve start)) := by
  simp only [fit]
  rw [if_neg (not_le.2 h1), if_neg (not_lt.2 h0)]

/-- **C122, limit.** The angle is never reduced: if the solution is stable (fitting again from it gives it again) and its angle is negative or a full turn
or more, the fit fails, whatever the recursion limit is. -/
theorem fit_angle_fails (solve : ℝ × ℝ × ℝ → ℝ × ℝ × ℝ) (s : ℝ × ℝ × ℝ) (hs : exchange (solve s) = s)
    (hbad : s.2.2 < 0 ∨ 2 * π ≤ s.2.2) (n : Nat) : fit solve n s = .error .recursion := by
  induction n with
  | zero => rfl
  | succ n ih =>
    simp only [fit, hs]
    rcases hbad with h | h
    · have hp := pi_pos
      rw [if_neg (by linarith), if_pos h, ih]
    · rw [if_pos h, ih]

/-- `e`, phot.py 2286-2292; not a number for a negative radicand. -/
noncomputable def eccentricity (a b : ℝ) : Option ℝ := if 1 - a / b * (a / b) < 0 then none else some (sqrt (1 - a / b * (a / b)))

/-- **C122, limit.** The eccentricity of every fitted ellipse that is not a circle is not a number. -/
theorem eccentricity_nan (a b : ℝ) (hb : 0 < b) (hab : b < a) : eccentricity a b = none := by
  unfold eccentricity
  have h1 : 1 < a / b := (one_lt_div hb).2 hab
  rw [if_pos (by nlinarith)]

/-- The constructor, phot.py 2143-2147: the level is set only if none is given. -/
noncomputable def newLevel (mean : ℝ) (given : Option ℝ) : Option ℝ := match given with
  | none => some mean
  | some _ => none

/-- `getDiff(fractional)` at a pixel with the value `v`, phot.py 2270-2282 (a missing level is an `AttributeError`). -/
noncomputable def getDiff (level : Option ℝ) (fractional : Bool) (v : ℝ) : Except Err ℝ := match level with
  | none => .error .attribute
  | some l => .ok (if fractional then v - l else 1 - l / v)

/-- **C122, limit.** A level given to the constructor is not kept, and the two kinds of difference are exchanged. -/
theorem level_lost (mean l v : ℝ) (f : Bool) :
    getDiff (newLevel mean (some l)) f v = .error .attribute ∧ getDiff (newLevel mean none) true v = .ok (v - mean) ∧
    getDiff (newLevel mean none) false v = .ok (1 - mean / v) := ⟨rfl, rfl, rfl⟩

/-! ## ModelPhotometry, phot.py 2342-2400 -/

/-- `normparam`: None, a text or a sequence of texts. -/
inductive Norm
  | none
  | text (s : String)
  | seq (l : List String)

/-- The model: its parameters, and its total flux (`integrateCircular(inf)`) as a function of them. -/
structure Model where
  params : List String
  value : String → ℝ
  flux : (String → ℝ) → ℝ

/-- What iterating over `self.normparam` gives (the characters, for a text). -/
def Norm.elems : Norm → List String
  | .none => []
  | .text s => s.toList.map Char.toString
  | .seq l => l

/-- The name of the normalisation parameter, phot.py 2370-2380. -/
def findNorm (m : Model) (np : Norm) : Except Err String := match np with
  | .none => .error .notImplemented
  | np => match np.elems.filter (fun p => m.params.contains p) with
    | [p] => .ok p
    | _ => .error .value

/-- Setting one parameter. -/
def setParam (m : Model) (p : String) (v : ℝ) : Model := { m with value := fun q => if q = p then v else m.value q }

/-- `totalflux`, phot.py 2367-2384. -/
noncomputable def getTotal (m : Model) : ℝ := m.flux m.value
noncomputable def setTotal (np : Norm) (m : Model) (val : ℝ) : Except Err Model := match findNorm m np with
  | .error e => .error e
  | .ok p => .ok (setParam m p (m.value p * val / getTotal m))

/-- `totalmag`, phot.py 2386-2391. -/
noncomputable def getMag (zpt : ℝ) (m : Model) : ℝ := zpt - 2.5 * (log (getTotal m) / log 10)
noncomputable def setMag (np : Norm) (zpt : ℝ) (m : Model) (val : ℝ) : Except Err Model :=
  setTotal np m ((10 : ℝ) ^ ((val - zpt) / -2.5))

/-- The parameter `p` sets the overall scaling: the flux is proportional to it. -/
def Scales (m : Model) (p : String) : Prop :=
  ∀ v c, m.flux (fun q => if q = p then c * v p else v q) = c * m.flux v

/-- **C122.** A total flux that is set is the total flux of the model, and no other parameter has changed. -/
theorem totalflux_set (np : Norm) (m t : Model) (val : ℝ) (h : setTotal np m val = .ok t)
    (hs : ∀ p, findNorm m np = .ok p → Scales m p) (h0 : getTotal m ≠ 0) :
    getTotal t = val ∧ ∃ p, findNorm m np = .ok p ∧ ∀ q, q ≠ p → t.value q = m.value q := by
  unfold setTotal at h
  cases hp : findNorm m np with
  | error e => rw [hp] at h; cases h
  | ok p =>
    rw [hp] at h
    cases h
    refine ⟨?_, p, rfl, fun q hq => by simp [setParam, hq]⟩
    have := hs p hp m.value (val / getTotal m)
    have e : (fun q => if q = p then m.value p * val / getTotal m else m.value q) =
        fun q => if q = p then val / getTotal m * m.value p else m.value q := by
      funext q
      split
      · ring
      · rfl
    show m.flux (fun q => if q = p then m.value p * val / getTotal m else m.value q) = val
    rw [e, this]
    show val / getTotal m * getTotal m = val
    field_simp

/-- **C122.** A total magnitude that is set is read back with the same zero point. -/
theorem totalmag_set (np : Norm) (zpt : ℝ) (m t : Model) (val : ℝ) (h : setMag np zpt m val = .ok t)
    (hs : ∀ p, findNorm m np = .ok p → Scales m p) (h0 : getTotal m ≠ 0) : getMag zpt t = val := by
  unfold getMag
  rw [(totalflux_set np m t _ h hs h0).1, log_rpow (by norm_num)]
  have : (log 10 : ℝ) ≠ 0 := (log_pos (by norm_num)).ne'
  field_simp
  ring

/-- A Gaussian model scales with its parameter A, so the hypotheses are met. -/
example : ∃ m : Model, findNorm m (.seq ["A", "Ae"]) = .ok "A" ∧ Scales m "A" ∧ getTotal m ≠ 0 := by
  refine ⟨⟨["A", "sig"], fun _ => 1, fun v => v "A" * (v "sig") ^ 2⟩, by decide, ?_, by simp [getTotal]⟩
  intro v c
  simp
  ring

/-- **C122, limit.** A single name given as a text works only if it is one character long: `"Ae"` is not found in a model with the parameter `Ae`. -/
theorem text_norm_broken : findNorm ⟨["Ae", "re", "n"], fun _ => 1, fun v => v "Ae"⟩ (.text "Ae") = .error .value ∧
    findNorm ⟨["Ae", "re", "n"], fun _ => 1, fun v => v "Ae"⟩ (.seq ["Ae"]) = .ok "Ae" := by
  constructor <;> decide

/-- Models with both or none of the names are refused. -/
theorem norm_unique (m : Model) (l : List String) (p : String) (h : findNorm m (.seq l) = .ok p) :
    p ∈ l ∧ p ∈ m.params ∧ ∀ q ∈ l, q ∈ m.params → q = p := by
  unfold findNorm at h
  simp only [Norm.elems] at h
  split at h
  · next hf =>
    cases h
    have hm : ∀ q, q ∈ l.filter (fun p => m.params.contains p) ↔ q = p := by rw [hf]; simp
    have hp := (List.mem_filter.1 ((hm p).2 rfl))
    refine ⟨hp.1, by simpa using hp.2, ?_⟩
    intro q hq hqp
    exact (hm q).1 (List.mem_filter.2 ⟨hq, by simpa using hqp⟩)
  · cases h

end Verif.PhotModel
