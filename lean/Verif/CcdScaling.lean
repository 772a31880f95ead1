import Verif.CcdImageClip
import Mathlib.Analysis.SpecialFunctions.Arsinh
import Mathlib.Analysis.SpecialFunctions.Log.Base
import Mathlib.Analysis.SpecialFunctions.Pow.Real

/-!
# Scalings of CCD images (astropysics/ccd.py 810-962) (C105)
-/

namespace Verif.Ccd

open Real

/-- `ExponentialScaling`, ccd.py 908-915. -/
noncomputable def expo : Scaling := ⟨"exp", exp, some log, false⟩

/-- `ASinhScaling`, ccd.py 917-924. -/
noncomputable def asinh : Scaling := ⟨"asinh", arsinh, some sinh, false⟩

/-- `PowerScaling`, ccd.py 926-935: the power is stored but not used. -/
def power (_p : ℝ) : Scaling := ⟨"power", fun x => x, some fun x => x, true⟩

/-- `SurfaceBrightnessScaling.offset`, ccd.py 940-949. -/
noncomputable def sbOffset (zpt sx sy : ℝ) : ℝ := 2.5 * logb 10 (sx * sy) - zpt

/-- The constructor of `SurfaceBrightnessScaling`, ccd.py 940-949, with the transforms 951-955; zeropoint and pixel scale may be unset. -/
noncomputable def surfaceBrightness (zpt : Option ℝ) (scale : Option (ℝ × ℝ)) : Except Err Scaling :=
  match zpt, scale with
  | none, _ => .error .value
  | some _, none => .error .value
  | some z, some (sx, sy) =>
    .ok ⟨"sb", fun x => sbOffset z sx sy - 2.5 * logb 10 x, some fun y => (10 : ℝ) ^ ((y - sbOffset z sx sy) / -2.5), false⟩

/-- A `LogScaling` object, ccd.py 858-885. -/
inductive LogCfg where
  | ranged (lower upper : Option ℝ) (max min : ℝ)
  | base (b : ℝ)

/-- `LogScaling.transform` of a pixel, ccd.py 887-898: with a base, `self._base` does not exist. -/
noncomputable def LogCfg.transform : LogCfg → ℝ → Except Err ℝ
  | .ranged lo up ma mi, x =>
    match lo, up with
    | some l, some u => .ok (log ((exp 1 - 1) * (x - mi) / ma + 1) * (u - l) + l)
    | _, _ => .error .type
  | .base _, _ => .error .attribute

/-- `LogScaling.invtransform` of a pixel, ccd.py 900-906: `self.lower()` calls a number. -/
noncomputable def LogCfg.invtransform : LogCfg → ℝ → Except Err ℝ
  | .ranged _ _ _ _, _ => .error .type
  | .base b, y => .ok (b ^ y)

/-- `LogScaling(img,lower,upper,base)`: the extremes of the whole unscaled image are taken, ccd.py 874-885. -/
noncomputable def logScaling (np : Np) (img : Img) (lower upper base : Option ℝ) : LogCfg :=
  match base with
  | none => .ranged lower upper (np.max img.base.pixels) (np.min img.base.pixels)
  | some b => .base b

/-! ## Theorems -/

/-- What the base class promises of a scaling on a set of values. -/
def Undoes (sc : Scaling) (dom : ℝ → Prop) : Prop := ∃ g, sc.inv = some g ∧ ∀ x, dom x → g (sc.tr x) = x

/-- ... and what writing data back needs. -/
def Redoes (sc : Scaling) (dom : ℝ → Prop) : Prop := ∃ g, sc.inv = some g ∧ ∀ y, dom y → sc.tr (g y) = y

/-- x = invtransform(transform(x)) holds for the linear, exponential, asinh and power scalings for every value ... -/
theorem scalings_undo : Undoes linear (fun _ => True) ∧ Undoes expo (fun _ => True) ∧ Undoes asinh (fun _ => True) ∧ ∀ p, Undoes (power p) (fun _ => True) :=
  ⟨⟨_, rfl, fun _ _ => rfl⟩, ⟨_, rfl, fun x _ => log_exp x⟩, ⟨_, rfl, fun x _ => sinh_arsinh x⟩, fun _ => ⟨_, rfl, fun _ _ => rfl⟩⟩

/-- ... and for surface brightnesses of positive values; the constructor demands zero point and pixel scale. -/
theorem surfaceBrightness_undoes (zpt : Option ℝ) (scale : Option (ℝ × ℝ)) :
    (∀ sc, surfaceBrightness zpt scale = .ok sc → Undoes sc (fun x => 0 < x) ∧ Redoes sc (fun _ => True)) ∧
    (surfaceBrightness zpt scale = .error .value ↔ zpt = none ∨ scale = none) := by
  constructor
  · intro sc h
    match zpt, scale with
    | none, _ => simp [surfaceBrightness] at h
    | some _, none => simp [surfaceBrightness] at h
    | some z, some (sx, sy) =>
      simp only [surfaceBrightness, Except.ok.injEq] at h
      subst h
      refine ⟨⟨_, rfl, fun x hx => ?_⟩, ⟨_, rfl, fun y _ => ?_⟩⟩
      · simp only
        have : (sbOffset z sx sy - 2.5 * logb 10 x - sbOffset z sx sy) / -2.5 = logb 10 x := by ring
        rw [this, rpow_logb (by norm_num) (by norm_num) hx]
      · simp only
        rw [logb_rpow (by norm_num) (by norm_num)]
        ring
  · match zpt, scale with
    | none, _ => simp [surfaceBrightness]
    | some _, none => simp [surfaceBrightness]
    | some z, some (sx, sy) => simp [surfaceBrightness]

/-- Five magnitudes are a factor 100 and fainter is larger, also for surface brightnesses. -/
theorem sb_magnitudes (z sx sy : ℝ) (sc : Scaling) (h : surfaceBrightness (some z) (some (sx, sy)) = .ok sc) (x : ℝ) (hx : 0 < x) :
    sc.tr (100 * x) = sc.tr x - 5 := by
  simp only [surfaceBrightness, Except.ok.injEq] at h
  subst h
  simp only
  rw [logb_mul (by norm_num) hx.ne']
  have : logb 10 (100 : ℝ) = 2 := by
    rw [show (100 : ℝ) = 10 ^ (2 : ℝ) by norm_num]
    exact logb_rpow (by norm_num) (by norm_num)
  rw [this]; ring

/-- A pixel of 1 on 1 square arcsecond has the surface brightness minus the zero point, not the zero point; a larger zero point makes
everything brighter. -/
theorem sb_zeropoint_sign (z : ℝ) : ∃ sc, surfaceBrightness (some z) (some (1, 1)) = .ok sc ∧ sc.tr 1 = -z :=
  ⟨_, rfl, by simp [sbOffset]⟩

/-- The values written back are read again unchanged: asinh always, exponential for positive data. -/
theorem scalings_redo : Redoes linear (fun _ => True) ∧ Redoes asinh (fun _ => True) ∧ Redoes expo (fun y => 0 < y) :=
  ⟨⟨_, rfl, fun _ _ => rfl⟩, ⟨_, rfl, fun y _ => arsinh_sinh y⟩, ⟨_, rfl, fun _ hy => exp_log hy⟩⟩

/-- Hence: on an image in memory with asinh scaling (or FITS image as a whole), whatever was done before, `applyChanges` followed by reading the
range again shows exactly the data as changed. -/
theorem asinh_roundtrip (m m' : Img) (hm : Reach m) (hs : m.scaling = asinh) (hk : m.kind = .array ∨ m.rng = none)
    (h : m.applyChanges.1.activateRange (toArg m.rng) = .ok m') : m'.data.same m.data :=
  apply_reread m m' sinh hm (by rw [hs]; rfl) hk (fun i j _ => by rw [hs]; exact arsinh_sinh _) h

/-- With the exponential scaling data made negative are not restored: -1 comes back as 1 (numpy: nan). -/
theorem expo_counterexample : ¬ Redoes expo (fun _ => True) := by
  rintro ⟨g, hg, h⟩
  have := h (-1) trivial
  have hp : 0 < expo.tr (g (-1)) := exp_pos _
  rw [this] at hp
  norm_num at hp

theorem proper_scalings : expo.Proper ∧ asinh.Proper ∧ ∀ p, (power p).Proper := by
  refine ⟨⟨fun h => by simp [expo] at h, fun h => by simp [expo] at h⟩, ⟨fun h => by simp [asinh] at h, fun h => by simp [asinh] at h⟩, fun p => ⟨?_, ?_⟩⟩
  · intro _; exact ⟨fun _ => rfl, _, rfl, fun _ => rfl⟩
  · intro h; simp [power] at h

/-- Power scaling changes nothing, whatever the power. -/
theorem power_identity (p x : ℝ) : (power p).tr x = x := rfl

/-- Logarithmic scaling to a range: the minimum of the image goes to `lower`; the maximum goes to `upper` only if the minimum is 0. -/
theorem log_range (l u ma mi : ℝ) (hma : 0 < ma) (hmi : mi ≤ ma) :
    (LogCfg.ranged (some l) (some u) ma mi).transform mi = .ok l ∧
    ((LogCfg.ranged (some l) (some u) ma mi).transform ma = .ok u ↔ mi = 0 ∨ u = l) := by
  constructor
  · simp [LogCfg.transform]
  · simp only [LogCfg.transform, Except.ok.injEq]
    have he : 0 < exp 1 - 1 := by have := add_one_lt_exp (x := 1) (by norm_num); linarith
    have hpos : 0 < (exp 1 - 1) * (ma - mi) / ma + 1 := by
      have : 0 ≤ (exp 1 - 1) * (ma - mi) / ma := div_nonneg (mul_nonneg he.le (by linarith)) hma.le
      linarith
    constructor
    · intro h
      have h1 : (log ((exp 1 - 1) * (ma - mi) / ma + 1) - 1) * (u - l) = 0 := by linarith
      rcases mul_eq_zero.1 h1 with h2 | h2
      · left
        have h3 : (exp 1 - 1) * (ma - mi) / ma + 1 = exp 1 := by
          rw [← exp_log hpos]; congr 1; linarith
        have h4 : (exp 1 - 1) * (ma - mi) / ma = exp 1 - 1 := by linarith
        rw [div_eq_iff hma.ne'] at h4
        have h5 := mul_left_cancel₀ he.ne' h4
        linarith
      · right; linarith
    · rintro (h | h)
      · have : (exp 1 - 1) * (ma - mi) / ma + 1 = exp 1 := by rw [h, sub_zero, mul_div_cancel_right₀ _ hma.ne']; ring
        rw [this, log_exp]; ring
      · rw [h]; ring

/-- Logarithmic scaling keeps the order of pixels of an image with positive maximum. -/
theorem log_monotone (l u ma mi x y a b : ℝ) (hma : 0 < ma) (hlu : l ≤ u) (hx : mi ≤ x) (hxy : x ≤ y)
    (ha : (LogCfg.ranged (some l) (some u) ma mi).transform x = .ok a) (hb : (LogCfg.ranged (some l) (some u) ma mi).transform y = .ok b) : l ≤ a ∧ a ≤ b := by
  simp only [LogCfg.transform, Except.ok.injEq] at ha hb
  have he : 0 < exp 1 - 1 := by have := add_one_lt_exp (x := 1) (by norm_num); linarith
  have h1 : 0 ≤ (exp 1 - 1) * (x - mi) / ma := div_nonneg (mul_nonneg he.le (by linarith)) hma.le
  have h2 : (exp 1 - 1) * (x - mi) / ma ≤ (exp 1 - 1) * (y - mi) / ma := by gcongr
  have h3 : 0 ≤ log ((exp 1 - 1) * (x - mi) / ma + 1) := log_nonneg (by linarith)
  have h4 : log ((exp 1 - 1) * (x - mi) / ma + 1) ≤ log ((exp 1 - 1) * (y - mi) / ma + 1) := log_le_log (by linarith) (by linarith)
  constructor
  · rw [← ha]; nlinarith
  · rw [← ha, ← hb]; nlinarith

/-- Logarithmic scaling fails: with a base always (AttributeError), without an upper or lower limit always (TypeError), although both are
documented, and its results can never be written back. -/
theorem log_fails (np : Np) (img : Img) (lower upper base : Option ℝ) (x : ℝ) :
    (base ≠ none → (logScaling np img lower upper base).transform x = .error .attribute) ∧
    (base = none → (lower = none ∨ upper = none) → (logScaling np img lower upper base).transform x = .error .type) ∧
    (base = none → (logScaling np img lower upper base).invtransform x = .error .type) := by
  refine ⟨fun h => ?_, fun h hl => ?_, fun h => ?_⟩
  · cases base with
    | none => exact absurd rfl h
    | some b => rfl
  · subst h
    rcases hl with h | h <;> subst h
    · rfl
    · cases lower <;> rfl
  · subst h; rfl

/-- The same for an image: its darkest unscaled pixel goes to `lower` and its brightest to `upper` only if the darkest is 0. -/
theorem log_range_image (np : Np) (img : Img) (l u : ℝ) (hp : 0 < np.max img.base.pixels) (hm : np.min img.base.pixels ≤ np.max img.base.pixels) :
    (logScaling np img (some l) (some u) none).transform (np.min img.base.pixels) = .ok l ∧
    ((logScaling np img (some l) (some u) none).transform (np.max img.base.pixels) = .ok u ↔ np.min img.base.pixels = 0 ∨ u = l) :=
  log_range l u _ _ hp hm

/-- Example: an image with pixels 2..4 is scaled to [0, log((e-1)/2+1)] instead of [0,1]. -/
example (np : Np) (img : Img) (h1 : np.max img.base.pixels = 4) (h2 : np.min img.base.pixels = 2) :
    (logScaling np img (some 0) (some 1) none).transform 4 ≠ .ok 1 ∧ (logScaling np img (some 0) (some 1) none).transform 2 = .ok 0 := by
  simp only [logScaling, h1, h2]
  have := log_range 0 1 4 2 (by norm_num) (by norm_num)
  exact ⟨fun h => by have := this.2.1 h; norm_num at this, this.1⟩

end Verif.Ccd
