import Mathlib.Analysis.SpecialFunctions.Gamma.Basic
import Mathlib.Analysis.SpecialFunctions.Gaussian.GaussianIntegral
import Mathlib.Analysis.Calculus.Deriv.MeanValue
import Mathlib.Analysis.SpecialFunctions.Log.Deriv
import Mathlib.Analysis.Complex.ExponentialBounds
import Mathlib.NumberTheory.ZetaValues
import Mathlib.MeasureTheory.Integral.DominatedConvergence
import Mathlib.Analysis.SpecialFunctions.Pow.Real
import Mathlib.Tactic.Linarith
import Mathlib.Tactic.Positivity

/-!
# Blackbodies (astropysics/models.py 55-254, phot.py 3212-3228) (C116)

Over the reals; the constants h, c, kb of constants.py are positive parameters (their values are used where a theorem says so).
-/

namespace Verif.Blackbody

open Real Filter Topology MeasureTheory

/-! ## Model -/

/-- The constants, models.py 61. -/
structure Consts where
  h : ℝ
  c : ℝ
  kb : ℝ

def Consts.Good (k : Consts) : Prop := 0 < k.h ∧ 0 < k.c ∧ 0 < k.kb

/-- Their values, constants.py 131-134. -/
noncomputable def values : Consts := ⟨6.626068e-27, 2.99792458e10, 1.3807e-16⟩

/-- `_phystype`, spec.py 112-159. -/
inductive Phys where
  | wavelength | frequency | energy
  deriving DecidableEq

/-- A `BlackbodyModel`: unit (type and `_xscaling`) and the parameters A and T. -/
structure BB where
  phys : Phys
  xs : ℝ
  A : ℝ
  T : ℝ

/-- `_flambda`, `_fnu`, `_fen`, models.py 80-89. -/
noncomputable def flambda (k : Consts) (x A T : ℝ) : ℝ := A * 2 * k.h * k.c * k.c * x ^ (-5 : ℤ) / (exp (k.h * k.c / (k.kb * T * x)) - 1)
noncomputable def fnu (k : Consts) (x A T : ℝ) : ℝ := A * 2 * k.h / k.c / k.c * x ^ 3 / (exp (k.h * x / (k.kb * T)) - 1)
noncomputable def fen (k : Consts) (x A T : ℝ) : ℝ := fnu k x A T / k.h

/-- `f(x,A,T)` and calling the model, models.py 68-78. -/
noncomputable def BB.call (k : Consts) (m : BB) (x : ℝ) : ℝ :=
  (match m.phys with
    | .wavelength => flambda k (x * m.xs) m.A m.T
    | .frequency => fnu k (x * m.xs) m.A m.T
    | .energy => fen k (x * m.xs) m.A m.T) * m.xs

/-- phot.py 3212-3228. -/
noncomputable def intensityToFlux (radius distance : ℝ) : ℝ := let ratio := radius / distance; π * ratio * ratio
noncomputable def fluxToIntensity (radius distance : ℝ) : ℝ := let ratio := radius / distance; 1 / (π * ratio * ratio)

/-- `setIntensity`, `setFlux`, `getFluxRadius`, `getFluxDistance`, models.py 119-137, 172-184. -/
def BB.setIntensity (m : BB) : BB := { m with A := 1 }
noncomputable def BB.setFlux (m : BB) (radius distance : ℝ) : BB := { m with A := intensityToFlux radius distance }
noncomputable def BB.getFluxRadius (m : BB) (distance : ℝ) : ℝ := (m.A * distance * distance / π) ^ (0.5 : ℝ)
noncomputable def BB.getFluxDistance (m : BB) (radius : ℝ) : ℝ := (π * radius * radius / m.A) ^ (0.5 : ℝ)

/-- `getFlux(x,radius,distance)`, models.py 139-170: the value and the model afterwards. -/
noncomputable def BB.getFlux (k : Consts) (m : BB) (x : ℝ) : Option ℝ → Option ℝ → ℝ × BB
  | none, none => (m.call k x, m)
  | some r, none => ((m.setFlux r (m.getFluxDistance r)).call k x, m.setFlux r (m.getFluxDistance r))
  | none, some d => ((m.setFlux (m.getFluxRadius d) d).call k x, m.setFlux (m.getFluxRadius d) d)
  | some r, some d => ((m.setFlux r d).call k x, m.setFlux r d)

/-- Errors. -/
inductive Err where
  | notImplemented | attribute
  deriving DecidableEq

/-- `wienDisplacementLaw(peakval)`, models.py 205-240. -/
noncomputable def BB.wien (k : Consts) (m : BB) : Option ℝ → ℝ
  | none => match m.phys with
    | .wavelength => 0.28977685 / m.T / m.xs
    | .frequency => 2.821439 * k.kb * m.T / k.h / m.xs
    | .energy => 2.821439 * m.T / k.h / m.xs
  | some p => match m.phys with
    | .wavelength => 0.28977685 / p / m.xs
    | .frequency => p * k.h / 2.821439 / k.kb / m.xs
    | .energy => p * k.h / 2.821439 / m.xs

/-- `peak`, models.py 186-197. -/
noncomputable def BB.getPeak (k : Consts) (m : BB) : Except Err ℝ :=
  match m.phys with
  | .wavelength => .ok (m.call k (0.28977685 / m.T / m.xs))
  | .frequency => .ok (m.call k (2.821439 / k.h * k.kb * m.T / m.xs))
  | .energy => .error .notImplemented

/-- `peak = v`, models.py 199-203: A is 1 while the peak is computed. -/
noncomputable def BB.setPeak (k : Consts) (m : BB) (v : ℝ) : Except Err Unit × BB :=
  match (m.setIntensity).getPeak k with
  | .error e => (.error e, m.setIntensity)
  | .ok p => (.ok (), { m with A := v / p })

/-- The static `stephanBoltzmannLaw`, models.py 247-254. -/
noncomputable def sbLaw (k : Consts) (T area : ℝ) : ℝ := area * (2 * π ^ 5 * k.kb ^ 4 * k.h ^ (-3 : ℤ) * k.c ^ (-2 : ℤ) / 15) * T ^ 4

/-- The method of an instance, models.py 242-245: T is stored, then `_enscale` is not found. -/
def BB.sbLaw (m : BB) (T : Option ℝ) : Except Err ℝ × BB := (.error .attribute, { m with T := T.getD m.T })

/-! ## Units -/

/-- The call, unit by unit. -/
theorem call_eq (k : Consts) (xs A T x : ℝ) :
    (BB.mk .wavelength xs A T).call k x = flambda k (x * xs) A T * xs ∧ (BB.mk .frequency xs A T).call k x = fnu k (x * xs) A T * xs := ⟨rfl, rfl⟩

/-- Wavelengths and frequencies describe the same radiation: B_lambda |dlambda| = B_nu |dnu| for nu = c/lambda. -/
theorem lambda_nu (k : Consts) (hk : k.Good) (l A T : ℝ) (hl : 0 < l) (hT : 0 < T) :
    flambda k l A T = fnu k (k.c / l) A T * (k.c / l ^ 2) := by
  obtain ⟨h1, h2, h3⟩ := hk
  unfold flambda fnu
  have e : k.h * (k.c / l) / (k.kb * T) = k.h * k.c / (k.kb * T * l) := by field_simp
  rw [e, zpow_neg]
  have hz : l ^ (5 : ℤ) = l ^ 5 := by norm_cast
  rw [hz]
  have hy : 0 < k.h * k.c / (k.kb * T * l) := by positivity
  have hd : exp (k.h * k.c / (k.kb * T * l)) - 1 ≠ 0 := by
    have := add_one_lt_exp hy.ne'; linarith
  field_simp

/-- A change of unit (angstroms, microns, THz, ...) keeps the radiation between two places of the axis. -/
theorem unit_conserves (k : Consts) (p : Phys) (xs A T a b : ℝ) (hx : xs ≠ 0) :
    ∫ x in a..b, (BB.mk p xs A T).call k x = ∫ x in (a * xs)..(b * xs), (BB.mk p 1 A T).call k x := by
  have e : ∀ x, (BB.mk p xs A T).call k x = (BB.mk p 1 A T).call k (x * xs) * xs := by
    intro x; cases p <;> simp [BB.call]
  simp only [e]
  rw [intervalIntegral.integral_mul_const, intervalIntegral.integral_comp_mul_right _ hx, smul_eq_mul]
  field_simp

/-- What the energy form should be: B_E(E) = B_nu(E/h)/h. -/
noncomputable def energyForm (k : Consts) (E A T : ℝ) : ℝ := fnu k (E / k.h) A T / k.h

/-- The energy form takes the energy as a frequency: for energies up to kT it is below 2h² of the radiation per energy. -/
theorem energy_counterexample (k : Consts) (hk : k.Good) (E A T : ℝ) (hE : 0 < E) (hT : 0 < T) (hA : 0 < A) (hlow : E ≤ k.kb * T) :
    (BB.mk .energy 1 A T).call k E ≤ 2 * k.h ^ 2 * energyForm k E A T ∧ 0 < energyForm k E A T := by
  obtain ⟨h1, h2, h3⟩ := hk
  have hy : 0 < E / (k.kb * T) := by positivity
  set y := E / (k.kb * T) with hyd
  have hy1 : y ≤ 1 := by rw [hyd, div_le_one (by positivity)]; exact hlow
  have e1 : k.h * (E / k.h) / (k.kb * T) = y := by rw [hyd]; field_simp
  have e2 : k.h * E / (k.kb * T) = k.h * y := by rw [hyd]; field_simp
  have hd1 : 0 < exp y - 1 := by have := add_one_lt_exp hy.ne'; linarith
  have hhy : 0 < k.h * y := by positivity
  have hd2 : k.h * y ≤ exp (k.h * y) - 1 := by have := add_one_le_exp (k.h * y); linarith
  have hup : exp y - 1 ≤ 2 * y := by
    have := exp_bound' hy.le hy1 (n := 2) (by norm_num)
    norm_num [Finset.sum_range_succ] at this
    nlinarith
  have hform : energyForm k E A T = A * 2 / k.c / k.c * (E / k.h) ^ 3 / (exp y - 1) := by
    unfold energyForm fnu; rw [e1]; field_simp
  have hcall : (BB.mk .energy 1 A T).call k E = A * 2 / k.c / k.c * E ^ 3 / (exp (k.h * y) - 1) := by
    simp only [BB.call, fen, fnu, mul_one]; rw [e2]
    have : exp (k.h * y) - 1 ≠ 0 := by linarith
    field_simp
  have hpos : 0 < energyForm k E A T := by rw [hform]; positivity
  refine ⟨?_, hpos⟩
  rw [hcall, hform]
  have hd2' : 0 < exp (k.h * y) - 1 := by linarith
  rw [div_le_iff₀ hd2']
  have key : (exp y - 1) ≤ 2 * ((exp (k.h * y) - 1) / k.h) := by
    have : y ≤ (exp (k.h * y) - 1) / k.h := by rw [le_div_iff₀ h1]; linarith
    linarith
  have : 2 * k.h ^ 2 * (A * 2 / k.c / k.c * (E / k.h) ^ 3 / (exp y - 1)) * (exp (k.h * y) - 1) =
      A * 2 / k.c / k.c * E ^ 3 * (2 * ((exp (k.h * y) - 1) / k.h) / (exp y - 1)) := by
    field_simp
  rw [this]
  have h5 : 1 ≤ 2 * ((exp (k.h * y) - 1) / k.h) / (exp y - 1) := by rw [le_div_iff₀ hd1]; linarith
  have h6 : 0 ≤ A * 2 / k.c / k.c * E ^ 3 := by positivity
  nlinarith

/-! ## Fluxes -/

theorem sqrt_sq_half (x y : ℝ) (hy : 0 ≤ y) (h : x = y ^ 2) : x ^ (0.5 : ℝ) = y := by
  rw [h, ← rpow_natCast, ← rpow_mul hy]; norm_num

/-- After `setFlux(r,d)` the radius at d is r and the distance for r is d; the model is pi (r/d)² times the intensity, so that the power through the sphere of
radius d is that through the surface of the body; the two conversions of phot are inverse. -/
theorem setFlux_spec (k : Consts) (m : BB) (r d : ℝ) (hr : 0 < r) (hd : 0 < d) :
    (m.setFlux r d).getFluxRadius d = r ∧ (m.setFlux r d).getFluxDistance r = d ∧
    (∀ x, (m.setFlux r d).call k x * (4 * π * d ^ 2) = (4 * π * r ^ 2) * (π * (m.setIntensity).call k x)) ∧
    intensityToFlux r d * fluxToIntensity r d = 1 := by
  have hp := pi_pos
  refine ⟨?_, ?_, fun x => ?_, ?_⟩
  · apply sqrt_sq_half _ _ hr.le
    simp only [BB.setFlux, intensityToFlux]; field_simp
  · apply sqrt_sq_half _ _ hd.le
    simp only [BB.setFlux, intensityToFlux]; field_simp
  · obtain ⟨p, xs, A, T⟩ := m
    cases p <;> simp only [BB.setFlux, BB.setIntensity, BB.call, flambda, fnu, fen, intensityToFlux] <;> field_simp
  · unfold intensityToFlux fluxToIntensity; field_simp

/-- `getFlux` with one of radius and distance (the other follows from A) answers the current value and leaves A; with both it changes A for good. -/
theorem getFlux_spec (k : Consts) (m : BB) (x r d : ℝ) (hr : 0 < r) (hd : 0 < d) (hA : 0 < m.A) :
    m.getFlux k x none none = (m.call k x, m) ∧ m.getFlux k x (some r) none = (m.call k x, m) ∧ m.getFlux k x none (some d) = (m.call k x, m) ∧
    (m.getFlux k x (some r) (some d)).2.A = π * (r / d) ^ 2 ∧
    (m.getFlux k x (some r) (some d)).1 = π * (r / d) ^ 2 * (m.setIntensity).call k x := by
  have hp := pi_pos
  have h1 : m.setFlux r (m.getFluxDistance r) = m := by
    have hq : 0 < π * r * r / m.A := by positivity
    have hs : (m.getFluxDistance r) ^ 2 = π * r * r / m.A := by
      unfold BB.getFluxDistance
      rw [← rpow_natCast, ← rpow_mul hq.le]; norm_num
    have hpos : 0 < m.getFluxDistance r := rpow_pos_of_pos hq _
    have : intensityToFlux r (m.getFluxDistance r) = m.A := by
      unfold intensityToFlux
      have e : π * (r / m.getFluxDistance r) * (r / m.getFluxDistance r) = π * r * r / (m.getFluxDistance r) ^ 2 := by field_simp
      simp only
      rw [e, hs]; field_simp
    unfold BB.setFlux; rw [this]
  have h2 : m.setFlux (m.getFluxRadius d) d = m := by
    have hq : 0 < m.A * d * d / π := by positivity
    have hs : (m.getFluxRadius d) ^ 2 = m.A * d * d / π := by
      unfold BB.getFluxRadius
      rw [← rpow_natCast, ← rpow_mul hq.le]; norm_num
    have : intensityToFlux (m.getFluxRadius d) d = m.A := by
      unfold intensityToFlux
      have e : π * (m.getFluxRadius d / d) * (m.getFluxRadius d / d) = π * (m.getFluxRadius d) ^ 2 / d ^ 2 := by field_simp
      simp only
      rw [e, hs]; field_simp
    unfold BB.setFlux; rw [this]
  refine ⟨rfl, ?_, ?_, ?_, ?_⟩
  · simp only [BB.getFlux, h1]
  · simp only [BB.getFlux, h2]
  · simp only [BB.getFlux, BB.setFlux, intensityToFlux]; ring
  · obtain ⟨p, xs, A, T⟩ := m
    cases p <;> simp only [BB.getFlux, BB.setFlux, BB.setIntensity, BB.call, flambda, fnu, fen, intensityToFlux] <;> ring

/-! ## Peaks -/

theorem call_pos (k : Consts) (hk : k.Good) (m : BB) (hx : 0 < m.xs) (hA : 0 < m.A) (hT : 0 < m.T) (x : ℝ) (h : 0 < x) : 0 < m.call k x := by
  obtain ⟨h1, h2, h3⟩ := hk
  obtain ⟨p, xs, A, T⟩ := m
  simp only at hx hA hT
  have hd : ∀ y : ℝ, 0 < y → 0 < exp y - 1 := fun y hy => by have := add_one_lt_exp hy.ne'; linarith
  have ha := hd (k.h * k.c / (k.kb * T * (x * xs))) (by positivity)
  have hb := hd (k.h * (x * xs) / (k.kb * T)) (by positivity)
  cases p <;> simp only [BB.call, flambda, fnu, fen] <;> positivity

/-- A peak value that is set is read back, for wavelength and frequency units; for energies the setter fails and leaves A at 1. -/
theorem setPeak_spec (k : Consts) (hk : k.Good) (m : BB) (hx : 0 < m.xs) (hT : 0 < m.T) (v : ℝ) :
    (m.phys ≠ .energy → (m.setPeak k v).1 = .ok () ∧ (m.setPeak k v).2.getPeak k = .ok v) ∧
    (m.phys = .energy → m.setPeak k v = (.error .notImplemented, { m with A := 1 })) := by
  obtain ⟨h1, h2, h3⟩ := hk
  obtain ⟨p, xs, A, T⟩ := m
  simp only at hx hT
  have lin : ∀ q B x, (BB.mk q xs B T).call k x = B * (BB.mk q xs 1 T).call k x := by
    intro q B x; cases q <;> simp only [BB.call, flambda, fnu, fen] <;> ring
  refine ⟨fun hp => ?_, fun hp => ?_⟩
  · cases p with
    | energy => exact absurd rfl hp
    | wavelength =>
      refine ⟨rfl, ?_⟩
      simp only [BB.setPeak, BB.setIntensity, BB.getPeak, Except.ok.injEq]
      have := call_pos k ⟨h1, h2, h3⟩ (BB.mk .wavelength xs 1 T) hx one_pos hT (0.28977685 / T / xs) (by positivity)
      rw [lin, div_mul_cancel₀ _ this.ne']
    | frequency =>
      refine ⟨rfl, ?_⟩
      simp only [BB.setPeak, BB.setIntensity, BB.getPeak, Except.ok.injEq]
      have := call_pos k ⟨h1, h2, h3⟩ (BB.mk .frequency xs 1 T) hx one_pos hT (2.821439 / k.h * k.kb * T / xs) (by positivity)
      rw [lin, div_mul_cancel₀ _ this.ne']
  · simp only at hp; subst hp; rfl

/-- Wien's law there and back: for wavelengths the temperature is recovered in every unit; for frequencies and energies only if the unit is the cgs one. -/
theorem wien_roundtrip (k : Consts) (hk : k.Good) (m : BB) (hx : 0 < m.xs) (hT : 0 < m.T) :
    (m.phys = .wavelength → m.wien k (some (m.wien k none)) = m.T) ∧
    (m.phys ≠ .wavelength → m.wien k (some (m.wien k none)) = m.T / m.xs ^ 2 ∧ (m.wien k (some (m.wien k none)) = m.T ↔ m.xs = 1)) := by
  obtain ⟨h1, h2, h3⟩ := hk
  obtain ⟨p, xs, A, T⟩ := m
  simp only at hx hT
  have hiff : T / xs ^ 2 = T ↔ xs = 1 := by
    rw [div_eq_iff (by positivity)]
    constructor
    · intro h
      have : xs ^ 2 = 1 := by
        have : T * 1 = T * xs ^ 2 := by linarith
        exact (mul_left_cancel₀ hT.ne' this).symm
      nlinarith
    · intro h; rw [h]; ring
  refine ⟨fun hp => ?_, fun hp => ?_⟩
  · simp only at hp; subst hp; simp only [BB.wien]; field_simp
  · cases p with
    | wavelength => exact absurd rfl hp
    | frequency =>
      have e : (BB.mk .frequency xs A T).wien k (some ((BB.mk .frequency xs A T).wien k none)) = T / xs ^ 2 := by
        simp only [BB.wien]; field_simp
      exact ⟨e, by rw [e]; exact hiff⟩
    | energy =>
      have e : (BB.mk .energy xs A T).wien k (some ((BB.mk .energy xs A T).wien k none)) = T / xs ^ 2 := by
        simp only [BB.wien]; field_simp
      exact ⟨e, by rw [e]; exact hiff⟩

/-- The numerator of the derivative of y^n/(e^y-1). -/
noncomputable def qq (n : ℕ) (y : ℝ) : ℝ := n * (exp y - 1) - y * exp y

theorem qq_deriv (n : ℕ) (y : ℝ) : HasDerivAt (qq n) ((n - 1 - y) * exp y) y := by
  have h := (((hasDerivAt_exp y).sub_const 1).const_mul (n : ℝ)).sub ((hasDerivAt_id y).mul (hasDerivAt_exp y))
  refine h.congr_deriv ?_
  simp only [id]; ring

theorem planck_deriv (n : ℕ) (hn : 1 ≤ n) (y : ℝ) (hy : 0 < y) :
    HasDerivAt (fun y => y ^ n / (exp y - 1)) (y ^ (n - 1) * qq n y / (exp y - 1) ^ 2) y := by
  have hd : exp y - 1 ≠ 0 := by have := add_one_lt_exp hy.ne'; linarith
  have h := ((hasDerivAt_id y).pow n).div ((hasDerivAt_exp y).sub_const 1) hd
  refine h.congr_deriv ?_
  simp only [Pi.pow_apply, id, qq]
  obtain ⟨m, rfl⟩ : ∃ m, n = m + 1 := ⟨n - 1, by omega⟩
  simp only [Nat.add_sub_cancel, pow_succ]
  push_cast
  field_simp

/-- Between a place where y^n/(e^y-1) still rises and one where it falls (both beyond n-1) is its only maximum. -/
theorem planck_max (n : ℕ) (hn : 2 ≤ n) (lo hi : ℝ) (hlo : (n : ℝ) - 1 ≤ lo) (hlh : lo ≤ hi) (h1 : 0 < qq n lo) (h2 : qq n hi < 0) :
    ∃ ys, lo ≤ ys ∧ ys ≤ hi ∧ ∀ y, 0 < y → y ≠ ys → y ^ n / (exp y - 1) < ys ^ n / (exp ys - 1) := by
  have hn' : (2 : ℝ) ≤ n := by exact_mod_cast hn
  have hcont : Continuous (qq n) := continuous_iff_continuousAt.2 fun y => (qq_deriv n y).continuousAt
  obtain ⟨ys, hys, h0⟩ := intermediate_value_Icc' hlh hcont.continuousOn ⟨h2.le, h1.le⟩
  have hys0 : 0 < ys := by linarith [hys.1]
  have hmono : StrictMonoOn (qq n) (Set.Icc 0 (n - 1)) := by
    apply strictMonoOn_of_deriv_pos (convex_Icc _ _) hcont.continuousOn
    intro y hy
    rw [interior_Icc] at hy
    rw [(qq_deriv n y).deriv]
    have : 0 < (n : ℝ) - 1 - y := by linarith [hy.2]
    positivity
  have hanti : StrictAntiOn (qq n) (Set.Ici (n - 1)) := by
    apply strictAntiOn_of_deriv_neg (convex_Ici _) hcont.continuousOn
    intro y hy
    rw [interior_Ici] at hy
    rw [(qq_deriv n y).deriv]
    have h5 : (n : ℝ) - 1 < y := hy
    exact mul_neg_of_neg_of_pos (by linarith) (exp_pos y)
  have hz : qq n 0 = 0 := by simp [qq]
  have hys1 : (n : ℝ) - 1 ≤ ys := hlo.trans hys.1
  have hpos : ∀ y, 0 < y → y < ys → 0 < qq n y := by
    intro y hy hlt
    rcases le_total y (n - 1) with h | h
    · have := hmono ⟨le_rfl, by linarith⟩ ⟨hy.le, h⟩ hy
      linarith
    · have := hanti (Set.mem_Ici.2 h) (Set.mem_Ici.2 hys1) hlt
      linarith
  have hneg : ∀ y, ys < y → qq n y < 0 := by
    intro y hlt
    have := hanti (Set.mem_Ici.2 hys1) (Set.mem_Ici.2 (hys1.trans hlt.le)) hlt
    linarith
  have hden : ∀ y : ℝ, 0 < y → 0 < (exp y - 1) ^ 2 := fun y hy => by
    have := add_one_lt_exp hy.ne'
    have : 0 < exp y - 1 := by linarith
    positivity
  refine ⟨ys, hys.1, hys.2, fun y hy hne => ?_⟩
  rcases lt_or_gt_of_ne hne with h | h
  · have : StrictMonoOn (fun y => y ^ n / (exp y - 1)) (Set.Ioc 0 ys) := by
      apply strictMonoOn_of_deriv_pos (convex_Ioc 0 ys)
      · exact fun x hx => (planck_deriv n (by omega) x hx.1).continuousAt.continuousWithinAt
      · intro x hx
        rw [interior_Ioc] at hx
        rw [(planck_deriv n (by omega) x hx.1).deriv]
        have := hpos x hx.1 hx.2
        have := hden x hx.1
        have := hx.1
        positivity
    exact this ⟨hy, h.le⟩ ⟨hys0, le_rfl⟩ h
  · have : StrictAntiOn (fun y => y ^ n / (exp y - 1)) (Set.Ici ys) := by
      apply strictAntiOn_of_deriv_neg (convex_Ici ys)
      · exact fun x hx => (planck_deriv n (by omega) x (lt_of_lt_of_le hys0 hx)).continuousAt.continuousWithinAt
      · intro x hx
        rw [interior_Ici] at hx
        have hx0 : 0 < x := lt_trans hys0 hx
        rw [(planck_deriv n (by omega) x hx0).deriv]
        have := hneg x hx
        have h7 : 0 < x ^ (n - 1) := by positivity
        exact div_neg_of_neg_of_pos (mul_neg_of_pos_of_neg h7 this) (hden x hx0)
    exact this (Set.mem_Ici.2 le_rfl) (Set.mem_Ici.2 h.le) h

/-- The sign of qq by logarithms. -/
theorem qq_sign (n : ℕ) (y : ℝ) (hy : y < n) (hn : 0 < n) : (0 < qq n y ↔ log n - log (n - y) < y) ∧ (qq n y < 0 ↔ y < log n - log (n - y)) := by
  have hn' : (0 : ℝ) < n := by exact_mod_cast hn
  have hs : 0 < (n : ℝ) - y := by linarith
  have e : qq n y = (n - y) * exp y - n := by unfold qq; ring
  have hl : log n - log (n - y) = log (n / (n - y)) := (log_div hn'.ne' hs.ne').symm
  rw [hl, e]
  constructor
  · rw [log_lt_iff_lt_exp (by positivity), div_lt_iff₀ hs]
    constructor <;> intro h <;> linarith
  · rw [lt_log_iff_exp_lt (by positivity), lt_div_iff₀ hs]
    constructor <;> intro h <;> linarith

theorem log_series (t e : ℝ) (h : |t| < 1) (he : |t| ^ 9 / (1 - |t|) ≤ e) : |log (1 - t) + ∑ i ∈ Finset.range 8, t ^ (i + 1) / (i + 1)| ≤ e := by
  rw [add_comm]
  exact (abs_log_sub_add_sum_range_le h 8).trans he

theorem nu_peak : ∃ ys, 2.821437 ≤ ys ∧ ys ≤ 2.821441 ∧ ∀ y, 0 < y → y ≠ ys → y ^ 3 / (exp y - 1) < ys ^ 3 / (exp ys - 1) := by
  have h2 := log_two_gt_d9
  have h3 := log_two_lt_d9
  have key : ∀ y : ℝ, y < 3 → log 3 - log (3 - y) = 4 * log 2 - log (1 - (1 - 16 * (3 - y) / 3)) := by
    intro y hy
    have : 0 < 3 - y := by linarith
    rw [show 1 - (1 - 16 * (3 - y) / 3) = 2 ^ 4 * (3 - y) / 3 by ring, log_div (by positivity) (by norm_num), log_mul (by norm_num) this.ne', log_pow]
    push_cast; ring
  refine planck_max 3 (by norm_num) _ _ (by norm_num) (by norm_num) ?_ ?_
  · rw [(qq_sign 3 _ (by norm_num) (by norm_num)).1]
    push_cast
    rw [key _ (by norm_num)]
    have h := log_series (1 - 16 * (3 - 2.821437) / 3) 1e-9 (by rw [abs_lt]; constructor <;> norm_num) (by rw [abs_of_pos (by norm_num)]; norm_num)
    norm_num [Finset.sum_range_succ, abs_le] at h ⊢
    linarith [h.1, h.2]
  · rw [(qq_sign 3 _ (by norm_num) (by norm_num)).2]
    push_cast
    rw [key _ (by norm_num)]
    have h := log_series (1 - 16 * (3 - 2.821441) / 3) 1e-9 (by rw [abs_lt]; constructor <;> norm_num) (by rw [abs_of_pos (by norm_num)]; norm_num)
    norm_num [Finset.sum_range_succ, abs_le] at h ⊢
    linarith [h.1, h.2]

theorem lambda_peak : ∃ ys, 4.9651 ≤ ys ∧ ys ≤ 4.96513 ∧ ∀ y, 0 < y → y ≠ ys → y ^ 5 / (exp y - 1) < ys ^ 5 / (exp ys - 1) := by
  have h2 := log_two_gt_d9
  have h3 := log_two_lt_d9
  have key : ∀ y : ℝ, y < 5 → log 5 - log (5 - y) = 7 * log 2 - log (1 - (1 - 128 * (5 - y) / 5)) := by
    intro y hy
    have : 0 < 5 - y := by linarith
    rw [show 1 - (1 - 128 * (5 - y) / 5) = 2 ^ 7 * (5 - y) / 5 by ring, log_div (by positivity) (by norm_num), log_mul (by norm_num) this.ne', log_pow]
    push_cast; ring
  refine planck_max 5 (by norm_num) _ _ (by norm_num) (by norm_num) ?_ ?_
  · rw [(qq_sign 5 _ (by norm_num) (by norm_num)).1]
    push_cast
    rw [key _ (by norm_num)]
    have h := log_series (1 - 128 * (5 - 4.9651) / 5) 1e-7 (by rw [abs_lt]; constructor <;> norm_num) (by rw [abs_of_pos (by norm_num)]; norm_num)
    norm_num [Finset.sum_range_succ, abs_le] at h ⊢
    linarith [h.1, h.2]
  · rw [(qq_sign 5 _ (by norm_num) (by norm_num)).2]
    push_cast
    rw [key _ (by norm_num)]
    have h := log_series (1 - 128 * (5 - 4.96513) / 5) 1e-7 (by rw [abs_lt]; constructor <;> norm_num) (by rw [abs_of_pos (by norm_num)]; norm_num)
    norm_num [Finset.sum_range_succ, abs_le] at h ⊢
    linarith [h.1, h.2]

/-- For frequencies, at every temperature and in every unit, the model has exactly one maximum and Wien's law is within one part in a million of it. -/
theorem wien_frequency (k : Consts) (hk : k.Good) (xs A T : ℝ) (hx : 0 < xs) (hA : 0 < A) (hT : 0 < T) :
    ∃ x0, 0 < x0 ∧ (∀ x, 0 < x → x ≠ x0 → (BB.mk .frequency xs A T).call k x < (BB.mk .frequency xs A T).call k x0) ∧
      |(BB.mk .frequency xs A T).wien k none - x0| ≤ 1e-6 * x0 := by
  obtain ⟨h1, h2, h3⟩ := hk
  obtain ⟨ys, hlo, hhi, hmax⟩ := nu_peak
  have hys : 0 < ys := by norm_num at hlo; linarith
  have hcall : ∀ x, (BB.mk .frequency xs A T).call k x =
      (A * 2 * k.h / k.c / k.c * xs * (k.kb * T / k.h) ^ 3) * ((k.h * (x * xs) / (k.kb * T)) ^ 3 / (exp (k.h * (x * xs) / (k.kb * T)) - 1)) := by
    intro x; simp only [BB.call, fnu]; field_simp
  refine ⟨ys * (k.kb * T) / k.h / xs, by positivity, fun x hxp hne => ?_, ?_⟩
  · rw [hcall, hcall]
    apply mul_lt_mul_of_pos_left _ (by positivity)
    rw [show k.h * (ys * (k.kb * T) / k.h / xs * xs) / (k.kb * T) = ys by field_simp]
    apply hmax _ (by positivity)
    intro h
    apply hne
    rw [← h]; field_simp
  · simp only [BB.wien]
    have e : 2.821439 * k.kb * T / k.h / xs - ys * (k.kb * T) / k.h / xs = (2.821439 - ys) * (k.kb * T / k.h / xs) := by ring
    have hq : 0 < k.kb * T / k.h / xs := by positivity
    rw [e, abs_mul, abs_of_pos hq, show ys * (k.kb * T) / k.h / xs = ys * (k.kb * T / k.h / xs) by ring, ← mul_assoc]
    apply mul_le_mul_of_nonneg_right _ hq.le
    norm_num at hlo hhi
    rw [abs_le]
    constructor <;> norm_num <;> linarith

/-- For wavelengths likewise, within one part in ten thousand for the constants of the package (its Boltzmann constant is rounded). -/
theorem wien_wavelength (xs A T : ℝ) (hx : 0 < xs) (hA : 0 < A) (hT : 0 < T) :
    ∃ x0, 0 < x0 ∧ (∀ x, 0 < x → x ≠ x0 → (BB.mk .wavelength xs A T).call values x < (BB.mk .wavelength xs A T).call values x0) ∧
      |(BB.mk .wavelength xs A T).wien values none - x0| ≤ 1e-4 * x0 := by
  obtain ⟨ys, hlo, hhi, hmax⟩ := lambda_peak
  have hys : 0 < ys := by norm_num at hlo; linarith
  have h1 : 0 < values.h := by norm_num [values]
  have h2 : 0 < values.c := by norm_num [values]
  have h3 : 0 < values.kb := by norm_num [values]
  have hcall : ∀ x, 0 < x → (BB.mk .wavelength xs A T).call values x =
      (A * 2 * values.h * values.c * values.c * xs * (values.kb * T / (values.h * values.c)) ^ 5) *
        ((values.h * values.c / (values.kb * T * (x * xs))) ^ 5 / (exp (values.h * values.c / (values.kb * T * (x * xs))) - 1)) := by
    intro x hxp
    simp only [BB.call, flambda]
    rw [zpow_neg]
    have hz : (x * xs) ^ (5 : ℤ) = (x * xs) ^ 5 := by norm_cast
    rw [hz]
    have hy : 0 < values.h * values.c / (values.kb * T * (x * xs)) := by positivity
    have hd : exp (values.h * values.c / (values.kb * T * (x * xs))) - 1 ≠ 0 := by
      have := add_one_lt_exp hy.ne'; linarith
    field_simp
  refine ⟨values.h * values.c / (values.kb * T * ys) / xs, by positivity, fun x hxp hne => ?_, ?_⟩
  · rw [hcall x hxp, hcall _ (by positivity)]
    apply mul_lt_mul_of_pos_left _ (by positivity)
    rw [show values.h * values.c / (values.kb * T * (values.h * values.c / (values.kb * T * ys) / xs * xs)) = ys by field_simp]
    apply hmax _ (by positivity)
    intro h
    apply hne
    rw [← h]; field_simp
  · simp only [BB.wien]
    set w := values.h * values.c / values.kb with hw
    have hwp : 0 < w := by positivity
    have e0 : values.h * values.c / (values.kb * T * ys) / xs = w / ys * (1 / T / xs) := by rw [hw]; field_simp
    have e1 : 0.28977685 / T / xs = 0.28977685 * (1 / T / xs) := by ring
    have hq : 0 < 1 / T / xs := by positivity
    rw [e0, e1, ← sub_mul, abs_mul, abs_of_pos hq, ← mul_assoc]
    apply mul_le_mul_of_nonneg_right _ hq.le
    norm_num at hlo hhi
    have hb : w = 6.626068e-27 * 2.99792458e10 / 1.3807e-16 := by rw [hw]; rfl
    have key : |0.28977685 * ys - w| ≤ 1e-4 * w := by
      rw [hb, abs_le]; constructor <;> norm_num <;> linarith
    rw [show 0.28977685 - w / ys = (0.28977685 * ys - w) / ys by field_simp, abs_div, abs_of_pos hys, ← mul_div_assoc]
    gcongr

/-! ## Total radiation -/

/-- The integral of x³/(e^x-1) is pi⁴/15. -/
theorem bose_integral : IntegrableOn (fun x : ℝ => x ^ 3 / (exp x - 1)) (Set.Ioi 0) ∧ ∫ x in Set.Ioi (0 : ℝ), x ^ 3 / (exp x - 1) = π ^ 4 / 15 := by
  have hterm : ∀ n : ℕ, ∫ x in Set.Ioi (0 : ℝ), x ^ 3 * exp (-((n + 1 : ℝ) * x)) = 6 / (n + 1 : ℝ) ^ 4 := by
    intro n
    have hn : (0 : ℝ) < n + 1 := by positivity
    have h := integral_rpow_mul_exp_neg_mul_Ioi (a := 4) (r := (n + 1 : ℝ)) (by norm_num) hn
    have e : ∀ x : ℝ, x ^ ((4 : ℝ) - 1) = x ^ 3 := fun x => by
      rw [show (4 : ℝ) - 1 = ((3 : ℕ) : ℝ) by norm_num, rpow_natCast]
    simp only [e] at h
    have hg : Gamma 4 = 6 := by
      rw [show (4 : ℝ) = ((3 : ℕ) : ℝ) + 1 by norm_num, Gamma_nat_eq_factorial]; norm_num [Nat.factorial]
    rw [h, hg, show (4 : ℝ) = ((4 : ℕ) : ℝ) by norm_num, rpow_natCast]
    push_cast
    field_simp
  have hint : ∀ n : ℕ, IntegrableOn (fun x : ℝ => x ^ 3 * exp (-((n + 1 : ℝ) * x))) (Set.Ioi 0) := by
    intro n
    by_contra hc
    have := integral_undef hc
    rw [hterm n] at this
    have hn : (0 : ℝ) < n + 1 := by positivity
    have : (0 : ℝ) < 6 / (n + 1 : ℝ) ^ 4 := by positivity
    linarith
  have hzeta : HasSum (fun n : ℕ => 6 / (n + 1 : ℝ) ^ 4) (π ^ 4 / 15) := by
    have h := hasSum_zeta_four
    have h2 := (hasSum_nat_add_iff' 1).2 h
    simp only [Finset.range_one, Finset.sum_singleton] at h2
    norm_num at h2
    have h3 := h2.mul_left 6
    have e : (6 : ℝ) * (π ^ 4 / 90) = π ^ 4 / 15 := by ring
    rw [e] at h3
    simpa only [div_eq_mul_inv] using h3
  have hnorm : ∀ n : ℕ, ∫ x in Set.Ioi (0 : ℝ), ‖x ^ 3 * exp (-((n + 1 : ℝ) * x))‖ = 6 / (n + 1 : ℝ) ^ 4 := by
    intro n
    rw [← hterm n]
    apply setIntegral_congr_fun measurableSet_Ioi
    intro x hx
    have hx0 : (0 : ℝ) < x := hx
    simp only [norm_eq_abs]
    exact abs_of_pos (by positivity)
  have hsum : Summable fun n : ℕ => ∫ x in Set.Ioi (0 : ℝ), ‖x ^ 3 * exp (-((n + 1 : ℝ) * x))‖ := by
    simp only [hnorm]; exact hzeta.summable
  have hpt : ∀ x : ℝ, 0 < x → HasSum (fun n : ℕ => x ^ 3 * exp (-((n + 1 : ℝ) * x))) (x ^ 3 / (exp x - 1)) := by
    intro x hx
    have hr : exp (-x) < 1 := by rw [exp_lt_one_iff]; linarith
    have hg := (hasSum_geometric_of_lt_one (exp_pos (-x)).le hr).mul_left (x ^ 3 * exp (-x))
    have e1 : (fun n : ℕ => x ^ 3 * exp (-x) * exp (-x) ^ n) = fun n : ℕ => x ^ 3 * exp (-((n + 1 : ℝ) * x)) := by
      funext n
      rw [← exp_nat_mul, mul_assoc, ← exp_add]
      congr 2; ring
    have e2 : x ^ 3 * exp (-x) * (1 - exp (-x))⁻¹ = x ^ 3 / (exp x - 1) := by
      rw [exp_neg]
      have hd : exp x - 1 ≠ 0 := by have := add_one_lt_exp hx.ne'; linarith
      have he := (exp_pos x).ne'
      have : 1 - (exp x)⁻¹ = (exp x - 1) / exp x := by field_simp
      rw [this]; field_simp
    rw [e1, e2] at hg
    exact hg
  have hmain := hasSum_integral_of_summable_integral_norm hint hsum
  have etsum : ∫ x in Set.Ioi (0 : ℝ), ∑' n : ℕ, x ^ 3 * exp (-((n + 1 : ℝ) * x)) = ∫ x in Set.Ioi (0 : ℝ), x ^ 3 / (exp x - 1) := by
    apply setIntegral_congr_fun measurableSet_Ioi
    intro x hx
    exact (hpt x hx).tsum_eq
  rw [etsum] at hmain
  simp only [hterm] at hmain
  have hval := hmain.unique hzeta
  refine ⟨?_, hval⟩
  by_contra hc
  have h0 := integral_undef hc
  rw [hval] at h0
  have := pi_pos
  have : 0 < π ^ 4 / 15 := by positivity
  linarith

/-- The Stefan-Boltzmann law of the class is the power of the Planck function: pi times the integral over all frequencies, in every frequency unit. -/
theorem stefan_boltzmann (k : Consts) (hk : k.Good) (xs T area : ℝ) (hx : 0 < xs) (hT : 0 < T) :
    area * (π * ∫ x in Set.Ioi (0 : ℝ), (BB.mk .frequency xs 1 T).call k x) = sbLaw k T area := by
  obtain ⟨h1, h2, h3⟩ := hk
  have hs : 0 < k.h * xs / (k.kb * T) := by positivity
  have e : ∀ x, (BB.mk .frequency xs 1 T).call k x = (fun y => (2 * k.h / k.c / k.c * xs * (k.kb * T / k.h) ^ 3) * (y ^ 3 / (exp y - 1))) (k.h * xs / (k.kb * T) * x) := by
    intro x
    simp only [BB.call, fnu]
    rw [show k.h * (x * xs) / (k.kb * T) = k.h * xs / (k.kb * T) * x by field_simp]
    field_simp
  simp only [e]
  rw [integral_comp_mul_left_Ioi (fun y => (2 * k.h / k.c / k.c * xs * (k.kb * T / k.h) ^ 3) * (y ^ 3 / (exp y - 1))) 0 hs, mul_zero, integral_const_mul,
    bose_integral.2, smul_eq_mul]
  unfold sbLaw
  have z3 : k.h ^ (-3 : ℤ) = (k.h ^ 3)⁻¹ := by rw [zpow_neg]; norm_cast
  have z2 : k.c ^ (-2 : ℤ) = (k.c ^ 2)⁻¹ := by rw [zpow_neg]; norm_cast
  rw [z3, z2]
  field_simp

/-- The method of an instance always fails, having changed its temperature. -/
theorem instance_sbLaw_fails (m : BB) (T : ℝ) : m.sbLaw (some T) = (.error .attribute, { m with T := T }) ∧ m.sbLaw none = (.error .attribute, m) := ⟨rfl, rfl⟩

/-- Example: the constants are good. -/
example : values.Good := by refine ⟨?_, ?_, ?_⟩ <;> norm_num [values]

end Verif.Blackbody
