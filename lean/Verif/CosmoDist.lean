import Mathlib.Analysis.SpecialFunctions.Integrals.Basic
import Mathlib.Analysis.SpecialFunctions.Trigonometric.Bounds
import Mathlib.Analysis.SpecialFunctions.Trigonometric.DerivHyp
import Mathlib.Analysis.SpecialFunctions.Log.Base
import Mathlib.Analysis.SpecialFunctions.Pow.Continuity
import Mathlib.MeasureTheory.Integral.IntervalIntegral.Basic
import Mathlib.Tactic.Linarith
import Mathlib.Tactic.Ring
import Mathlib.Tactic.FieldSimp

/-!
# Cosmological distances (astropysics/coords/funcs.py 752-980, astropysics/constants.py 172-330)

Exact real arithmetic; `scipy.integrate.quad` is the integral, `scipy.optimize.brenth` is a root finder that returns some root.
-/

namespace Verif.CosmoDist

open Real intervalIntegral

/-- The parameters of a `FRWCosmology`, constants.py 236-252. -/
structure Cosmo where
  H0 : ℝ
  R : ℝ
  M : ℝ
  L : ℝ

/-- `omegaK`, constants.py 254-256, and coords/funcs.py 849. -/
def Cosmo.K (p : Cosmo) : ℝ := 1 - p.M - p.L - p.R

/-- `FRWCosmology.H(z)`, constants.py 258-263. -/
noncomputable def Cosmo.H (p : Cosmo) (z : ℝ) : ℝ :=
  let a := 1 / (1 + z)
  p.H0 * √(p.R * a⁻¹ ^ 4 + p.M * a⁻¹ ^ 3 + p.L + p.K * a⁻¹ ^ 2)

/-- `R + M*a + L*a**4 + K*a**2`, coords/funcs.py 854-855. -/
noncomputable def Cosmo.E (p : Cosmo) (a : ℝ) : ℝ := p.R + p.M * a + p.L * a ^ 4 + p.K * a ^ 2

/-- The distance types, coords/funcs.py 756-760, 812-817. -/
inductive Kind
  | comoving | luminosity | angular | lookback | distmod
deriving DecidableEq, Repr

/-- The integrand, coords/funcs.py 851-860. -/
noncomputable def integrand (p : Cosmo) (k : Kind) (a : ℝ) : ℝ :=
  if k = .lookback then a * (√(p.E a))⁻¹ / p.H0 else (√(p.E a))⁻¹ / p.H0

/-- The integral from the scale factor `1/(z+1)` to 1, coords/funcs.py 862-880. -/
noncomputable def intres (p : Cosmo) (k : Kind) (z : ℝ) : ℝ := ∫ a in (1 / (z + 1))..1, integrand p k a

/-- The speed of light in km/s. -/
noncomputable def c : ℝ := 29979245800 / 100000

/-- `complex(-omegaK)**0.5` for a nonzero argument. -/
noncomputable def csqrt (x : ℝ) : ℂ := if 0 ≤ x then (√x : ℂ) else Complex.I * √(-x)

/-- `cosmo_z_to_dist(z,disttype=k)` without errors and normalisation, coords/funcs.py 845-908. -/
noncomputable def dist (p : Cosmo) (k : Kind) (z : ℝ) : ℝ :=
  let a0 := 1 / (z + 1)
  let i := intres p k z
  match k with
  | .lookback => c * i * 0.00326163626
  | .comoving => c * i
  | .luminosity => c * i / a0
  | .angular =>
    if p.K = 0 then c * i * a0
    else
      let angfactor : ℂ := p.H0 * csqrt (-p.K)
      c * (Complex.sin (angfactor * i) / angfactor).re * a0
  | .distmod => 5 * logb 10 (c * i / a0 * 1000000) - 5

/-- The same with `normed=z0` for a redshift `z0`, coords/funcs.py 910-913. -/
noncomputable def distNormed (p : Cosmo) (k : Kind) (z0 z : ℝ) : ℝ := 1 / dist p k z0 * dist p k z

/-- The same with an error, coords/funcs.py 918-925: (value, upper error, lower error). -/
noncomputable def distErr (p : Cosmo) (k : Kind) (z zerr : ℝ) : ℝ × ℝ × ℝ :=
  (dist p k z, dist p k (z + zerr) - dist p k z, dist p k z - dist p k (z - zerr))

/-! ## Specification -/

/-- A cosmology with a positive Hubble constant that has been expanding since the beginning: `H²` is positive at every earlier time. -/
structure Good (p : Cosmo) : Prop where
  H0 : 0 < p.H0
  pos : ∀ a, 0 < a → a ≤ 1 → 0 < p.E a

/-! ## The Hubble constant -/

theorem E_H (p : Cosmo) (a : ℝ) (ha : 0 < a) : p.H (1 / a - 1) = p.H0 * √(p.E a / a ^ 4) := by
  unfold Cosmo.H Cosmo.E
  simp only [add_sub_cancel, one_div, inv_inv]
  congr 2
  field_simp

/-- `H(0)` is the Hubble constant, and `H` is positive at every redshift. -/
theorem H_zero (p : Cosmo) : p.H 0 = p.H0 := by
  unfold Cosmo.H Cosmo.K
  simp only [add_zero, one_div, inv_one, one_pow, mul_one]
  rw [show p.R + p.M + p.L + (1 - p.M - p.L - p.R) = 1 by ring]
  simp

theorem scale_mem {z : ℝ} (hz : 0 ≤ z) : 0 < 1 / (z + 1) ∧ 1 / (z + 1) ≤ 1 := by
  constructor
  · positivity
  · rw [div_le_one (by linarith)]; linarith

theorem H_pos (p : Cosmo) (hp : Good p) (z : ℝ) (hz : 0 ≤ z) : 0 < p.H z := by
  have hs := scale_mem hz
  have := E_H p _ hs.1
  rw [one_div_one_div, add_sub_cancel_right] at this
  rw [this]
  have h1 := hp.pos _ hs.1 hs.2
  have h2 := hp.H0
  have : 0 < p.E (1 / (z + 1)) / (1 / (z + 1)) ^ 4 := by
    have := hs.1
    positivity
  exact mul_pos h2 (sqrt_pos.2 this)

/-- The two implementations agree: the integrand of the comoving distance is `1/(a² H)` with the class's own `H`, and that of the
lookback time `1/(a H)`. -/
theorem integrand_H (p : Cosmo) (a : ℝ) (ha : 0 < a) :
    integrand p .comoving a = 1 / (a ^ 2 * p.H (1 / a - 1)) ∧ integrand p .lookback a = 1 / (a * p.H (1 / a - 1)) := by
  rw [E_H p a ha]
  have h4 : √(p.E a / a ^ 4) = √(p.E a) / a ^ 2 := by
    rw [show a ^ 4 = (a ^ 2) ^ 2 by ring, sqrt_div' _ (by positivity), sqrt_sq (by positivity)]
  rw [h4]
  have hne := ha.ne'
  constructor
  · simp only [integrand, if_neg (by decide : ¬ Kind.comoving = Kind.lookback)]
    rcases eq_or_ne (√(p.E a)) 0 with h | h
    · simp [h]
    · rcases eq_or_ne p.H0 0 with h0 | h0
      · simp [h0]
      · field_simp
  · simp only [integrand, if_true]
    rcases eq_or_ne (√(p.E a)) 0 with h | h
    · simp [h]
    · rcases eq_or_ne p.H0 0 with h0 | h0
      · simp [h0]
      · field_simp

/-! ## Monotonicity -/

theorem integrand_pos (p : Cosmo) (hp : Good p) (k : Kind) (a : ℝ) (h0 : 0 < a) (h1 : a ≤ 1) : 0 < integrand p k a := by
  have h := sqrt_pos.2 (hp.pos a h0 h1)
  have hH := hp.H0
  unfold integrand
  split <;> positivity

theorem integrand_cont (p : Cosmo) (hp : Good p) (k : Kind) (lo : ℝ) (hlo : 0 < lo) :
    ContinuousOn (integrand p k) (Set.Icc lo 1) := by
  have hE : ContinuousOn p.E (Set.Icc lo 1) := by
    unfold Cosmo.E; fun_prop
  have hs : ContinuousOn (fun a => (√(p.E a))⁻¹) (Set.Icc lo 1) := by
    apply ContinuousOn.inv₀ (continuous_sqrt.comp_continuousOn hE)
    intro a ha
    exact (sqrt_pos.2 (hp.pos a (lt_of_lt_of_le hlo ha.1) ha.2)).ne'
  unfold integrand
  by_cases hk : k = .lookback
  · simp only [hk, if_true]
    exact (continuousOn_id.mul hs).div_const _
  · simp only [hk, if_false]
    exact hs.div_const _

theorem integrable (p : Cosmo) (hp : Good p) (k : Kind) (lo hi : ℝ) (hlo : 0 < lo) (h : lo ≤ hi) (hhi : hi ≤ 1) :
    IntervalIntegrable (integrand p k) MeasureTheory.volume lo hi := by
  apply ContinuousOn.intervalIntegrable
  rw [Set.uIcc_of_le h]
  exact (integrand_cont p hp k lo hlo).mono (Set.Icc_subset_Icc_right hhi)

theorem intres_strict (p : Cosmo) (hp : Good p) (k : Kind) (z w : ℝ) (hz : 0 ≤ z) (h : z < w) : intres p k z < intres p k w := by
  have hw : 0 ≤ w := hz.trans h.le
  have sz := scale_mem hz
  have sw := scale_mem hw
  have hlt : 1 / (w + 1) < 1 / (z + 1) := one_div_lt_one_div_of_lt (by linarith) (by linarith)
  have e := integral_add_adjacent_intervals (integrable p hp k _ _ sw.1 hlt.le sz.2) (integrable p hp k _ _ sz.1 sz.2 le_rfl)
  unfold intres
  rw [← e]
  have : 0 < ∫ a in (1 / (w + 1))..(1 / (z + 1)), integrand p k a := by
    apply intervalIntegral_pos_of_pos_on (integrable p hp k _ _ sw.1 hlt.le sz.2) _ hlt
    intro a ha
    exact integrand_pos p hp k a (sw.1.trans ha.1) (ha.2.le.trans sz.2)
  linarith

theorem intres_zero (p : Cosmo) (k : Kind) : intres p k 0 = 0 := by
  unfold intres; simp

theorem intres_pos (p : Cosmo) (hp : Good p) (k : Kind) (z : ℝ) (hz : 0 < z) : 0 < intres p k z := by
  rw [← intres_zero p k]
  exact intres_strict p hp k 0 z le_rfl hz

theorem c_pos : 0 < c := by unfold c; norm_num

/-- Every distance (and the lookback time) of redshift 0 is 0. -/
theorem dist_zero (p : Cosmo) (k : Kind) (hk : k ≠ .distmod) : dist p k 0 = 0 := by
  cases k
  case comoving => simp [dist, intres_zero]
  case luminosity => simp [dist, intres_zero]
  case angular => simp [dist, intres_zero]
  case lookback => simp [dist, intres_zero]
  case distmod => exact absurd rfl hk

/-- Comoving distance, luminosity distance and lookback time grow strictly with redshift, for every cosmology that has been
expanding since the beginning. -/
theorem dist_strict (p : Cosmo) (hp : Good p) (k : Kind) (hk : k = .comoving ∨ k = .luminosity ∨ k = .lookback) (z w : ℝ)
    (hz : 0 ≤ z) (h : z < w) : dist p k z < dist p k w := by
  have hc := c_pos
  have hi := intres_strict p hp k z w hz h
  have h0 : 0 ≤ intres p k z := by
    rcases hz.eq_or_lt with rfl | hz'
    · rw [intres_zero]
    · exact (intres_pos p hp k z hz').le
  rcases hk with rfl | rfl | rfl
  · exact mul_lt_mul_of_pos_left hi hc
  · simp only [dist, one_div, div_inv_eq_mul]
    have : 0 < intres p .luminosity w := lt_of_le_of_lt h0 hi
    nlinarith [mul_pos hc this, mul_pos hc (sub_pos.2 hi)]
  · simp only [dist]
    nlinarith

/-- The distance modulus too (from any positive redshift). -/
theorem distmod_strict (p : Cosmo) (hp : Good p) (z w : ℝ) (hz : 0 < z) (h : z < w) : dist p .distmod z < dist p .distmod w := by
  have h1 := dist_strict p hp .luminosity (Or.inr (Or.inl rfl)) z w hz.le h
  have h0 := dist_strict p hp .luminosity (Or.inr (Or.inl rfl)) 0 z le_rfl hz
  rw [dist_zero p .luminosity (by decide)] at h0
  have e : ∀ x, intres p .distmod x = intres p .luminosity x := fun x => rfl
  simp only [dist] at h0 h1 ⊢
  rw [e, e]
  have := Real.logb_lt_logb (b := 10) (by norm_num) (mul_pos h0 (by norm_num : (0 : ℝ) < 1000000))
    (mul_lt_mul_of_pos_right h1 (by norm_num : (0 : ℝ) < 1000000))
  linarith

/-- The upper and lower errors are nonnegative and give the distances at the ends of the redshift interval. -/
theorem dist_errors (p : Cosmo) (hp : Good p) (k : Kind) (hk : k = .comoving ∨ k = .luminosity ∨ k = .lookback) (z zerr : ℝ)
    (h : 0 < zerr) (hz : zerr ≤ z) :
    0 < (distErr p k z zerr).2.1 ∧ 0 < (distErr p k z zerr).2.2 ∧
    (distErr p k z zerr).1 + (distErr p k z zerr).2.1 = dist p k (z + zerr) ∧
    (distErr p k z zerr).1 - (distErr p k z zerr).2.2 = dist p k (z - zerr) := by
  have h1 := dist_strict p hp k hk z (z + zerr) (h.le.trans hz) (by linarith)
  have h2 := dist_strict p hp k hk (z - zerr) z (by linarith) (by linarith)
  unfold distErr
  exact ⟨by simpa using h1, by simpa using h2, by simp, by simp⟩

/-- A distance normalised at `z0` is 1 there, and below 1 exactly nearer than `z0`. -/
theorem normed_spec (p : Cosmo) (hp : Good p) (k : Kind) (hk : k = .comoving ∨ k = .luminosity ∨ k = .lookback) (z0 z : ℝ)
    (h0 : 0 < z0) (hz : 0 ≤ z) : distNormed p k z0 z0 = 1 ∧ (distNormed p k z0 z < 1 ↔ z < z0) := by
  have hd : 0 < dist p k z0 := by
    have := dist_strict p hp k hk 0 z0 le_rfl h0
    rwa [dist_zero p k (by rcases hk with rfl | rfl | rfl <;> decide)] at this
  unfold distNormed
  refine ⟨by field_simp, ?_⟩
  rw [one_div, inv_mul_lt_iff₀ hd, mul_one]
  constructor
  · intro h
    by_contra hn
    push Not at hn
    rcases hn.eq_or_lt with rfl | hlt
    · exact lt_irrefl _ h
    · exact lt_asymm h (dist_strict p hp k hk z0 z h0.le hlt)
  · exact fun h => dist_strict p hp k hk z z0 hz h

/-! ## Relations between the distances -/

/-- Luminosity distance is `(1+z)` times the comoving distance, and the distance modulus is that of the luminosity distance. -/
theorem luminosity_comoving (p : Cosmo) (z : ℝ) :
    dist p .luminosity z = (1 + z) * dist p .comoving z ∧
    dist p .distmod z = 5 * logb 10 (dist p .luminosity z * 1000000) - 5 := by
  have e : intres p .luminosity z = intres p .comoving z := rfl
  have e2 : intres p .distmod z = intres p .luminosity z := rfl
  constructor
  · simp only [dist, e, one_div, div_inv_eq_mul]; ring
  · simp only [dist, e2]

/-- In a flat cosmology the angular diameter distance is the luminosity distance divided by `(1+z)²`, and for positive redshift
angular < comoving < luminosity. -/
theorem duality_flat (p : Cosmo) (hp : Good p) (hK : p.K = 0) (z : ℝ) (hz : 0 < z) :
    dist p .luminosity z = (1 + z) ^ 2 * dist p .angular z ∧
    dist p .angular z < dist p .comoving z ∧ dist p .comoving z < dist p .luminosity z := by
  have e : intres p .luminosity z = intres p .comoving z := rfl
  have e2 : intres p .angular z = intres p .comoving z := rfl
  have hi := mul_pos c_pos (intres_pos p hp .comoving z hz)
  have hz1 : z + 1 ≠ 0 := by linarith
  refine ⟨?_, ?_, ?_⟩
  · simp only [dist, hK, if_true, e, e2]
    field_simp
    ring
  · simp only [dist, hK, if_true, e2]
    have : 1 / (z + 1) < 1 := by rw [div_lt_one (by linarith)]; linarith
    nlinarith
  · simp only [dist, e, one_div, div_inv_eq_mul]
    nlinarith

/-- The angular diameter distance in a curved cosmology, without complex numbers: a sine for a closed one, a hyperbolic sine for an
open one. -/
theorem angular_curved (p : Cosmo) (z : ℝ) :
    (p.K < 0 → dist p .angular z = c * (sin (p.H0 * √(-p.K) * intres p .angular z) / (p.H0 * √(-p.K))) * (1 / (z + 1))) ∧
    (0 < p.K → dist p .angular z = c * (sinh (p.H0 * √p.K * intres p .angular z) / (p.H0 * √p.K)) * (1 / (z + 1))) := by
  constructor
  · intro h
    simp only [dist, if_neg h.ne, csqrt, if_pos (by linarith : 0 ≤ -p.K)]
    congr 2
    rw [← Complex.ofReal_mul, ← Complex.ofReal_mul, ← Complex.ofReal_sin, ← Complex.ofReal_div, Complex.ofReal_re]
  · intro h
    simp only [dist, if_neg h.ne', csqrt, if_neg (by linarith : ¬ 0 ≤ -p.K), neg_neg]
    congr 2
    rw [show (p.H0 : ℂ) * (Complex.I * (√p.K : ℝ)) * (intres p .angular z : ℝ) =
        ((p.H0 * √p.K * intres p .angular z : ℝ) : ℂ) * Complex.I by push_cast; ring,
      Complex.sin_mul_I, show (p.H0 : ℂ) * (Complex.I * (√p.K : ℝ)) = ((p.H0 * √p.K : ℝ) : ℂ) * Complex.I by push_cast; ring,
      mul_div_mul_right _ _ Complex.I_ne_zero, ← Complex.ofReal_sinh, ← Complex.ofReal_div, Complex.ofReal_re]

/-- So distance duality, `luminosity = (1+z)² angular`, holds at a positive redshift exactly in flat cosmologies: the luminosity
distance (and with it the distance modulus) leaves the curvature out. -/
theorem duality_iff_flat (p : Cosmo) (hp : Good p) (z : ℝ) (hz : 0 < z) :
    dist p .luminosity z = (1 + z) ^ 2 * dist p .angular z ↔ p.K = 0 := by
  constructor
  · intro h
    by_contra hK
    have hc := c_pos
    have hH := hp.H0
    have hi := intres_pos p hp .angular z hz
    have e : intres p .luminosity z = intres p .angular z := rfl
    have hz1 : z + 1 ≠ 0 := by linarith
    rcases lt_or_gt_of_ne hK with hneg | hpos
    · rw [(angular_curved p z).1 hneg] at h
      have hs : 0 < √(-p.K) := sqrt_pos.2 (by linarith)
      have hx : 0 < p.H0 * √(-p.K) * intres p .angular z := by positivity
      have hlt := sin_lt hx
      simp only [dist, e] at h
      field_simp at h
      rw [show intres p .angular z * p.H0 * √(-p.K) = p.H0 * √(-p.K) * intres p .angular z by ring] at h
      have hq : 0 < (1 + z) ^ 2 := by positivity
      nlinarith
    · rw [(angular_curved p z).2 hpos] at h
      have hs : 0 < √p.K := sqrt_pos.2 hpos
      have hx : 0 < p.H0 * √p.K * intres p .angular z := by positivity
      have hlt := self_lt_sinh_iff.2 hx
      simp only [dist, e] at h
      field_simp at h
      rw [show intres p .angular z * p.H0 * √p.K = p.H0 * √p.K * intres p .angular z by ring] at h
      have hq : 0 < (1 + z) ^ 2 := by positivity
      nlinarith
  · intro hK
    exact (duality_flat p hp hK z hz).1

/-! ## From distance to redshift -/

/-- What `scipy.optimize.brenth(f,lo,hi)` does: with a change of sign it returns a root between `lo` and `hi`, otherwise it raises
ValueError.  (Roots are exact in the model.) -/
structure RootFinder (brenth : (ℝ → ℝ) → ℝ → ℝ → Option ℝ) : Prop where
  root : ∀ f lo hi, f lo * f hi ≤ 0 → (∃ x, lo ≤ x ∧ x ≤ hi ∧ f x = 0) →
    ∃ x, brenth f lo hi = some x ∧ lo ≤ x ∧ x ≤ hi ∧ f x = 0
  noSign : ∀ f lo hi, 0 < f lo * f hi → brenth f lo hi = none

/-- The loop `while f(maxz,d) > 0: maxz=maxz**2` from 10000 on, coords/funcs.py 946-951; the seventh squaring of the floating-point
number overflows, and the overflow becomes a ValueError. -/
noncomputable def findMax (f : ℝ → ℝ) : Nat → ℝ → Option ℝ
  | 0, m => if f m > 0 then none else some m
  | n + 1, m => if f m > 0 then findMax f n (m ^ 2) else some m

/-- `cosmo_dist_to_z(d,disttype=k)`, coords/funcs.py 927-955; `none` is the ValueError. -/
noncomputable def distToZ (brenth : (ℝ → ℝ) → ℝ → ℝ → Option ℝ) (p : Cosmo) (k : Kind) (d : ℝ) : Option ℝ :=
  match findMax (fun z => d - dist p k z) 6 10000 with
  | none => none
  | some m => brenth (fun z => d - dist p k z) 0 m

theorem findMax_ge (f : ℝ → ℝ) (n : Nat) : ∀ m m', findMax f n m = some m' → f m' ≤ 0 ∧ ∃ j ≤ n, m' = m ^ 2 ^ j := by
  induction n with
  | zero =>
    intro m m' h
    unfold findMax at h
    split at h
    · simp at h
    · cases h
      exact ⟨by linarith, 0, le_rfl, by simp⟩
  | succ n ih =>
    intro m m' h
    unfold findMax at h
    split at h
    · obtain ⟨h1, j, hj, e⟩ := ih _ _ h
      refine ⟨h1, j + 1, by omega, ?_⟩
      rw [e, ← pow_mul, pow_succ]; ring_nf
    · cases h
      exact ⟨by linarith, 0, by omega, by simp⟩

theorem findMax_none (f : ℝ → ℝ) (n : Nat) : ∀ m, findMax f n m = none ↔ ∀ j ≤ n, 0 < f (m ^ 2 ^ j) := by
  induction n with
  | zero =>
    intro m
    unfold findMax
    constructor
    · intro h j hj
      have : j = 0 := by omega
      subst this
      split at h
      · simpa using ‹f m > 0›
      · simp at h
    · intro h
      rw [if_pos (by simpa using h 0 le_rfl)]
  | succ n ih =>
    intro m
    unfold findMax
    constructor
    · intro h j hj
      split at h
      · cases j with
        | zero => simpa using ‹f m > 0›
        | succ j =>
          have := (ih _).1 h j (by omega)
          rwa [← pow_mul, show 2 * 2 ^ j = 2 ^ (j + 1) by rw [pow_succ]; ring] at this
      · simp at h
    · intro h
      rw [if_pos (by simpa using h 0 (by omega)), ih]
      intro j hj
      have := h (j + 1) (by omega)
      rwa [pow_succ, mul_comm, pow_mul] at this

/-- `cosmo_dist_to_z` inverts comoving distance, luminosity distance and lookback time up to redshift `10^256`, with any root
finder; beyond that it raises ValueError. -/
theorem dist_to_z_inverse (brenth : (ℝ → ℝ) → ℝ → ℝ → Option ℝ) (hb : RootFinder brenth) (p : Cosmo) (hp : Good p) (k : Kind)
    (hk : k = .comoving ∨ k = .luminosity ∨ k = .lookback) (z : ℝ) (hz : 0 ≤ z) :
    distToZ brenth p k (dist p k z) = if z ≤ 10 ^ 256 then some z else none := by
  have hmono : ∀ x y, 0 ≤ x → x < y → dist p k x < dist p k y := fun x y hx h => dist_strict p hp k hk x y hx h
  have hle : ∀ x y, 0 ≤ x → x ≤ y → dist p k x ≤ dist p k y := by
    intro x y hx h
    rcases h.eq_or_lt with rfl | h
    · exact le_rfl
    · exact (hmono x y hx h).le
  have hiff : ∀ m, 0 ≤ m → (0 < dist p k z - dist p k m ↔ m < z) := by
    intro m hm
    constructor
    · intro h
      by_contra hn
      push Not at hn
      have := hle z m hz hn
      linarith
    · intro h
      have := hmono m z hm h
      linarith
  unfold distToZ
  by_cases hbig : z ≤ 10 ^ 256
  · rw [if_pos hbig]
    cases hf : findMax (fun w => dist p k z - dist p k w) 6 10000 with
    | none =>
      exfalso
      rw [findMax_none] at hf
      have := (hiff _ (by positivity)).1 (hf 6 le_rfl)
      have e : ((10000 : ℝ) ^ 2 ^ 6) = 10 ^ 256 := by
        rw [show (10000 : ℝ) = 10 ^ 4 by norm_num, ← pow_mul]
        norm_num
      rw [e] at this
      linarith
    | some m =>
      obtain ⟨h1, j, _, rfl⟩ := findMax_ge _ _ _ _ hf
      simp only at h1 ⊢
      have hm : (0 : ℝ) ≤ 10000 ^ 2 ^ j := by positivity
      have hzm : z ≤ 10000 ^ 2 ^ j := by
        by_contra hn
        push Not at hn
        have := (hiff _ hm).2 hn
        linarith
      have h0 : 0 ≤ dist p k z - dist p k 0 := by
        have := hle 0 z le_rfl hz
        linarith
      obtain ⟨x, hx, x0, xm, hroot⟩ := hb.root (fun w => dist p k z - dist p k w) 0 (10000 ^ 2 ^ j)
        (mul_nonpos_of_nonneg_of_nonpos h0 h1) ⟨z, hz, hzm, by simp⟩
      rw [hx]
      congr 1
      rcases lt_trichotomy x z with h | h | h
      · have := hmono x z x0 h; linarith
      · exact h
      · have := hmono z x hz h; linarith
  · rw [if_neg hbig]
    push Not at hbig
    have : findMax (fun w => dist p k z - dist p k w) 6 10000 = none := by
      rw [findMax_none]
      intro j hj
      rw [hiff _ (by positivity)]
      refine lt_of_le_of_lt ?_ hbig
      calc (10000 : ℝ) ^ 2 ^ j ≤ 10000 ^ 2 ^ 6 := pow_le_pow_right₀ (by norm_num) (Nat.pow_le_pow_right (by norm_num) hj)
        _ = 10 ^ 256 := by
          rw [show (10000 : ℝ) = 10 ^ 4 by norm_num, ← pow_mul]
    rw [this]

/-! ## An example: the Einstein-de Sitter cosmology -/

/-- `SCDMCosmology`, constants.py 345-352 (with the Hubble constant of its base class). -/
def scdm : Cosmo := ⟨72, 0, 1, 0⟩

theorem scdm_good : Good scdm := by
  constructor
  · norm_num [scdm]
  · intro a h0 _
    simp [scdm, Cosmo.E, Cosmo.K, h0]

/-- `WMAP7Cosmology`, constants.py 354-373. -/
noncomputable def wmap7 : Cosmo := ⟨71, 0, 0.044 + 0.222, 0.734⟩

theorem wmap7_good : Good wmap7 ∧ wmap7.K = 0 := by
  refine ⟨⟨by norm_num [wmap7], ?_⟩, by norm_num [wmap7, Cosmo.K]⟩
  intro a h0 _
  have : wmap7.K = 0 := by norm_num [wmap7, Cosmo.K]
  unfold Cosmo.E
  rw [this]
  simp only [wmap7]
  positivity

/-- An open cosmology, to which the curved case applies. -/
noncomputable def openCosmo : Cosmo := ⟨72, 0, 0.3, 0⟩

theorem open_good : Good openCosmo ∧ 0 < openCosmo.K := by
  have hK : openCosmo.K = 0.7 := by norm_num [openCosmo, Cosmo.K]
  refine ⟨⟨by norm_num [openCosmo], ?_⟩, by rw [hK]; norm_num⟩
  intro a h0 _
  unfold Cosmo.E
  rw [hK]
  simp only [openCosmo]
  positivity

example (z : ℝ) (hz : 0 < z) : dist openCosmo .luminosity z ≠ (1 + z) ^ 2 * dist openCosmo .angular z := by
  rw [Ne, duality_iff_flat openCosmo open_good.1 z hz]
  exact open_good.2.ne'

/-- The closed form of the integral in the Einstein-de Sitter cosmology. -/
theorem scdm_intres (z : ℝ) (hz : 0 ≤ z) : intres scdm .angular z = 2 * (1 - √(1 / (z + 1))) / 72 := by
  have hs := scale_mem hz
  unfold intres
  have hE : ∀ a, scdm.E a = a := by intro a; simp [scdm, Cosmo.E, Cosmo.K]
  have hi : ∀ a ∈ Set.uIcc (1 / (z + 1)) 1, HasDerivAt (fun a => 2 * √a / 72) (integrand scdm .angular a) a := by
    intro a ha
    rw [Set.uIcc_of_le hs.2] at ha
    have ha0 : 0 < a := lt_of_lt_of_le hs.1 ha.1
    have h := ((hasDerivAt_sqrt ha0.ne').const_mul 2).div_const 72
    have e : integrand scdm .angular a = 2 * (1 / (2 * √a)) / 72 := by
      have : √a ≠ 0 := (sqrt_pos.2 ha0).ne'
      have h72 : scdm.H0 = 72 := rfl
      unfold integrand
      rw [if_neg (by decide), hE, h72]
      field_simp
    rw [e]
    exact h
  rw [integral_eq_sub_of_hasDerivAt hi (integrable scdm scdm_good .angular _ _ hs.1 hs.2 le_rfl)]
  simp
  ring

/-- For the angular diameter distance `cosmo_dist_to_z` raises ValueError although the distance is attained: every distance of at
least one Mpc is reported impossible in the Einstein-de Sitter cosmology, also that of redshift 1 (whose distance is over 1000 Mpc). -/
theorem angular_to_z_fails (brenth : (ℝ → ℝ) → ℝ → ℝ → Option ℝ) (d : ℝ) (hd : 1 ≤ d) :
    distToZ brenth scdm .angular d = none ∧ 1000 < dist scdm .angular 1 := by
  have hK : scdm.K = 0 := by simp [scdm, Cosmo.K]
  constructor
  · unfold distToZ
    have : findMax (fun w => d - dist scdm .angular w) 6 10000 = none := by
      rw [findMax_none]
      intro j _
      have hm : (10000 : ℝ) ≤ 10000 ^ 2 ^ j := le_self_pow₀ (by norm_num) (by positivity)
      set m := (10000 : ℝ) ^ 2 ^ j with hmdef
      simp only [dist, hK, if_true]
      rw [scdm_intres m (by linarith)]
      have h1 : 2 * (1 - √(1 / (m + 1))) / 72 ≤ 2 / 72 := by
        have := sqrt_nonneg (1 / (m + 1)); linarith
      have h2 : c * (2 * (1 - √(1 / (m + 1))) / 72) * (1 / (m + 1)) ≤ c * (2 / 72) * (1 / 10001) := by
        have hc := c_pos
        have a1 : c * (2 * (1 - √(1 / (m + 1))) / 72) ≤ c * (2 / 72) := mul_le_mul_of_nonneg_left h1 hc.le
        have a2 : 1 / (m + 1) ≤ 1 / 10001 := one_div_le_one_div_of_le (by norm_num) (by linarith)
        have a3 : 0 < 1 / (m + 1) := by positivity
        calc _ ≤ c * (2 / 72) * (1 / (m + 1)) := mul_le_mul_of_nonneg_right a1 a3.le
          _ ≤ _ := mul_le_mul_of_nonneg_left a2 (by positivity)
      have h3 : c * (2 / 72) * (1 / 10001) < 1 := by unfold c; norm_num
      linarith
    rw [this]
  · simp only [dist, hK, if_true]
    rw [scdm_intres 1 (by norm_num)]
    have hs : √(1 / (1 + 1)) ≤ 0.71 := by
      rw [sqrt_le_left (by norm_num)]; norm_num
    unfold c
    linarith

/-- The inverse applies to the default kind of cosmology. -/
example (brenth : (ℝ → ℝ) → ℝ → ℝ → Option ℝ) (hb : RootFinder brenth) : distToZ brenth wmap7 .luminosity (dist wmap7 .luminosity 3) = some 3 := by
  rw [dist_to_z_inverse brenth hb wmap7 wmap7_good.1 .luminosity (Or.inr (Or.inl rfl)) 3 (by norm_num), if_pos (by norm_num)]

/-- A root finder in the sense of the specification exists. -/
noncomputable def someRoot (f : ℝ → ℝ) (lo hi : ℝ) : Option ℝ :=
  open Classical in
  if h : f lo * f hi ≤ 0 ∧ ∃ x, lo ≤ x ∧ x ≤ hi ∧ f x = 0 then some h.2.choose else none

theorem someRoot_spec : RootFinder someRoot := by
  constructor
  · intro f lo hi h1 h2
    refine ⟨h2.choose, ?_, h2.choose_spec⟩
    unfold someRoot
    rw [dif_pos ⟨h1, h2⟩]
  · intro f lo hi h
    unfold someRoot
    rw [dif_neg (fun hh => absurd hh.1 (by linarith))]

/-! ## Densities -/

/-- `rhoC(z)` up to the constant factor `3/(8 pi G)` and units, constants.py 293-320. -/
noncomputable def Cosmo.rhoC (p : Cosmo) (f : ℝ) (z : ℝ) : ℝ := f * (p.H z * p.H z)

/-- `computeOmegaRz` and so on, constants.py 265-291. -/
noncomputable def Cosmo.omegaRz (p : Cosmo) (f z : ℝ) : ℝ := (p.rhoC f 0 / p.rhoC f z) * p.R * (1 / (1 + z))⁻¹ ^ 4
noncomputable def Cosmo.omegaMz (p : Cosmo) (f z : ℝ) : ℝ := (p.rhoC f 0 / p.rhoC f z) * p.M * (1 / (1 + z))⁻¹ ^ 3
noncomputable def Cosmo.omegaLz (p : Cosmo) (f z : ℝ) : ℝ := p.L * (p.rhoC f 0 / p.rhoC f z)
noncomputable def Cosmo.omegaKz (p : Cosmo) (f z : ℝ) : ℝ := (p.rhoC f 0 / p.rhoC f z) * p.K * (1 / (1 + z))⁻¹ ^ 2

/-- `rho(z)`, constants.py 322-328: today's total density parameter times the critical density at `z`. -/
noncomputable def Cosmo.rho (p : Cosmo) (f z : ℝ) : ℝ := (p.R + p.M + p.L) * p.rhoC f z

theorem H_sq (p : Cosmo) (hp : Good p) (z : ℝ) (hz : 0 ≤ z) :
    p.H z * p.H z = p.H0 * p.H0 * (p.R * (1 + z) ^ 4 + p.M * (1 + z) ^ 3 + p.L + p.K * (1 + z) ^ 2) := by
  have hs := scale_mem hz
  have h1 := hp.pos _ hs.1 hs.2
  have hz1 : (1 : ℝ) + z ≠ 0 := by linarith
  have e : p.E (1 / (z + 1)) = (p.R * (1 + z) ^ 4 + p.M * (1 + z) ^ 3 + p.L + p.K * (1 + z) ^ 2) / (1 + z) ^ 4 := by
    unfold Cosmo.E
    rw [add_comm z 1]
    field_simp
  have hpos : 0 ≤ p.R * (1 + z) ^ 4 + p.M * (1 + z) ^ 3 + p.L + p.K * (1 + z) ^ 2 := by
    rw [e] at h1
    have : 0 < (1 + z) ^ 4 := by positivity
    exact ((div_pos_iff_of_pos_right this).1 h1).le
  unfold Cosmo.H
  simp only [one_div, inv_inv]
  rw [mul_mul_mul_comm, mul_self_sqrt hpos]

/-- The density parameters sum to one at every redshift, and are today's ones at redshift 0. -/
theorem omegas_sum (p : Cosmo) (hp : Good p) (f : ℝ) (hf : 0 < f) (z : ℝ) (hz : 0 ≤ z) :
    p.omegaRz f z + p.omegaMz f z + p.omegaLz f z + p.omegaKz f z = 1 ∧
    p.omegaRz f 0 = p.R ∧ p.omegaMz f 0 = p.M ∧ p.omegaLz f 0 = p.L ∧ p.omegaKz f 0 = p.K := by
  have h0 := H_pos p hp 0 le_rfl
  have hzp := H_pos p hp z hz
  have hr0 : p.rhoC f 0 ≠ 0 := by unfold Cosmo.rhoC; positivity
  have hr : p.rhoC f z ≠ 0 := by unfold Cosmo.rhoC; positivity
  have hH0 := hp.H0
  refine ⟨?_, ?_, ?_, ?_, ?_⟩
  · unfold Cosmo.omegaRz Cosmo.omegaMz Cosmo.omegaLz Cosmo.omegaKz
    simp only [one_div, inv_inv]
    rw [show p.rhoC f 0 / p.rhoC f z * p.R * (1 + z) ^ 4 + p.rhoC f 0 / p.rhoC f z * p.M * (1 + z) ^ 3 +
        p.L * (p.rhoC f 0 / p.rhoC f z) + p.rhoC f 0 / p.rhoC f z * p.K * (1 + z) ^ 2 =
        p.rhoC f 0 * (p.R * (1 + z) ^ 4 + p.M * (1 + z) ^ 3 + p.L + p.K * (1 + z) ^ 2) / p.rhoC f z by ring]
    rw [div_eq_one_iff_eq hr]
    unfold Cosmo.rhoC
    rw [H_sq p hp z hz, H_zero]
    ring
  · unfold Cosmo.omegaRz; simp [hr0]
  · unfold Cosmo.omegaMz; simp [hr0]
  · unfold Cosmo.omegaLz; simp [hr0]
  · unfold Cosmo.omegaKz; simp [hr0]

/-- The mean density `rho(z)` is the density of the components at `z` exactly if the cosmology is flat, the redshift is 0, or
the curvature parameter happens to be the same at `z`. -/
theorem rho_iff (p : Cosmo) (hp : Good p) (f : ℝ) (hf : 0 < f) (z : ℝ) (hz : 0 ≤ z) :
    p.rho f z = (p.omegaRz f z + p.omegaMz f z + p.omegaLz f z) * p.rhoC f z ↔ p.omegaKz f z = p.K := by
  have hzp := H_pos p hp z hz
  have hr : p.rhoC f z ≠ 0 := by unfold Cosmo.rhoC; positivity
  have hs := (omegas_sum p hp f hf z hz).1
  unfold Cosmo.rho
  rw [mul_left_inj' hr]
  have : p.K = 1 - p.M - p.L - p.R := rfl
  constructor <;> intro h <;> linarith

/-- In an open cosmology of matter alone it is too small at every positive redshift. -/
theorem rho_open_wrong (f : ℝ) (hf : 0 < f) (z : ℝ) (hz : 0 < z) :
    openCosmo.rho f z ≠ (openCosmo.omegaRz f z + openCosmo.omegaMz f z + openCosmo.omegaLz f z) * openCosmo.rhoC f z := by
  rw [Ne, rho_iff openCosmo open_good.1 f hf z hz.le]
  have hzp := H_pos openCosmo open_good.1 z hz.le
  have hr : openCosmo.rhoC f z ≠ 0 := by unfold Cosmo.rhoC; positivity
  have hK : openCosmo.K = 0.7 := by norm_num [openCosmo, Cosmo.K]
  intro h
  unfold Cosmo.omegaKz at h
  rw [hK] at h
  simp only [one_div, inv_inv] at h
  have h2 : openCosmo.rhoC f 0 * (1 + z) ^ 2 = openCosmo.rhoC f z := by
    have : openCosmo.rhoC f 0 / openCosmo.rhoC f z * (1 + z) ^ 2 = 1 := by linarith
    field_simp at this
    linarith
  unfold Cosmo.rhoC at h2
  rw [H_sq openCosmo open_good.1 z hz.le, H_zero, hK] at h2
  simp only [openCosmo] at h2
  have h3 : (1 + z) ^ 2 = 0 * (1 + z) ^ 4 + 0.3 * (1 + z) ^ 3 + 0 + 0.7 * (1 + z) ^ 2 := by
    have : f * (72 * 72) ≠ 0 := by positivity
    apply mul_left_cancel₀ this
    linarith
  have h4 : (1 + z) ^ 2 * z = 0 := by nlinarith
  have : (1 + z) ^ 2 * z > 0 := by positivity
  linarith

/-! ## Flux densities -/

/-- constants.py 155-166. -/
noncomputable def flambdaToFnuL (cl fl lamb : ℝ) : ℝ := fl * lamb * lamb / cl
noncomputable def fnuToFlambdaL (cl fn lamb : ℝ) : ℝ := fn * cl / lamb / lamb
noncomputable def flambdaToFnuN (cl fl nu : ℝ) : ℝ := fl * cl / nu / nu
noncomputable def fnuToFlambdaN (cl fn nu : ℝ) : ℝ := fn * nu * nu / cl

/-- The flux density conversions are inverse to each other, and the forms by wavelength and by frequency agree. -/
theorem fluxdensity (cl x lamb nu : ℝ) (hc : 0 < cl) (hl : lamb ≠ 0) (hn : nu ≠ 0) :
    fnuToFlambdaL cl (flambdaToFnuL cl x lamb) lamb = x ∧ flambdaToFnuL cl (fnuToFlambdaL cl x lamb) lamb = x ∧
    fnuToFlambdaN cl (flambdaToFnuN cl x nu) nu = x ∧ flambdaToFnuN cl (fnuToFlambdaN cl x nu) nu = x ∧
    flambdaToFnuN cl x (cl / lamb) = flambdaToFnuL cl x lamb ∧ fnuToFlambdaN cl x (cl / lamb) = fnuToFlambdaL cl x lamb := by
  unfold fnuToFlambdaL flambdaToFnuL fnuToFlambdaN flambdaToFnuN
  refine ⟨?_, ?_, ?_, ?_, ?_, ?_⟩ <;> field_simp

end Verif.CosmoDist
