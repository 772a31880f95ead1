import Mathlib.MeasureTheory.Integral.IntegralEqImproper
import Mathlib.Analysis.SpecialFunctions.Gaussian.GaussianIntegral
import Mathlib.Analysis.Calculus.Deriv.Polynomial
import Mathlib.MeasureTheory.Measure.Lebesgue.Integral
import Mathlib.Algebra.Polynomial.Derivative
import Mathlib.Algebra.Polynomial.Degree.Operations

/-!
# Gauss-Hermite line profiles (astropysics/models.py 395-457) (C168)

Real arithmetic; `scipy.special.hermite` by its specification (orthogonal for the weight exp(-x²), leading coefficient 2^n, proved below of
the polynomials used here), `scipy.integrate.quad` the integral.
-/

open Polynomial MeasureTheory Real

namespace Verif.GaussHermite

/-- Exceptions. -/
inductive Err
  | value | index
  deriving DecidableEq

/-- `scipy.special.hermite(n)`. -/
noncomputable def H : ℕ → ℝ[X]
  | 0 => 1
  | n + 1 => 2 * X * H n - derivative (H n)

/-- `alpha`, models.py 410, 443. -/
noncomputable def alpha (w : ℝ) : ℝ := exp (-w ^ 2 / 2) * (√(2 * π))⁻¹

/-- The sum over `hj3` with the polynomials from number `j` on, models.py 411. -/
noncomputable def series (w : ℝ) : ℕ → List ℝ → ℝ
  | _, [] => 0
  | j, h :: hs => h * (H j).eval w + series w (j + 1) hs

/-- `f` at one velocity, models.py 406-411. -/
noncomputable def gh (A v0 sig : ℝ) (hs : List ℝ) (v : ℝ) : ℝ :=
  A * alpha ((v - v0) / sig) / sig * (1 + series ((v - v0) / sig) 3 hs)

/-- `f` for an array, models.py 406-411: without any `h` the sum over an array of shape (0,0) is an empty array, which can be multiplied
with arrays of length 0 or 1 only. -/
noncomputable def values (A v0 sig : ℝ) (hs : List ℝ) (v : List ℝ) : Except Err (List ℝ) :=
  if hs = [] then (if v.length ≤ 1 then .ok [] else .error .value) else .ok (v.map (gh A v0 sig hs))

/-- `self._Hpolys[l]` with `N` polynomials: negative numbers count from the end. -/
noncomputable def pick (N : ℕ) (l : ℤ) : Except Err ℝ[X] :=
  if 0 ≤ l ∧ l < N then .ok (H l.toNat) else if l < 0 ∧ -N ≤ l then .ok (H (l + N).toNat) else .error .index

/-- `gaussHermiteMoment(l,f)` over all velocities, models.py 434-455; there are `len(self.params)` polynomials. -/
noncomputable def moment (A v0 sig : ℝ) (hs : List ℝ) (l : ℚ) (f : ℝ → ℝ) : Except Err ℝ :=
  if l.den ≠ 1 then .error .value
  else
    match pick (3 + hs.length) l.num with
    | .error e => .error e
    | .ok P => .ok ((∫ v, f v * (alpha ((v - v0) / sig) * P.eval ((v - v0) / sig))) / A / ((∫ x, P.eval x * P.eval x * exp (-(x * x))) / (2 * π)))

/-! ## Hermite polynomials -/

theorem integrable_pow (n : ℕ) : Integrable fun x : ℝ => x ^ n * exp (-x ^ 2) := by
  have h := integrable_rpow_mul_exp_neg_mul_sq (b := 1) one_pos (s := n) (by have : (0 : ℝ) ≤ n := Nat.cast_nonneg n; linarith)
  simpa [rpow_natCast] using h

theorem integrable_poly (p : ℝ[X]) : Integrable fun x : ℝ => p.eval x * exp (-x ^ 2) := by
  induction p using Polynomial.induction_on' with
  | add p q hp hq =>
    simp only [eval_add, add_mul]
    exact hp.add hq
  | monomial n a =>
    simp only [eval_monomial, mul_assoc]
    exact (integrable_pow n).const_mul a

/-- Integration by parts against the Gaussian. -/
theorem by_parts (p : ℝ[X]) : ∫ x : ℝ, (derivative p).eval x * exp (-x ^ 2) = ∫ x : ℝ, (2 * X * p).eval x * exp (-x ^ 2) := by
  have hd : ∀ x : ℝ, HasDerivAt (fun x : ℝ => p.eval x * exp (-x ^ 2)) ((derivative p - 2 * X * p).eval x * exp (-x ^ 2)) x := by
    intro x
    have h1 : HasDerivAt (fun x : ℝ => exp (-x ^ 2)) (exp (-x ^ 2) * (-(2 * x))) x := by
      have h2 : HasDerivAt (fun x : ℝ => -x ^ 2) (-(2 * x)) x := by
        have := (hasDerivAt_pow 2 x).neg
        simp only [Nat.cast_ofNat, Nat.add_one_sub_one, pow_one, Nat.succ_sub_succ_eq_sub, Nat.sub_zero] at this
        exact this
      exact h2.exp
    have := (p.hasDerivAt x).mul h1
    have e : (derivative p - 2 * X * p).eval x * exp (-x ^ 2) = (derivative p).eval x * exp (-x ^ 2) + p.eval x * (exp (-x ^ 2) * (-(2 * x))) := by
      simp only [eval_sub, eval_mul, eval_ofNat, eval_X]
      ring
    rw [e]
    exact this
  have h0 := integral_eq_zero_of_hasDerivAt_of_integrable hd (integrable_poly _) (integrable_poly _)
  have h3 : ∫ x : ℝ, (derivative p - 2 * X * p).eval x * exp (-x ^ 2) =
      (∫ x : ℝ, (derivative p).eval x * exp (-x ^ 2)) - ∫ x : ℝ, (2 * X * p).eval x * exp (-x ^ 2) := by
    rw [← integral_sub (integrable_poly _) (integrable_poly _)]
    congr 1
    ext x
    rw [eval_sub, sub_mul]
  linarith

theorem shift (q : ℝ[X]) (n : ℕ) : ∫ x : ℝ, (q * H (n + 1)).eval x * exp (-x ^ 2) = ∫ x : ℝ, (derivative q * H n).eval x * exp (-x ^ 2) := by
  have e : q * H (n + 1) = 2 * X * (q * H n) - q * derivative (H n) := by rw [H]; ring
  have e2 : derivative q * H n = derivative (q * H n) - q * derivative (H n) := by rw [derivative_mul]; ring
  have split : ∀ a b : ℝ[X], ∫ x : ℝ, (a - b).eval x * exp (-x ^ 2) = (∫ x : ℝ, a.eval x * exp (-x ^ 2)) - ∫ x : ℝ, b.eval x * exp (-x ^ 2) := by
    intro a b
    rw [← integral_sub (integrable_poly _) (integrable_poly _)]
    congr 1
    ext x
    rw [eval_sub, sub_mul]
  rw [e, e2, split, split, by_parts]

theorem shift_all (q : ℝ[X]) (n : ℕ) : ∫ x : ℝ, (q * H n).eval x * exp (-x ^ 2) = ∫ x : ℝ, (derivative^[n] q).eval x * exp (-x ^ 2) := by
  induction n generalizing q with
  | zero => simp [H]
  | succ n ih => rw [shift, ih, Function.iterate_succ_apply]

theorem H_degree (n : ℕ) : (H n).natDegree ≤ n ∧ (H n).coeff n = 2 ^ n := by
  induction n with
  | zero => simp [H]
  | succ n ih =>
    have e : H (n + 1) = C 2 * (X * H n) - derivative (H n) := by rw [H]; simp only [map_ofNat]; ring
    refine ⟨?_, ?_⟩
    · rw [e]
      refine (natDegree_sub_le _ _).trans (max_le ?_ ?_)
      · refine (natDegree_C_mul_le _ _).trans ?_
        refine natDegree_mul_le.trans ?_
        rw [natDegree_X]; omega
      · refine (natDegree_derivative_le _).trans ?_
        omega
    · rw [e, coeff_sub, coeff_C_mul, coeff_X_mul, ih.2, coeff_derivative, coeff_eq_zero_of_natDegree_lt (by omega)]
      ring

theorem integral_gauss_pos : 0 < ∫ x : ℝ, exp (-x ^ 2) := by
  have := integral_gaussian 1
  simp only [neg_mul, one_mul, div_one] at this
  rw [this]
  exact sqrt_pos.2 pi_pos

/-- The polynomials are orthogonal for the weight exp(-x²). -/
theorem orthogonal {m n : ℕ} (h : m ≠ n) : ∫ x : ℝ, (H m * H n).eval x * exp (-x ^ 2) = 0 := by
  have key : ∀ m n : ℕ, m < n → ∫ x : ℝ, (H m * H n).eval x * exp (-x ^ 2) = 0 := by
    intro m n hmn
    rw [shift_all, iterate_derivative_eq_zero (lt_of_le_of_lt (H_degree m).1 hmn)]
    simp
  rcases lt_or_gt_of_ne h with h | h
  · exact key m n h
  · rw [mul_comm]; exact key n m h

/-- Their squares integrate to something positive. -/
theorem norm_pos (n : ℕ) : 0 < ∫ x : ℝ, (H n * H n).eval x * exp (-x ^ 2) := by
  rw [shift_all]
  have hc : derivative^[n] (H n) = C ((n.factorial : ℝ) * 2 ^ n) := by
    ext m
    rw [coeff_iterate_derivative, coeff_C]
    split_ifs with hm
    · subst hm
      rw [Nat.zero_add, (H_degree n).2, Nat.descFactorial_self, nsmul_eq_mul]
    · rw [coeff_eq_zero_of_natDegree_lt (by have := (H_degree n).1; omega), smul_zero]
  rw [hc]
  simp only [eval_C]
  rw [integral_const_mul]
  exact mul_pos (by positivity) integral_gauss_pos

/-! ## Moments -/

theorem series_integral (l : ℕ) (hs : List ℝ) : ∀ j : ℕ, (Integrable fun x : ℝ => series x j hs * (H l).eval x * exp (-x ^ 2)) ∧
    ∫ x : ℝ, series x j hs * (H l).eval x * exp (-x ^ 2) = (if j ≤ l then hs.getD (l - j) 0 else 0) * ∫ x : ℝ, (H l * H l).eval x * exp (-x ^ 2) := by
  induction hs with
  | nil => intro j; simp [series]
  | cons h hs ih =>
    intro j
    obtain ⟨i1, i2⟩ := ih (j + 1)
    have e : ∀ x : ℝ, series x j (h :: hs) * (H l).eval x * exp (-x ^ 2) =
        h * ((H j * H l).eval x * exp (-x ^ 2)) + series x (j + 1) hs * (H l).eval x * exp (-x ^ 2) := by
      intro x
      rw [series, eval_mul]
      ring
    simp only [e]
    have hi : Integrable fun x : ℝ => h * ((H j * H l).eval x * exp (-x ^ 2)) := (integrable_poly _).const_mul h
    refine ⟨hi.add i1, ?_⟩
    rw [integral_add hi i1, integral_const_mul, i2]
    rcases lt_trichotomy j l with hjl | hjl | hjl
    · rw [orthogonal (by omega), if_pos (by omega), if_pos (by omega)]
      obtain ⟨k, rfl⟩ : ∃ k, l = j + 1 + k := ⟨l - (j + 1), by omega⟩
      have e1 : j + 1 + k - (j + 1) = k := by omega
      have e2 : j + 1 + k - j = k + 1 := by omega
      rw [e1, e2]
      simp
    · subst hjl
      rw [if_neg (by omega), if_pos le_rfl]
      simp
    · rw [orthogonal (by omega), if_neg (by omega), if_neg (by omega)]
      simp

/-- What the profile has at the moment `l`: 1 for the first, nothing for the second and third, then the given numbers. -/
def coefficient (hs : List ℝ) (l : ℕ) : ℝ := if l = 0 then 1 else if l < 3 then 0 else hs.getD (l - 3) 0

theorem weighted (l : ℕ) (hs : List ℝ) : ∫ x : ℝ, (1 + series x 3 hs) * (H l).eval x * exp (-x ^ 2) =
    coefficient hs l * ∫ x : ℝ, (H l * H l).eval x * exp (-x ^ 2) := by
  obtain ⟨i1, i2⟩ := series_integral l hs 3
  have e : ∀ x : ℝ, (1 + series x 3 hs) * (H l).eval x * exp (-x ^ 2) =
      (H 0 * H l).eval x * exp (-x ^ 2) + series x 3 hs * (H l).eval x * exp (-x ^ 2) := by
    intro x
    rw [eval_mul, H, eval_one]
    ring
  simp only [e]
  rw [integral_add (integrable_poly _) i1, i2]
  unfold coefficient
  by_cases h0 : l = 0
  · subst h0
    simp
  · rw [orthogonal (Ne.symm h0), if_neg h0]
    by_cases h3 : l < 3
    · rw [if_pos h3, if_neg (by omega)]; simp
    · rw [if_neg h3, if_pos (by omega)]; simp

theorem alpha_sq (w : ℝ) : alpha w * alpha w = exp (-w ^ 2) / (2 * π) := by
  unfold alpha
  have h : (0 : ℝ) ≤ 2 * π := by positivity
  have h1 : (√(2 * π))⁻¹ * (√(2 * π))⁻¹ = (2 * π)⁻¹ := by rw [← mul_inv, mul_self_sqrt h]
  have h2 : exp (-w ^ 2 / 2) * exp (-w ^ 2 / 2) = exp (-w ^ 2) := by rw [← exp_add]; congr 1; ring
  calc exp (-w ^ 2 / 2) * (√(2 * π))⁻¹ * (exp (-w ^ 2 / 2) * (√(2 * π))⁻¹)
      = (exp (-w ^ 2 / 2) * exp (-w ^ 2 / 2)) * ((√(2 * π))⁻¹ * (√(2 * π))⁻¹) := by ring
    _ = _ := by rw [h1, h2, div_eq_mul_inv]

/-- C168.  The Gauss-Hermite moments of a profile are the numbers it was made with: number `l ≥ 3` is `h_l`, number 0 is 1, numbers 1 and
2 are 0 (with the sign of `sig`). -/
theorem moment_self (A v0 sig : ℝ) (hs : List ℝ) (hA : A ≠ 0) (hsig : sig ≠ 0) (l : ℕ) (hl : l < 3 + hs.length) :
    moment A v0 sig hs l (gh A v0 sig hs) = .ok ((if 0 < sig then 1 else -1) * coefficient hs l) := by
  have hden : ((l : ℚ)).den = 1 := by simp
  have hnum : ((l : ℚ)).num = (l : ℤ) := by simp
  unfold moment
  rw [if_neg (by simp [hden]), hnum]
  unfold pick
  rw [if_pos ⟨by omega, by push_cast; omega⟩]
  simp only [Int.toNat_natCast]
  congr 1
  have hn := norm_pos l
  have e1 : ∫ x : ℝ, (H l).eval x * (H l).eval x * exp (-(x * x)) = ∫ x : ℝ, (H l * H l).eval x * exp (-x ^ 2) := by
    congr 1; ext x; rw [eval_mul, sq]
  have e2 : ∀ v : ℝ, gh A v0 sig hs v * (alpha ((v - v0) / sig) * (H l).eval ((v - v0) / sig)) =
      (fun u : ℝ => (fun w : ℝ => A / sig / (2 * π) * ((1 + series w 3 hs) * (H l).eval w * exp (-w ^ 2))) (u / sig)) (v - v0) := by
    intro v
    unfold gh
    simp only
    have := alpha_sq ((v - v0) / sig)
    calc A * alpha ((v - v0) / sig) / sig * (1 + series ((v - v0) / sig) 3 hs) * (alpha ((v - v0) / sig) * eval ((v - v0) / sig) (H l))
        = A / sig * (alpha ((v - v0) / sig) * alpha ((v - v0) / sig)) * ((1 + series ((v - v0) / sig) 3 hs) * eval ((v - v0) / sig) (H l)) := by ring
      _ = _ := by rw [this]; ring
  simp only [e2]
  rw [integral_sub_right_eq_self (fun u : ℝ => (fun w : ℝ => A / sig / (2 * π) * ((1 + series w 3 hs) * (H l).eval w * exp (-w ^ 2))) (u / sig)) v0,
    Measure.integral_comp_div (fun w : ℝ => A / sig / (2 * π) * ((1 + series w 3 hs) * (H l).eval w * exp (-w ^ 2))) sig, integral_const_mul, weighted, e1,
    smul_eq_mul]
  have hpi : (π : ℝ) ≠ 0 := pi_ne_zero
  rcases lt_or_gt_of_ne hsig with hs0 | hs0
  · rw [abs_of_neg hs0, if_neg (by linarith)]
    field_simp
  · rw [abs_of_pos hs0, if_pos hs0]
    field_simp

/-- C168.  Moments that do not exist: fractions are a ValueError, numbers beyond the last are an IndexError; negative numbers count from
the end. -/
theorem moment_refused (A v0 sig : ℝ) (hs : List ℝ) (f : ℝ → ℝ) :
    (∀ l : ℚ, l.den ≠ 1 → moment A v0 sig hs l f = .error .value) ∧
    (∀ l : ℤ, (3 + hs.length : ℕ) ≤ l ∨ l < -(3 + hs.length : ℕ) → moment A v0 sig hs l f = .error .index) ∧
    (∀ k : ℕ, 1 ≤ k → k ≤ 3 + hs.length → moment A v0 sig hs (-(k : ℤ) : ℤ) f = moment A v0 sig hs ((3 + hs.length - k : ℕ) : ℤ) f) := by
  refine ⟨fun l h => by unfold moment; rw [if_pos h], ?_, ?_⟩
  · intro l h
    unfold moment pick
    have h1 : ¬ (((l : ℚ)).den ≠ 1) := by simp
    have h2 : ((l : ℚ)).num = l := by simp
    rw [if_neg h1, h2, if_neg (by omega), if_neg (by omega)]
  · intro k h1 h2
    unfold moment pick
    have d1 : ¬ (((-(k : ℤ) : ℤ) : ℚ).den ≠ 1) := not_not.2 (Rat.den_intCast _)
    have n1 : ((-(k : ℤ) : ℤ) : ℚ).num = -(k : ℤ) := Rat.num_intCast _
    have d2 : ¬ ((((3 + hs.length - k : ℕ) : ℤ) : ℚ).den ≠ 1) := not_not.2 (Rat.den_intCast _)
    have n2 : (((3 + hs.length - k : ℕ) : ℤ) : ℚ).num = ((3 + hs.length - k : ℕ) : ℤ) := Rat.num_intCast _
    rw [if_neg d1, n1, if_neg d2, n2, if_neg (by omega), if_pos (by omega), if_pos (by omega)]
    have : (-(k : ℤ) + (3 + hs.length : ℕ)).toNat = (((3 + hs.length - k : ℕ) : ℤ)).toNat := by omega
    rw [this]

/-- C168.  The values for an array. -/
theorem values_exact (A v0 sig : ℝ) (hs : List ℝ) (v : List ℝ) (h : hs ≠ []) : values A v0 sig hs v = .ok (v.map (gh A v0 sig hs)) := by
  unfold values; rw [if_neg h]

/-- C168 (a defect).  With no `h` at all the profile, a plain Gaussian, cannot be computed: two or more velocities are a ValueError, a
single one gives no value. -/
theorem plain_gaussian (A v0 sig : ℝ) (v : List ℝ) : values A v0 sig [] v = if v.length ≤ 1 then .ok [] else .error .value := by
  unfold values; rw [if_pos rfl]

/-- The profile is a Gaussian times a polynomial: with all `h` zero it is the Gaussian of area `A`. -/
theorem gaussian_profile (A v0 sig : ℝ) (n : ℕ) (v : ℝ) (hsig : 0 < sig) :
    gh A v0 sig (List.replicate n 0) v = A * (exp (-(v - v0) ^ 2 / (2 * sig ^ 2)) / (sig * √(2 * π))) := by
  have hz : ∀ w j, series w j (List.replicate n 0) = 0 := by
    intro w
    induction n with
    | zero => intro j; rfl
    | succ n ih => intro j; rw [List.replicate_succ, series, ih]; simp
  unfold gh alpha
  rw [hz]
  have : -((v - v0) / sig) ^ 2 / 2 = -(v - v0) ^ 2 / (2 * sig ^ 2) := by field_simp
  rw [this]
  field_simp
  ring

/-- A profile with `h3`: an antisymmetric one. -/
example : moment 2 0 1 [1 / 10] (3 : ℕ) (gh 2 0 1 [1 / 10]) = .ok (1 / 10) := by
  rw [moment_self 2 0 1 [1 / 10] (by norm_num) (by norm_num) 3 (by simp)]
  norm_num [coefficient]

end Verif.GaussHermite
