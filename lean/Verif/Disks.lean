import Mathlib.Analysis.SpecialFunctions.Trigonometric.Basic
import Mathlib.Analysis.SpecialFunctions.Trigonometric.DerivHyp
import Mathlib.Analysis.SpecialFunctions.Exp
import Mathlib.Tactic.Linarith
import Mathlib.Tactic.LinearCombination
import Mathlib.Tactic.FieldSimp
import Mathlib.Tactic.Ring

/-!
# Disk profiles (astropysics/models.py 304-329, 367-396) (C184)

`ExponentialDiskModel` and `ExponentialSechSqDiskModel` over the reals.  The base classes are those of pymodelfit and not modelled.
-/

namespace Verif.Disks

open Real

/-- The point in the frame of the disk, models.py 318-321. -/
noncomputable def frame (s z pa : ℝ) : ℝ × ℝ := (cos pa * s + sin pa * z, -sin pa * s + cos pa * z)

/-- `ExponentialDiskModel.f`, models.py 317-323. -/
noncomputable def expDisk (A l h pa s z : ℝ) : ℝ := A * exp (-|(frame s z pa).1 / l| - |(frame s z pa).2 / h|)

/-- `ExponentialDiskModel.rangehint`, models.py 325-328. -/
noncomputable def expHint (l h : ℝ) : ℝ × ℝ × ℝ × ℝ := (-2 * max h l, 2 * max h l, -2 * max h l, 2 * max h l)

/-- `ExponentialSechSqDiskModel.f`, models.py 381-392. -/
noncomputable def sechDisk (A l h pa s z : ℝ) : ℝ :=
  let q := if pa = 0 then (s, z) else frame s z pa
  A * exp (-|q.1 / l|) * (cosh (q.2 / h) ^ 2)⁻¹

/-- `ExponentialSechSqDiskModel.rangehint`, models.py 394-396. -/
noncomputable def sechHint (l h : ℝ) : ℝ × ℝ × ℝ × ℝ := (0, 3 * l, -3 * h, 3 * h)

/-! ## C184 -/

theorem frame_zero (s z : ℝ) : frame s z 0 = (s, z) := by simp [frame]

theorem sech_frame (A l h pa s z : ℝ) : sechDisk A l h pa s z = A * exp (-|(frame s z pa).1 / l|) * (cosh ((frame s z pa).2 / h) ^ 2)⁻¹ := by
  unfold sechDisk
  by_cases hp : pa = 0
  · subst hp; simp [frame_zero]
  · simp [hp]

/-- C184.  Without rotation the profiles are those of the documentation. -/
theorem unrotated (A l h s z : ℝ) :
    expDisk A l h 0 s z = A * exp (-|s / l|) * exp (-|z / h|) ∧ sechDisk A l h 0 s z = A * exp (-|s / l|) * (1 / cosh (z / h)) ^ 2 := by
  constructor
  · rw [expDisk, frame_zero, mul_assoc, ← exp_add, sub_eq_add_neg]
  · rw [sech_frame, frame_zero, one_div, inv_pow]

/-- C184.  The position angle turns the profile counter-clockwise: the value at the point turned by `pa` is the value of the profile without rotation at the point.  (Distance
r and direction t, counter-clockwise from the first axis.) -/
theorem rotated (A l h pa r t : ℝ) :
    expDisk A l h pa (r * cos (t + pa)) (r * sin (t + pa)) = expDisk A l h 0 (r * cos t) (r * sin t) ∧
    sechDisk A l h pa (r * cos (t + pa)) (r * sin (t + pa)) = sechDisk A l h 0 (r * cos t) (r * sin t) := by
  have e : frame (r * cos (t + pa)) (r * sin (t + pa)) pa = frame (r * cos t) (r * sin t) 0 := by
    rw [frame_zero]
    unfold frame
    rw [cos_add, sin_add]
    have := sin_sq_add_cos_sq pa
    refine Prod.ext ?_ ?_
    · dsimp only; linear_combination r * cos t * this
    · dsimp only; linear_combination r * sin t * this
  rw [expDisk, expDisk, sech_frame, sech_frame, e]
  exact ⟨rfl, rfl⟩

/-- C184.  In the centre both are A; nowhere is the modulus larger, and the sign is that of A. -/
theorem peak (A l h pa s z : ℝ) : expDisk A l h pa 0 0 = A ∧ sechDisk A l h pa 0 0 = A ∧ |expDisk A l h pa s z| ≤ |A| ∧ |sechDisk A l h pa s z| ≤ |A| ∧
    (0 < A → 0 < expDisk A l h pa s z ∧ 0 < sechDisk A l h pa s z) := by
  have hc : 1 ≤ cosh ((frame s z pa).2 / h) ^ 2 := one_le_pow₀ (one_le_cosh _)
  have h1 : (cosh ((frame s z pa).2 / h) ^ 2)⁻¹ ≤ 1 := inv_le_one_of_one_le₀ hc
  have h0 : 0 < (cosh ((frame s z pa).2 / h) ^ 2)⁻¹ := inv_pos.2 (lt_of_lt_of_le one_pos hc)
  have he : exp (-|(frame s z pa).1 / l|) ≤ 1 := by rw [exp_le_one_iff]; simp
  refine ⟨by simp [expDisk, frame], by simp [sech_frame, frame], ?_, ?_, fun hA => ⟨by unfold expDisk; positivity, by rw [sech_frame]; positivity⟩⟩
  · rw [expDisk, abs_mul, abs_of_pos (exp_pos _)]
    have : exp (-|(frame s z pa).1 / l| - |(frame s z pa).2 / h|) ≤ 1 := by
      rw [exp_le_one_iff]
      have := abs_nonneg ((frame s z pa).1 / l)
      have := abs_nonneg ((frame s z pa).2 / h)
      linarith
    nlinarith [abs_nonneg A]
  · rw [sech_frame, abs_mul, abs_mul, abs_of_pos (exp_pos _), abs_of_pos h0, mul_assoc]
    have : exp (-|(frame s z pa).1 / l|) * (cosh ((frame s z pa).2 / h) ^ 2)⁻¹ ≤ 1 := by
      calc _ ≤ 1 * 1 := mul_le_mul he h1 h0.le zero_le_one
        _ = 1 := one_mul 1
    nlinarith [abs_nonneg A]

/-- C184.  Symmetries: the opposite point, half a turn and the signs of the scales make no difference; a quarter of a turn exchanges the scales of the exponential disk. -/
theorem symmetric (A l h pa s z : ℝ) :
    expDisk A l h pa (-s) (-z) = expDisk A l h pa s z ∧ sechDisk A l h pa (-s) (-z) = sechDisk A l h pa s z ∧
    expDisk A l h (pa + π) s z = expDisk A l h pa s z ∧ sechDisk A l h (pa + π) s z = sechDisk A l h pa s z ∧
    expDisk A l h (pa + π / 2) s z = expDisk A h l pa s z ∧ expDisk A (-l) (-h) pa s z = expDisk A l h pa s z ∧ sechDisk A (-l) (-h) pa s z = sechDisk A l h pa s z := by
  have e1 : frame (-s) (-z) pa = (-(frame s z pa).1, -(frame s z pa).2) := by unfold frame; refine Prod.ext ?_ ?_ <;> dsimp only <;> ring
  have e2 : frame s z (pa + π) = (-(frame s z pa).1, -(frame s z pa).2) := by
    unfold frame; rw [cos_add_pi, sin_add_pi]; refine Prod.ext ?_ ?_ <;> dsimp only <;> ring
  have e3 : frame s z (pa + π / 2) = ((frame s z pa).2, -(frame s z pa).1) := by
    unfold frame; rw [cos_add_pi_div_two, sin_add_pi_div_two]; refine Prod.ext ?_ ?_ <;> dsimp only <;> ring
  refine ⟨?_, ?_, ?_, ?_, ?_, ?_, ?_⟩
  · simp only [expDisk, e1, neg_div, abs_neg]
  · simp only [sech_frame, e1, neg_div, abs_neg, cosh_neg]
  · simp only [expDisk, e2, neg_div, abs_neg]
  · simp only [sech_frame, e2, neg_div, abs_neg, cosh_neg]
  · simp only [expDisk, e3, neg_div, abs_neg]
    congr 2; ring
  · simp only [expDisk, div_neg, abs_neg]
  · simp only [sech_frame, div_neg, abs_neg, cosh_neg]

/-- C184.  The scale lengths: outwards along the disk both fall by a factor e for every l, and the exponential one by e for every h across it; across the other one the value
at height h is sech²(1) of that in the plane. -/
theorem scales (A l h s z : ℝ) (hl : 0 < l) (hh : 0 < h) (hs : 0 ≤ s) (hz : 0 ≤ z) :
    expDisk A l h 0 (s + l) z = expDisk A l h 0 s z / exp 1 ∧ sechDisk A l h 0 (s + l) z = sechDisk A l h 0 s z / exp 1 ∧
    expDisk A l h 0 s (z + h) = expDisk A l h 0 s z / exp 1 ∧ sechDisk A l h 0 s h = sechDisk A l h 0 s 0 / cosh 1 ^ 2 := by
  have k : ∀ x w : ℝ, 0 < w → 0 ≤ x → exp (-|(x + w) / w|) = exp (-|x / w|) / exp 1 := by
    intro x w hw hx
    rw [abs_of_nonneg (by positivity), abs_of_nonneg (by positivity), ← exp_sub]
    congr 1
    field_simp
    ring
  refine ⟨?_, ?_, ?_, ?_⟩
  · rw [(unrotated _ _ _ _ _).1, (unrotated _ _ _ _ _).1, k s l hl hs]; ring
  · rw [(unrotated _ _ _ _ _).2, (unrotated _ _ _ _ _).2, k s l hl hs]; ring
  · rw [(unrotated _ _ _ _ _).1, (unrotated _ _ _ _ _).1, k z h hh hz]; ring
  · rw [(unrotated _ _ _ _ _).2, (unrotated _ _ _ _ _).2, div_self hh.ne', zero_div, cosh_zero]; field_simp

/-- C184.  Outside the range that is suggested for plotting, the exponential disk has fallen below exp(-2) of the centre, whatever the position angle. -/
theorem outside_hint (A l h pa s z : ℝ) (hA : 0 < A) (hl : 0 < l) (hh : 0 < h)
    (hout : s < (expHint l h).1 ∨ (expHint l h).2.1 < s ∨ z < (expHint l h).2.2.1 ∨ (expHint l h).2.2.2 < z) : expDisk A l h pa s z < A * exp (-2) := by
  set b := max h l with hb
  have hbp : 0 < b := lt_max_of_lt_left hh
  simp only [expHint, ← hb] at hout
  have hbig : 4 * b ^ 2 < s ^ 2 + z ^ 2 := by
    rcases hout with h1 | h1 | h1 | h1 <;> nlinarith [sq_nonneg s, sq_nonneg z]
  set x := (frame s z pa).1 with hx
  set y := (frame s z pa).2 with hy
  have hnorm : x ^ 2 + y ^ 2 = s ^ 2 + z ^ 2 := by
    rw [hx, hy]; unfold frame; dsimp only
    have := sin_sq_add_cos_sq pa
    linear_combination (s ^ 2 + z ^ 2) * this
  have hsum : 2 * b < |x| + |y| := by
    by_contra hcon
    push Not at hcon
    have h1 := abs_nonneg x
    have h2 := abs_nonneg y
    have h3 : (|x| + |y|) ^ 2 ≤ (2 * b) ^ 2 := pow_le_pow_left₀ (by positivity) hcon 2
    have h4 : x ^ 2 + y ^ 2 ≤ (|x| + |y|) ^ 2 := by rw [add_sq, sq_abs, sq_abs]; nlinarith
    nlinarith
  have h1 : |x| / b ≤ |x / l| := by
    rw [abs_div, abs_of_pos hl]
    exact div_le_div_of_nonneg_left (abs_nonneg x) hl (le_max_right h l)
  have h2 : |y| / b ≤ |y / h| := by
    rw [abs_div, abs_of_pos hh]
    exact div_le_div_of_nonneg_left (abs_nonneg y) hh (le_max_left h l)
  have h3 : 2 < |x| / b + |y| / b := by rw [← add_div, lt_div_iff₀ hbp]; exact hsum
  unfold expDisk
  refine mul_lt_mul_of_pos_left (exp_lt_exp.2 ?_) hA
  rw [← hx, ← hy]
  linarith

/-- C184.  Defect: the range suggested for the other disk has only one half of it: the values beyond its lower limit 0 are those of the half inside. -/
theorem half_hint (A l h s z : ℝ) (hs : 0 < s) : -s < (sechHint l h).1 ∧ sechDisk A l h 0 (-s) z = sechDisk A l h 0 s z := by
  constructor
  · simpa [sechHint] using hs
  · rw [(unrotated _ _ _ _ _).2, (unrotated _ _ _ _ _).2, neg_div, abs_neg]

end Verif.Disks
