import Verif.Rotation
import Mathlib.LinearAlgebra.Matrix.Determinant.Basic
import Mathlib.LinearAlgebra.UnitaryGroup
import Mathlib.Tactic.Linarith
import Mathlib.Tactic.LinearCombination
import Mathlib.Tactic.FieldSimp
import Mathlib.Tactic.Positivity
import Mathlib.Tactic.FinCases

/-!
# Rotations are rotations (C42), `angle_axis` (C55), ellipticities (C56)
-/

namespace Verif.Rotation

noncomputable section

open Real

/-! ## Specification -/

/-- The vector an axis argument names. -/
def Axis.toVec : Axis → Fin 3 → ℝ
  | .ex => ![1, 0, 0]
  | .ey => ![0, 1, 0]
  | .ez => ![0, 0, 1]
  | .vec x y z => ![x, y, z]

/-- A proper rotation: orthogonal with determinant 1. -/
def IsRotation (m : M3) : Prop := m.transpose * m = 1 ∧ m * m.transpose = 1 ∧ m.det = 1

/-! ## Quaternions -/

theorem quat_orth {w x y z : ℝ} (h : w*w + x*x + y*y + z*z = 1) : (quatMatrix w x y z).transpose * quatMatrix w x y z = 1 := by
  ext i j
  fin_cases i <;> fin_cases j <;> simp [quatMatrix, Matrix.mul_apply, Fin.sum_univ_three] <;>
    first
    | ring1
    | linear_combination (w*w + x*x + y*y + z*z + 1) * h

theorem quat_orth' {w x y z : ℝ} (h : w*w + x*x + y*y + z*z = 1) : quatMatrix w x y z * (quatMatrix w x y z).transpose = 1 := by
  ext i j
  fin_cases i <;> fin_cases j <;> simp [quatMatrix, Matrix.mul_apply, Fin.sum_univ_three] <;>
    first
    | ring1
    | linear_combination (w*w + x*x + y*y + z*z + 1) * h

theorem quat_det {w x y z : ℝ} (h : w*w + x*x + y*y + z*z = 1) : (quatMatrix w x y z).det = 1 := by
  rw [Matrix.det_fin_three]
  simp [quatMatrix]
  linear_combination ((w*w + x*x + y*y + z*z)^2 + (w*w + x*x + y*y + z*z) + 1) * h

theorem quat_axis {w x y z : ℝ} (h : w*w + x*x + y*y + z*z = 1) (k : ℝ) :
    (quatMatrix w x y z).mulVec ![k * x, k * y, k * z] = ![k * x, k * y, k * z] := by
  ext i
  fin_cases i <;> simp [quatMatrix, Matrix.mulVec, dotProduct, Fin.sum_univ_three]
  · linear_combination k * x * h
  · linear_combination k * y * h
  · linear_combination k * z * h

theorem quat_mul (w x y z w' x' y' z' : ℝ) : quatMatrix w x y z * quatMatrix w' x' y' z' =
    quatMatrix (w*w' - x*x' - y*y' - z*z') (w*x' + x*w' + y*z' - z*y') (w*y' - x*z' + y*w' + z*x') (w*z' + x*y' - y*x' + z*w') := by
  ext i j
  fin_cases i <;> fin_cases j <;> simp [quatMatrix, Matrix.mul_apply, Fin.sum_univ_three] <;> ring

/-! ## The vector axis -/

/-- The sum of squares of the axis is positive unless it is the zero vector. -/
theorem normsq_pos {x y z : ℝ} (h : ¬ (x = 0 ∧ y = 0 ∧ z = 0)) : 0 < x*x + y*y + z*z := by
  by_contra hc
  push Not at hc
  have hx := mul_self_nonneg x
  have hy := mul_self_nonneg y
  have hz := mul_self_nonneg z
  apply h
  refine ⟨?_, ?_, ?_⟩ <;> apply mul_self_eq_zero.1 <;> linarith

theorem cos_half (a : ℝ) : 1 - cos (a/2) * cos (a/2) = sin (a/2) ^ 2 := by
  have := sin_sq_add_cos_sq (a/2); linarith

/-- What the function computes for a vector axis: the quaternion (cos(a/2), |sin(a/2)| u) with u the normalised axis. -/
theorem rotationMatrix_vec {a x y z : ℝ} (hs : sin (a/2) ≠ 0) (hv : ¬ (x = 0 ∧ y = 0 ∧ z = 0)) :
    rotationMatrix a (.vec x y z) = some (quatMatrix (cos (a/2)) (|sin (a/2)| * (x / √(x*x + y*y + z*z)))
      (|sin (a/2)| * (y / √(x*x + y*y + z*z))) (|sin (a/2)| * (z / √(x*x + y*y + z*z)))) := by
  have hw : cos (a/2) ≠ 1 := by
    intro h
    have := sin_sq_add_cos_sq (a/2)
    rw [h] at this
    apply hs
    have : sin (a/2) ^ 2 = 0 := by linarith
    exact pow_eq_zero_iff (by norm_num) |>.1 this
  have hne : ¬ 1 - cos (a/2) * cos (a/2) = 0 := by rw [cos_half]; exact pow_ne_zero _ hs
  have hpos := normsq_pos hv
  have hl : √((x*x + y*y + z*z) / (1 - cos (a/2) * cos (a/2))) = √(x*x + y*y + z*z) / |sin (a/2)| := by
    rw [cos_half, sqrt_div hpos.le, sqrt_sq_eq_abs]
  have habs : |sin (a/2)| ≠ 0 := abs_ne_zero.2 hs
  have hsq : √(x*x + y*y + z*z) ≠ 0 := (sqrt_pos.2 hpos).ne'
  have hl0 : ¬ √(x*x + y*y + z*z) / |sin (a/2)| = 0 := div_ne_zero hsq habs
  simp only [rotationMatrix]
  rw [if_neg hw, if_neg hne, hl, if_neg hl0]
  congr 2 <;> field_simp

theorem unit_axis {x y z : ℝ} (hv : ¬ (x = 0 ∧ y = 0 ∧ z = 0)) :
    (x / √(x*x + y*y + z*z)) * (x / √(x*x + y*y + z*z)) + (y / √(x*x + y*y + z*z)) * (y / √(x*x + y*y + z*z))
      + (z / √(x*x + y*y + z*z)) * (z / √(x*x + y*y + z*z)) = 1 := by
  have hpos := normsq_pos hv
  have hsq : √(x*x + y*y + z*z) ≠ 0 := (sqrt_pos.2 hpos).ne'
  have h2 : √(x*x + y*y + z*z) * √(x*x + y*y + z*z) = x*x + y*y + z*z := mul_self_sqrt hpos.le
  rw [div_mul_div_comm, div_mul_div_comm, div_mul_div_comm, h2, ← add_div, ← add_div, div_self hpos.ne']

/-- C42: whatever the axis and the angle, a matrix returned by `rotation_matrix` is a proper rotation that fixes the axis. -/
theorem rotationMatrix_isRotation {a : ℝ} {axis : Axis} {m : M3} (h : rotationMatrix a axis = some m) :
    IsRotation m ∧ m.mulVec axis.toVec = axis.toVec := by
  have hsc := sin_sq_add_cos_sq a
  cases axis with
  | ex =>
    simp only [rotationMatrix, Option.some.injEq] at h
    subst h
    refine ⟨⟨?_, ?_, ?_⟩, ?_⟩
    · ext i j
      fin_cases i <;> fin_cases j <;> simp [Matrix.mul_apply, Fin.sum_univ_three] <;> linarith
    · ext i j
      fin_cases i <;> fin_cases j <;> simp [Matrix.mul_apply, Fin.sum_univ_three] <;> linarith
    · rw [Matrix.det_fin_three]; simp; linarith
    · ext i
      fin_cases i <;> simp [Axis.toVec, Matrix.mulVec, dotProduct, Fin.sum_univ_three]
  | ey =>
    simp only [rotationMatrix, Option.some.injEq] at h
    subst h
    refine ⟨⟨?_, ?_, ?_⟩, ?_⟩
    · ext i j
      fin_cases i <;> fin_cases j <;> simp [Matrix.mul_apply, Fin.sum_univ_three] <;> linarith
    · ext i j
      fin_cases i <;> fin_cases j <;> simp [Matrix.mul_apply, Fin.sum_univ_three] <;> linarith
    · rw [Matrix.det_fin_three]; simp; linarith
    · ext i
      fin_cases i <;> simp [Axis.toVec, Matrix.mulVec, dotProduct, Fin.sum_univ_three]
  | ez =>
    simp only [rotationMatrix, Option.some.injEq] at h
    subst h
    refine ⟨⟨?_, ?_, ?_⟩, ?_⟩
    · ext i j
      fin_cases i <;> fin_cases j <;> simp [Matrix.mul_apply, Fin.sum_univ_three] <;> linarith
    · ext i j
      fin_cases i <;> fin_cases j <;> simp [Matrix.mul_apply, Fin.sum_univ_three] <;> linarith
    · rw [Matrix.det_fin_three]; simp; linarith
    · ext i
      fin_cases i <;> simp [Axis.toVec, Matrix.mulVec, dotProduct, Fin.sum_univ_three]
  | vec x y z =>
    by_cases hw : cos (a/2) = 1
    · simp only [rotationMatrix, hw, if_true, Option.some.injEq] at h
      subst h
      have e : quatMatrix 1 0 0 0 = 1 := by ext i j; fin_cases i <;> fin_cases j <;> simp [quatMatrix]
      rw [e]
      exact ⟨⟨by simp, by simp, by simp⟩, by simp⟩
    · by_cases hs : sin (a/2) = 0
      · have : 1 - cos (a/2) * cos (a/2) = 0 := by rw [cos_half, hs]; norm_num
        simp [rotationMatrix, hw, this] at h
      · by_cases hv : x = 0 ∧ y = 0 ∧ z = 0
        · obtain ⟨rfl, rfl, rfl⟩ := hv
          simp [rotationMatrix, hw] at h
        · rw [rotationMatrix_vec hs hv, Option.some.injEq] at h
          subst h
          have hu := unit_axis hv
          have hn : cos (a/2) * cos (a/2) + (|sin (a/2)| * (x / √(x*x + y*y + z*z))) * (|sin (a/2)| * (x / √(x*x + y*y + z*z)))
              + (|sin (a/2)| * (y / √(x*x + y*y + z*z))) * (|sin (a/2)| * (y / √(x*x + y*y + z*z)))
              + (|sin (a/2)| * (z / √(x*x + y*y + z*z))) * (|sin (a/2)| * (z / √(x*x + y*y + z*z))) = 1 := by
            have h2 : |sin (a/2)| * |sin (a/2)| = sin (a/2) ^ 2 := by rw [← sq, sq_abs]
            have := sin_sq_add_cos_sq (a/2)
            linear_combination (|sin (a/2)| * |sin (a/2)|) * hu + h2 + this
          refine ⟨⟨quat_orth hn, quat_orth' hn, quat_det hn⟩, ?_⟩
          have hax := quat_axis hn (√(x*x + y*y + z*z) / |sin (a/2)|)
          have hsq : √(x*x + y*y + z*z) ≠ 0 := (sqrt_pos.2 (normsq_pos hv)).ne'
          have habs : |sin (a/2)| ≠ 0 := abs_ne_zero.2 hs
          have e : ∀ t : ℝ, √(x*x + y*y + z*z) / |sin (a/2)| * (|sin (a/2)| * (t / √(x*x + y*y + z*z))) = t := by
            intro t
            rw [← mul_assoc, div_mul_cancel₀ _ habs, mul_div_cancel₀ _ hsq]
          simpa only [e, Axis.toVec] using hax

/-- C42: about a named axis every angle works, zero is the identity, and angles add. -/
theorem named_axis_compose (axis : Axis) (h : ∀ x y z, axis ≠ .vec x y z) (a b : ℝ) :
    ∃ ma mb, rotationMatrix a axis = some ma ∧ rotationMatrix b axis = some mb ∧ rotationMatrix (a + b) axis = some (ma * mb) ∧
      rotationMatrix 0 axis = some 1 ∧ rotationMatrix (-a) axis = some ma.transpose := by
  cases axis with
  | vec x y z => exact absurd rfl (h x y z)
  | ex =>
    refine ⟨_, _, rfl, rfl, ?_, ?_, ?_⟩
    · simp only [rotationMatrix, sin_add, cos_add]; congr 1
      ext i j; fin_cases i <;> fin_cases j <;> simp [Matrix.mul_apply, Fin.sum_univ_three] <;> ring
    · simp only [rotationMatrix, sin_zero, cos_zero]; congr 1
      ext i j; fin_cases i <;> fin_cases j <;> simp
    · simp only [rotationMatrix, sin_neg, cos_neg]; congr 1
      ext i j; fin_cases i <;> fin_cases j <;> simp
  | ey =>
    refine ⟨_, _, rfl, rfl, ?_, ?_, ?_⟩
    · simp only [rotationMatrix, sin_add, cos_add]; congr 1
      ext i j; fin_cases i <;> fin_cases j <;> simp [Matrix.mul_apply, Fin.sum_univ_three] <;> ring
    · simp only [rotationMatrix, sin_zero, cos_zero]; congr 1
      ext i j; fin_cases i <;> fin_cases j <;> simp
    · simp only [rotationMatrix, sin_neg, cos_neg]; congr 1
      ext i j; fin_cases i <;> fin_cases j <;> simp
  | ez =>
    refine ⟨_, _, rfl, rfl, ?_, ?_, ?_⟩
    · simp only [rotationMatrix, sin_add, cos_add]; congr 1
      ext i j; fin_cases i <;> fin_cases j <;> simp [Matrix.mul_apply, Fin.sum_univ_three] <;> ring
    · simp only [rotationMatrix, sin_zero, cos_zero]; congr 1
      ext i j; fin_cases i <;> fin_cases j <;> simp
    · simp only [rotationMatrix, sin_neg, cos_neg]; congr 1
      ext i j; fin_cases i <;> fin_cases j <;> simp

/-- C42: the documented sense of the named axes: the x axis, turned by an angle about z, appears at minus that angle (clockwise), and
cyclically for the others. -/
theorem named_axis_sense (a : ℝ) :
    (∀ m, rotationMatrix a .ez = some m → m.mulVec ![1, 0, 0] = ![cos a, -sin a, 0]) ∧
    (∀ m, rotationMatrix a .ex = some m → m.mulVec ![0, 1, 0] = ![0, cos a, -sin a]) ∧
    (∀ m, rotationMatrix a .ey = some m → m.mulVec ![0, 0, 1] = ![-sin a, 0, cos a]) := by
  refine ⟨?_, ?_, ?_⟩ <;> intro m h <;> simp only [rotationMatrix, Option.some.injEq] at h <;> subst h <;> ext i <;>
    fin_cases i <;> simp [Matrix.mulVec, dotProduct, Fin.sum_univ_three]

/-- C42: with the default `degrees=True` a turn by 180/π times an angle is the turn by that angle, and 90 degrees about z take x to -y. -/
theorem degrees_turn (a : ℝ) (axis : Axis) :
    rotationMatrixDeg (a * (180 / π)) axis = rotationMatrix a axis ∧
    (∀ m, rotationMatrixDeg 90 .ez = some m → m.mulVec ![1, 0, 0] = ![0, -1, 0]) := by
  have hp := Real.pi_pos.ne'
  constructor
  · unfold rotationMatrixDeg; congr 1; field_simp
  · intro m h
    have := (named_axis_sense (π / 2)).1 m (by rw [← h]; unfold rotationMatrixDeg; congr 1; ring)
    rw [this, cos_pi_div_two, sin_pi_div_two]

/-- C42, composition about a vector axis, for positive angles that do not exceed a full turn in sum. -/
theorem vec_axis_compose {a b x y z : ℝ} (ha : 0 < a) (hb : 0 < b) (hab : a + b < 2 * π) (hv : ¬ (x = 0 ∧ y = 0 ∧ z = 0)) :
    ∃ ma mb, rotationMatrix a (.vec x y z) = some ma ∧ rotationMatrix b (.vec x y z) = some mb ∧
      rotationMatrix (a + b) (.vec x y z) = some (ma * mb) := by
  have pa : 0 < sin (a/2) := sin_pos_of_pos_of_lt_pi (by linarith) (by linarith)
  have pb : 0 < sin (b/2) := sin_pos_of_pos_of_lt_pi (by linarith) (by linarith)
  have pc : 0 < sin ((a+b)/2) := sin_pos_of_pos_of_lt_pi (by linarith) (by linarith)
  refine ⟨_, _, rotationMatrix_vec pa.ne' hv, rotationMatrix_vec pb.ne' hv, ?_⟩
  rw [rotationMatrix_vec pc.ne' hv, quat_mul, abs_of_pos pa, abs_of_pos pb, abs_of_pos pc]
  have hu := unit_axis hv
  have e : (a + b) / 2 = a/2 + b/2 := by ring
  rw [e, sin_add, cos_add]
  congr 2
  · linear_combination (sin (a/2) * sin (b/2)) * hu
  · ring
  · ring
  · ring

/-- Counterexamples to the full claim: about a vector axis a negative angle turns the same way as the positive one, -/
theorem vec_axis_negative (a x y z : ℝ) : rotationMatrix (-a) (.vec x y z) = rotationMatrix a (.vec x y z) := by
  simp only [rotationMatrix, neg_div, cos_neg]

/-- so that turning by a quarter and back by a quarter is a half turn rather than the identity, -/
theorem vec_axis_back_and_forth : ∃ m m', rotationMatrix (π/2) (.vec 0 0 1) = some m ∧ rotationMatrix (-(π/2)) (.vec 0 0 1) = some m' ∧
    (m' * m) 0 0 = -1 := by
  have hs : sin (π/2/2) ≠ 0 := by
    have : π/2/2 = π/4 := by ring
    rw [this, sin_pi_div_four]; positivity
  have hm := rotationMatrix_vec (x := 0) (y := 0) (z := 1) hs (by simp)
  refine ⟨_, _, hm, (vec_axis_negative _ _ _ _).trans hm, ?_⟩
  have e : π/2/2 = π/4 := by ring
  have h2 : √(2:ℝ) * √2 = 2 := mul_self_sqrt (by norm_num)
  rw [quat_mul]
  rw [e, cos_pi_div_four, sin_pi_div_four]
  have habs : |√2 / 2| = √2 / 2 := abs_of_pos (by positivity)
  simp [quatMatrix, habs]
  nlinarith

/-- and a full turn raises an error. -/
theorem vec_axis_full_turn (x y z : ℝ) : rotationMatrix (2 * π) (.vec x y z) = none := by
  have e : 2 * π / 2 = π := by ring
  simp only [rotationMatrix, e, cos_pi]
  norm_num

/-- The vector (0,0,1) and the name 'z' turn in opposite senses. -/
theorem vec_axis_opposite_sense {a : ℝ} (h0 : 0 < a) (h1 : a < 2 * π) :
    ∃ m, rotationMatrix a .ez = some m ∧ rotationMatrix a (.vec 0 0 1) = some m.transpose := by
  have pa : 0 < sin (a/2) := sin_pos_of_pos_of_lt_pi (by linarith) (by linarith)
  refine ⟨_, rfl, ?_⟩
  rw [rotationMatrix_vec pa.ne' (by simp), abs_of_pos pa]
  have e : a = 2 * (a/2) := by ring
  have hsc := sin_sq_add_cos_sq (a/2)
  congr 1
  ext i j
  fin_cases i <;> fin_cases j <;> simp [quatMatrix]
  · rw [e, cos_two_mul]; rw [show 2 * (a/2) / 2 = a/2 by ring]; nlinarith
  · rw [e, sin_two_mul]; rw [show 2 * (a/2) / 2 = a/2 by ring]; ring
  · rw [e, sin_two_mul]; rw [show 2 * (a/2) / 2 = a/2 by ring]; ring
  · rw [e, cos_two_mul]; rw [show 2 * (a/2) / 2 = a/2 by ring]; nlinarith
  · nlinarith

/-! ## C55: angle_axis -/

/-- C55: for a rotation by an angle between 0 and 180° about a unit axis with positive component sum, `angle_axis` recovers the angle (in
degrees) and the axis. -/
theorem angleAxis_recovers {a x y z : ℝ} (h0 : 0 < a) (h1 : a < π) (hu : x*x + y*y + z*z = 1) (hpos : 0 < x + y + z) (deg : Bool) :
    ∃ m, rotationMatrix a (.vec x y z) = some m ∧ angleAxis m deg = some (a * 180 / π, (x, y, z)) := by
  have hp := Real.pi_pos
  have pa : 0 < sin (a/2) := sin_pos_of_pos_of_lt_pi (by linarith) (by linarith)
  have ca : 0 < cos (a/2) := cos_pos_of_mem_Ioo ⟨by linarith, by linarith⟩
  have hv : ¬ (x = 0 ∧ y = 0 ∧ z = 0) := by rintro ⟨rfl, rfl, rfl⟩; norm_num at hu
  refine ⟨_, rotationMatrix_vec pa.ne' hv, ?_⟩
  rw [hu, abs_of_pos pa]
  simp only [sqrt_one, div_one]
  set w := cos (a/2)
  set s := sin (a/2)
  have hsc : s ^ 2 + w ^ 2 = 1 := sin_sq_add_cos_sq (a/2)
  have e1 : (quatMatrix w (s*x) (s*y) (s*z)) 2 1 - (quatMatrix w (s*x) (s*y) (s*z)) 1 2 = 4 * w * s * x := by simp [quatMatrix]; ring
  have e2 : (quatMatrix w (s*x) (s*y) (s*z)) 0 2 - (quatMatrix w (s*x) (s*y) (s*z)) 2 0 = 4 * w * s * y := by simp [quatMatrix]; ring
  have e3 : (quatMatrix w (s*x) (s*y) (s*z)) 1 0 - (quatMatrix w (s*x) (s*y) (s*z)) 0 1 = 4 * w * s * z := by simp [quatMatrix]; ring
  have etr : ((quatMatrix w (s*x) (s*y) (s*z)) 0 0 + (quatMatrix w (s*x) (s*y) (s*z)) 1 1 + (quatMatrix w (s*x) (s*y) (s*z)) 2 2 - 1) / 2 = cos a := by
    have : cos a = 2 * w ^ 2 - 1 := by rw [← cos_two_mul]; congr 1; ring
    rw [this]; simp [quatMatrix]
    linear_combination (-(s^2) / 2) * hu - (1/2) * hsc
  unfold angleAxis
  dsimp only
  rw [e1, e2, e3, etr]
  have hd : 0 < 2 * (4 * w * s * x + 4 * w * s * y + 4 * w * s * z) := by
    have : 0 < w * s * (x + y + z) := by positivity
    nlinarith
  rw [if_neg (not_lt.2 hd.le), if_neg (sqrt_pos.2 hd).ne', arccos_cos h0.le h1.le]
  set D := √(2 * (4 * w * s * x + 4 * w * s * y + 4 * w * s * z))
  have hD : 0 < D := sqrt_pos.2 hd
  have hn : √((4*w*s*x / D) ^ 2 + (4*w*s*y / D) ^ 2 + (4*w*s*z / D) ^ 2) = 4*w*s / D := by
    rw [show (4*w*s*x / D) ^ 2 + (4*w*s*y / D) ^ 2 + (4*w*s*z / D) ^ 2 = (4*w*s/D) ^ 2 * (x*x+y*y+z*z) by ring, hu, mul_one,
      sqrt_sq (by positivity)]
  rw [hn]
  have f : ∀ t : ℝ, 4 * w * s * t / D / (4 * w * s / D) = t := by intro t; field_simp
  rw [f, f, f]

/-- C55 fails for axes with negative component sum: the function raises. -/
theorem angleAxis_negative_fails {a x y z : ℝ} (h0 : 0 < a) (h1 : a < π) (hu : x*x + y*y + z*z = 1) (hneg : x + y + z < 0) (deg : Bool) :
    ∃ m, rotationMatrix a (.vec x y z) = some m ∧ angleAxis m deg = none := by
  have hp := Real.pi_pos
  have pa : 0 < sin (a/2) := sin_pos_of_pos_of_lt_pi (by linarith) (by linarith)
  have ca : 0 < cos (a/2) := cos_pos_of_mem_Ioo ⟨by linarith, by linarith⟩
  have hv : ¬ (x = 0 ∧ y = 0 ∧ z = 0) := by rintro ⟨rfl, rfl, rfl⟩; norm_num at hu
  refine ⟨_, rotationMatrix_vec pa.ne' hv, ?_⟩
  rw [hu, abs_of_pos pa]
  simp only [sqrt_one, div_one]
  unfold angleAxis
  dsimp only
  apply if_pos
  have : cos (a/2) * sin (a/2) * (x + y + z) < 0 := mul_neg_of_pos_of_neg (by positivity) hneg
  simp [quatMatrix]
  nlinarith

/-- Non-vacuity: a right angle about z. -/
example : ∃ m, rotationMatrix (π/2) (.vec 0 0 1) = some m ∧ angleAxis m true = some (π/2 * 180 / π, (0, 0, 1)) :=
  angleAxis_recovers (by positivity) (by have := Real.pi_pos; linarith) (by norm_num) (by norm_num) _

/-! ## C56: ellipticities -/

/-- C56: the observed ellipticity is between 0 and the intrinsic one; edge-on it equals it and face-on it vanishes. -/
theorem intrinsicToObserved_bounds {e i : ℝ} (h0 : 0 ≤ e) (h1 : e ≤ 1) :
    0 ≤ intrinsicToObserved e i ∧ intrinsicToObserved e i ≤ e ∧ (cos i = 0 → intrinsicToObserved e i = e) ∧
      (sin i = 0 → intrinsicToObserved e i = 0) := by
  have hsc := sin_sq_add_cos_sq i
  have hs := sq_nonneg (sin i)
  have hc := sq_nonneg (cos i)
  have hq : 0 ≤ 1 - e := by linarith
  have hq1 : (1 - e) ^ 2 ≤ 1 := by nlinarith
  unfold intrinsicToObserved
  refine ⟨?_, ?_, ?_, ?_⟩
  · have : √((1 - e) ^ 2 * sin i ^ 2 + cos i ^ 2) ≤ 1 := by
      rw [Real.sqrt_le_one]; nlinarith
    linarith
  · have : 1 - e ≤ √((1 - e) ^ 2 * sin i ^ 2 + cos i ^ 2) := by
      apply le_sqrt_of_sq_le; nlinarith
    linarith
  · intro h
    rw [h] at hsc ⊢
    have : sin i ^ 2 = 1 := by linarith
    rw [this]; norm_num [sqrt_sq hq]
  · intro h
    rw [h] at hsc ⊢
    have : cos i ^ 2 = 1 := by linarith
    rw [this]; norm_num

/-- C56: the two conversions are inverse exactly for an observed ellipticity of 0 or 1; in all other cases the result is wrong. -/
theorem ellipticity_inverse_iff {e i : ℝ} (h0 : 0 ≤ e) (h1 : e ≤ 1) (hi0 : 0 < i) (hi1 : i < π) :
    observedToIntrinsic (intrinsicToObserved e i) i = e ↔ intrinsicToObserved e i = 0 ∨ intrinsicToObserved e i = 1 := by
  have hs : 0 < sin i := sin_pos_of_pos_of_lt_pi hi0 hi1
  have hq : 0 ≤ 1 - e := by linarith
  have hsc := sin_sq_add_cos_sq i
  obtain ⟨b0, b1, -, -⟩ := intrinsicToObserved_bounds (i := i) h0 h1
  set q := 1 - intrinsicToObserved e i with hqd
  have hq' : q = √((1 - e) ^ 2 * sin i ^ 2 + cos i ^ 2) := by rw [hqd, intrinsicToObserved]; ring
  have hq2 : q ^ 2 = (1 - e) ^ 2 * sin i ^ 2 + cos i ^ 2 := by rw [hq']; exact sq_sqrt (by positivity)
  have hq0 : 0 ≤ q := by rw [hq']; exact sqrt_nonneg _
  have hq1 : q ≤ 1 := by linarith
  have harg : 0 ≤ q - cos i ^ 2 := by nlinarith [sq_nonneg ((1 - e) * sin i)]
  have hobs : observedToIntrinsic (intrinsicToObserved e i) i = 1 - √(q - cos i ^ 2) / sin i := by
    unfold observedToIntrinsic; rw [← hqd]
  have hiff : observedToIntrinsic (intrinsicToObserved e i) i = e ↔ q = q ^ 2 := by
    rw [hobs]
    constructor
    · intro h
      have h' : √(q - cos i ^ 2) = (1 - e) * sin i := by
        have : √(q - cos i ^ 2) / sin i = 1 - e := by linarith
        rwa [div_eq_iff hs.ne'] at this
      have := sq_sqrt harg
      rw [h'] at this
      nlinarith
    · intro h
      have : q - cos i ^ 2 = ((1 - e) * sin i) ^ 2 := by rw [h, hq2]; ring
      rw [this, sqrt_sq (by positivity)]
      field_simp; ring
  rw [hiff]
  constructor
  · intro h
    have : q * (q - 1) = 0 := by linarith
    rcases mul_eq_zero.1 this with h | h
    · right; linarith
    · left; linarith
  · rintro (h | h)
    · have : q = 1 := by linarith
      rw [this]; norm_num
    · have : q = 0 := by linarith
      rw [this]; norm_num

/-- A concrete counterexample: edge-on with ellipticity 3/4. -/
theorem ellipticity_counterexample : observedToIntrinsic (intrinsicToObserved (3/4) (π/2)) (π/2) ≠ 3/4 := by
  have hp := Real.pi_pos
  rw [Ne, ellipticity_inverse_iff (by norm_num) (by norm_num) (by linarith) (by linarith)]
  have := (intrinsicToObserved_bounds (e := 3/4) (i := π/2) (by norm_num) (by norm_num)).2.2.1 (by simp)
  rw [this]; norm_num

end

end Verif.Rotation
