import Verif.RotationProps
import Mathlib.Analysis.SpecialFunctions.Trigonometric.Inverse

/-!
# C42, C55: what a rotation about a vector axis really is, for every angle

`turn θ u` (specification) is the matrix that rotates column vectors by `θ` about the unit vector `u`, right-handed,
written with Rodrigues' formula.
-/

namespace Verif.Rotation

noncomputable section

open Real

/-- **Specification**: Rodrigues' rotation by `θ` about the unit vector `(x, y, z)`. -/
def turn (θ x y z : ℝ) : M3 :=
  !![cos θ + (1 - cos θ) * x * x, (1 - cos θ) * x * y - sin θ * z, (1 - cos θ) * x * z + sin θ * y;
     (1 - cos θ) * x * y + sin θ * z, cos θ + (1 - cos θ) * y * y, (1 - cos θ) * y * z - sin θ * x;
     (1 - cos θ) * x * z - sin θ * y, (1 - cos θ) * y * z + sin θ * x, cos θ + (1 - cos θ) * z * z]

/-- The angle that is really turned: `angle`, brought into [0, 2π] by `2 arccos(cos(angle/2))`, which undoes whole
double turns and the sign. -/
def realTurn (a : ℝ) : ℝ := 2 * arccos (cos (a / 2))

/-- The specification is right: right-handed quarter turn about z takes x to y, and turns about one axis add. -/
theorem turn_quarter : turn (π / 2) 0 0 1 = !![0, -1, 0; 1, 0, 0; 0, 0, 1] := by
  simp [turn]

theorem turn_add {θ φ x y z : ℝ} (hu : x*x + y*y + z*z = 1) :
    turn θ x y z * turn φ x y z = turn (θ + φ) x y z := by
  have hz : z * z = 1 - x*x - y*y := by linarith
  unfold turn
  rw [cos_add, sin_add]
  ext i j
  fin_cases i <;> fin_cases j <;>
    simp [Matrix.mul_apply, Fin.sum_univ_three] <;> ring_nf <;>
    (try rw [show z ^ 2 = 1 - x ^ 2 - y ^ 2 by nlinarith]) <;>
    (try rw [show z ^ 3 = z * (1 - x ^ 2 - y ^ 2) by rw [← (by nlinarith : z ^ 2 = 1 - x ^ 2 - y ^ 2)]; ring]) <;>
    (try rw [show z ^ 4 = (1 - x ^ 2 - y ^ 2) ^ 2 by rw [← (by nlinarith : z ^ 2 = 1 - x ^ 2 - y ^ 2)]; ring]) <;>
    ring

theorem turn_inj {θ φ x y z : ℝ} (hu : x*x + y*y + z*z = 1) :
    turn θ x y z = turn φ x y z ↔ cos θ = cos φ ∧ sin θ = sin φ := by
  constructor
  · intro h
    have e : ∀ i j, turn θ x y z i j = turn φ x y z i j := fun i j => by rw [h]
    have h00 := e 0 0
    have h11 := e 1 1
    have h22 := e 2 2
    have h01 := e 0 1
    have h10 := e 1 0
    have h02 := e 0 2
    have h20 := e 2 0
    have h12 := e 1 2
    have h21 := e 2 1
    simp [turn] at h00 h11 h22 h01 h10 h02 h20 h12 h21
    have hc : cos θ = cos φ := by
      have : 2 * cos θ = 2 * cos φ := by
        linear_combination h00 + h11 + h22 + (cos θ - cos φ) * hu
      linarith
    refine ⟨hc, ?_⟩
    rw [hc] at h01 h10 h02 h20 h12 h21
    have hz : sin θ * z = sin φ * z := by linarith
    have hy : sin θ * y = sin φ * y := by linarith
    have hx : sin θ * x = sin φ * x := by linarith
    linear_combination x * hx + y * hy + z * hz - (sin θ - sin φ) * hu
  · rintro ⟨hc, hs⟩
    unfold turn
    rw [hc, hs]

theorem realTurn_half (a : ℝ) : cos (realTurn a / 2) = cos (a / 2) ∧ sin (realTurn a / 2) = |sin (a / 2)| := by
  have h : realTurn a / 2 = arccos (cos (a / 2)) := by unfold realTurn; ring
  rw [h]
  refine ⟨cos_arccos (neg_one_le_cos _) (cos_le_one _), ?_⟩
  rw [sin_arccos, show 1 - cos (a/2) ^ 2 = sin (a/2) ^ 2 by have := sin_sq_add_cos_sq (a/2); linarith, sqrt_sq_eq_abs]

/-- **C42**, vector axes, exactly: for every angle and every axis that is not zero `rotation_matrix` raises iff the angle is an odd
number of full turns, and otherwise returns the right-handed rotation by `realTurn angle` about the normalised axis. -/
theorem vec_axis_exact (a x y z : ℝ) (hv : ¬ (x = 0 ∧ y = 0 ∧ z = 0)) :
    rotationMatrix a (.vec x y z) =
      if cos (a / 2) = -1 then none
      else some (turn (realTurn a) (x / √(x*x + y*y + z*z)) (y / √(x*x + y*y + z*z)) (z / √(x*x + y*y + z*z))) := by
  obtain ⟨hc, hs⟩ := realTurn_half a
  have hcos : cos (realTurn a) = 2 * cos (a/2) ^ 2 - 1 := by
    rw [← hc, ← cos_two_mul]; congr 1; ring
  have hsin : sin (realTurn a) = 2 * |sin (a/2)| * cos (a/2) := by
    rw [← hc, ← hs, ← sin_two_mul]; congr 1; ring
  by_cases h0 : sin (a / 2) = 0
  · have hsq : cos (a/2) ^ 2 = 1 := by have := sin_sq_add_cos_sq (a/2); rw [h0] at this; linarith
    rcases mul_self_eq_one_iff.mp ((sq (cos (a / 2))).symm.trans hsq) with h1 | h1
    · rw [if_neg (by rw [h1]; norm_num)]
      simp only [rotationMatrix]
      rw [if_pos h1]
      congr 1
      unfold quatMatrix turn
      rw [hcos, hsin, h1, h0]
      norm_num
    · rw [if_pos h1]
      simp only [rotationMatrix]
      rw [if_neg (by rw [h1]; norm_num), if_pos (by rw [h1]; norm_num)]
  · have h1 : cos (a/2) ≠ -1 := by
      intro h
      have := sin_sq_add_cos_sq (a/2)
      rw [h] at this
      have : sin (a/2) ^ 2 = 0 := by linarith
      exact h0 (pow_eq_zero_iff (by norm_num) |>.1 this)
    rw [if_neg h1, rotationMatrix_vec h0 hv]
    have hu := unit_axis hv
    set ux := x / √(x*x + y*y + z*z)
    set uy := y / √(x*x + y*y + z*z)
    set uz := z / √(x*x + y*y + z*z)
    have hab : |sin (a/2)| ^ 2 = 1 - cos (a/2) ^ 2 := by
      rw [sq_abs]; have := sin_sq_add_cos_sq (a/2); linarith
    congr 1
    unfold quatMatrix turn
    rw [hcos, hsin]
    set w := cos (a/2)
    set s := |sin (a/2)|
    ext i j
    fin_cases i <;> fin_cases j <;> simp
    · linear_combination (-(1 - w^2)) * hu + (ux*ux - uy*uy - uz*uz) * hab
    · linear_combination (2 * ux * uy) * hab
    · linear_combination (2 * ux * uz) * hab
    · linear_combination (2 * ux * uy) * hab
    · linear_combination (-(1 - w^2)) * hu + (uy*uy - ux*ux - uz*uz) * hab
    · linear_combination (2 * uy * uz) * hab
    · linear_combination (2 * ux * uz) * hab
    · linear_combination (2 * uy * uz) * hab
    · linear_combination (-(1 - w^2)) * hu + (uz*uz - ux*ux - uy*uy) * hab

/-- **C42**, composition about a vector axis, exactly: when none of the three calls raises, the rotations by `a` and `b` compose
to that by `a+b` iff the angles really turned add up (modulo full turns). -/
theorem vec_axis_compose_iff (a b x y z : ℝ) (hv : ¬ (x = 0 ∧ y = 0 ∧ z = 0)) (ha : cos (a / 2) ≠ -1) (hb : cos (b / 2) ≠ -1)
    (hab : cos ((a + b) / 2) ≠ -1) :
    (∃ ma mb, rotationMatrix a (.vec x y z) = some ma ∧ rotationMatrix b (.vec x y z) = some mb ∧
      rotationMatrix (a + b) (.vec x y z) = some (ma * mb)) ↔
    cos (realTurn a + realTurn b) = cos (realTurn (a + b)) ∧ sin (realTurn a + realTurn b) = sin (realTurn (a + b)) := by
  have hu := unit_axis hv
  have ea := vec_axis_exact a x y z hv
  have eb := vec_axis_exact b x y z hv
  have eab := vec_axis_exact (a + b) x y z hv
  rw [if_neg ha] at ea
  rw [if_neg hb] at eb
  rw [if_neg hab] at eab
  rw [← turn_inj hu, ← turn_add hu]
  constructor
  · rintro ⟨ma, mb, h1, h2, h3⟩
    rw [ea] at h1
    rw [eb] at h2
    rw [eab] at h3
    rw [Option.some.inj h1, Option.some.inj h2]
    exact (Option.some.inj h3).symm
  · intro h
    exact ⟨_, _, ea, eb, by rw [eab, h]⟩

/-- A case that composes (a third of a turn twice) and one that does not (forth and back): the real turns are 2π/3 each and 4π/3;
π/2 each and 0. -/
theorem realTurn_of_mem {a : ℝ} (h0 : 0 ≤ a) (h1 : a ≤ 2 * π) : realTurn a = a := by
  unfold realTurn
  rw [arccos_cos (by linarith) (by linarith)]; ring

theorem realTurn_neg (a : ℝ) : realTurn (-a) = realTurn a := by
  unfold realTurn; rw [show -a / 2 = -(a / 2) by ring, cos_neg]

theorem realTurn_double (a : ℝ) : realTurn (a + 4 * π) = realTurn a := by
  unfold realTurn; rw [show (a + 4 * π) / 2 = a / 2 + 2 * π by ring, cos_add_two_pi]

example : ¬ (cos (realTurn (π/2) + realTurn (-(π/2))) = cos (realTurn (π/2 + -(π/2)))) := by
  have hp := Real.pi_pos
  rw [realTurn_neg, realTurn_of_mem (by linarith) (by linarith), show π/2 + -(π/2) = (0:ℝ) by ring,
    realTurn_of_mem le_rfl (by linarith), show π/2 + π/2 = π by ring]
  norm_num

/-! ## C55 -/

/-- **C55**, exactly: for a rotation by an angle between 0 and 180° about a unit vector, `angle_axis` returns the angle in degrees
(whatever `degrees` says) and the axis iff the components of the axis have a positive sum; otherwise it gives no result. -/
theorem angleAxis_iff {a x y z : ℝ} (h0 : 0 < a) (h1 : a < π) (hu : x*x + y*y + z*z = 1) (deg : Bool) :
    ∃ m, rotationMatrix a (.vec x y z) = some m ∧
      angleAxis m deg = if 0 < x + y + z then some (a * 180 / π, (x, y, z)) else none := by
  rcases lt_trichotomy 0 (x + y + z) with h | h | h
  · rw [if_pos h]; exact angleAxis_recovers h0 h1 hu h deg
  · rw [if_neg (by linarith)]
    have pa : 0 < sin (a/2) := sin_pos_of_pos_of_lt_pi (by linarith) (by linarith)
    have hv : ¬ (x = 0 ∧ y = 0 ∧ z = 0) := by rintro ⟨rfl, rfl, rfl⟩; norm_num at hu
    refine ⟨_, rotationMatrix_vec pa.ne' hv, ?_⟩
    rw [hu]
    simp only [sqrt_one, div_one]
    unfold angleAxis
    dsimp only
    have hd : ∀ w s : ℝ, 2 * ((quatMatrix w (s*x) (s*y) (s*z)) 2 1 - (quatMatrix w (s*x) (s*y) (s*z)) 1 2
        + ((quatMatrix w (s*x) (s*y) (s*z)) 0 2 - (quatMatrix w (s*x) (s*y) (s*z)) 2 0)
        + ((quatMatrix w (s*x) (s*y) (s*z)) 1 0 - (quatMatrix w (s*x) (s*y) (s*z)) 0 1)) = 0 := by
      intro w s
      simp [quatMatrix]
      linear_combination (-(4 * w * s)) * h
    rw [hd]
    simp
  · rw [if_neg (by linarith)]; exact angleAxis_negative_fails h0 h1 hu h deg

end

end Verif.Rotation
