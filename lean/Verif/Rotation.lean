import Verif.Angle
import Mathlib.LinearAlgebra.Matrix.Notation
import Mathlib.Data.Matrix.Mul

/-!
# Rotations and ellipticities (astropysics/utils/alg.py 355-511), over the reals
-/

namespace Verif.Rotation

noncomputable section

open Real

abbrev M3 := Matrix (Fin 3) (Fin 3) ℝ

/-- The `axis` argument: 'x', 'y', 'z' or a 3-sequence. -/
inductive Axis
  | ex | ey | ez
  | vec (x y z : ℝ)

/-- The matrix of a quaternion (w,x,y,z), alg.py 406-413. -/
def quatMatrix (w x y z : ℝ) : M3 :=
  !![w*w + x*x - y*y - z*z, 2*x*y - 2*w*z, 2*x*z + 2*w*y;
     2*x*y + 2*w*z, w*w - x*x + y*y - z*z, 2*y*z - 2*w*x;
     2*x*z - 2*w*y, 2*y*z + 2*w*x, w*w - x*x - y*y + z*z]

/-- `rotation_matrix(angle, axis, degrees=False)`, alg.py 355-413; angle in radians.  `none` is a ZeroDivisionError: either
`1-w*w` is zero although `w` is not 1, or the axis is the zero vector. -/
def rotationMatrix (angle : ℝ) (axis : Axis) : Option M3 :=
  match axis with
  | .ez => let s := sin angle; let c := cos angle; some !![c, s, 0; -s, c, 0; 0, 0, 1]
  | .ey => let s := sin angle; let c := cos angle; some !![c, 0, -s; 0, 1, 0; s, 0, c]
  | .ex => let s := sin angle; let c := cos angle; some !![1, 0, 0; 0, c, s; 0, -s, c]
  | .vec x y z =>
    let w := cos (angle / 2)
    if w = 1 then some (quatMatrix w 0 0 0)
    else if 1 - w * w = 0 then none
    else
      let l := √((x*x + y*y + z*z) / (1 - w*w))
      if l = 0 then none else some (quatMatrix w (x / l) (y / l) (z / l))

/-- `rotation_matrix` with the default `degrees=True`. -/
def rotationMatrixDeg (angle : ℝ) (axis : Axis) : Option M3 := rotationMatrix (angle * π / 180) axis

/-- `angle_axis`, alg.py 416-447: the imported `math.degrees` shadows the parameter, so the angle is returned in degrees whatever the
argument is; the returned axis is the antisymmetric part divided by `denom` and normalised.  `none` is the ValueError of the square root
of a negative number; a zero `denom` (NaN axis) is `none` as well. -/
def angleAxis (m : M3) (_degrees : Bool) : Option (ℝ × (ℝ × ℝ × ℝ)) :=
  let angle := arccos ((m 0 0 + m 1 1 + m 2 2 - 1) / 2)
  let d := 2 * ((m 2 1 - m 1 2) + (m 0 2 - m 2 0) + (m 1 0 - m 0 1))
  if d < 0 then none
  else
    let denom := √d
    if denom = 0 then none
    else
      let ax := (m 2 1 - m 1 2) / denom
      let ay := (m 0 2 - m 2 0) / denom
      let az := (m 1 0 - m 0 1) / denom
      let n := √(ax ^ 2 + ay ^ 2 + az ^ 2)
      some (angle * 180 / π, (ax / n, ay / n, az / n))

/-- `intrinsic_to_observed_ellipticity`, alg.py 477-492 (inclination in radians). -/
def intrinsicToObserved (ei i : ℝ) : ℝ := 1 - √((1 - ei) ^ 2 * sin i ^ 2 + cos i ^ 2)

/-- `observed_to_intrinsic_ellipticity`, alg.py 494-509 (inclination in radians). -/
def observedToIntrinsic (eo i : ℝ) : ℝ := 1 - √((1 - eo) - cos i ^ 2) / sin i

end

end Verif.Rotation
