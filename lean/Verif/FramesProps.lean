import Verif.Frames
import Verif.LatLongProps
import Verif.RotationProps
import Mathlib.Analysis.Real.Pi.Bounds
import Mathlib.Tactic.NormNum

/-!
# Celestial frames and epochs (C139-C142)
-/

namespace Verif.Frames

noncomputable section

open Real Verif.Angle Verif.LatLong Verif.Rotation

/-! ## Specification -/

/-- The unit vector of spherical coordinates given in degrees. -/
def dirDeg (long lat : ℝ) : Fin 3 → ℝ := cart (lat * π / 180) (long * π / 180)

/-- The IAU 1976 precession angles (Lieske 1979; SOFA `prec76`) in arcseconds, from `T` centuries after J2000 over `t` centuries:
(z, theta, zeta). -/
def iau76 (T t : ℝ) : ℝ × ℝ × ℝ :=
  ((2306.2181 + 1.39656 * T - 0.000139 * T ^ 2) * t + (1.09468 + 0.000066 * T) * t ^ 2 + 0.018203 * t ^ 3,
   (2004.3109 - 0.85330 * T - 0.000217 * T ^ 2) * t - (0.42665 + 0.000217 * T) * t ^ 2 - 0.041833 * t ^ 3,
   (2306.2181 + 1.39656 * T - 0.000139 * T ^ 2) * t + (0.30188 - 0.000344 * T) * t ^ 2 + 0.017998 * t ^ 3)

/-! ## Rotations -/

theorem isRot_one : IsRotation (1 : M3) := ⟨by simp, by simp, by simp⟩

theorem isRot_mul {a b : M3} (ha : IsRotation a) (hb : IsRotation b) : IsRotation (a * b) := by
  refine ⟨?_, ?_, ?_⟩
  · rw [Matrix.transpose_mul, Matrix.mul_assoc, ← Matrix.mul_assoc a.transpose, ha.1, Matrix.one_mul, hb.1]
  · rw [Matrix.transpose_mul, Matrix.mul_assoc, ← Matrix.mul_assoc b, hb.2.1, Matrix.one_mul, ha.2.1]
  · rw [Matrix.det_mul, ha.2.2, hb.2.2, one_mul]

theorem isRot_transpose {a : M3} (ha : IsRotation a) : IsRotation a.transpose :=
  ⟨by simpa using ha.2.1, by simpa using ha.1, by simpa using ha.2.2⟩

theorem isRot_orth {a : M3} (ha : IsRotation a) : a ∈ Matrix.orthogonalGroup (Fin 3) ℝ := by
  rw [Matrix.mem_orthogonalGroup_iff']; exact ha.1

theorem rotR_z (a : ℝ) : rotR a .ez = !![cos a, sin a, 0; -sin a, cos a, 0; 0, 0, 1] := rfl
theorem rotR_y (a : ℝ) : rotR a .ey = !![cos a, 0, -sin a; 0, 1, 0; sin a, 0, cos a] := rfl
theorem rotR_x (a : ℝ) : rotR a .ex = !![1, 0, 0; 0, cos a, sin a; 0, -sin a, cos a] := rfl
theorem rot_rotR (a : ℝ) (axis : Axis) : rot a axis = rotR (a * π / 180) axis := rfl

/-- A named axis. -/
def Named : Axis → Prop
  | .vec _ _ _ => False
  | _ => True

theorem named_ne {axis : Axis} (h : Named axis) (x y z : ℝ) : axis ≠ .vec x y z := by
  rintro rfl; exact h

theorem rotR_isRot (a : ℝ) {axis : Axis} (h : Named axis) : IsRotation (rotR a axis) := by
  obtain ⟨m, -, h1, -⟩ := named_axis_compose axis (named_ne h) a a
  unfold rotR; rw [h1]; exact (rotationMatrix_isRotation h1).1

theorem rot_isRot (a : ℝ) {axis : Axis} (h : Named axis) : IsRotation (rot a axis) := rotR_isRot _ h

theorem rotR_add (a b : ℝ) {axis : Axis} (h : Named axis) : rotR (a + b) axis = rotR a axis * rotR b axis := by
  obtain ⟨m, n, h1, h2, h3, -⟩ := named_axis_compose axis (named_ne h) a b
  unfold rotR; rw [h1, h2, h3]; rfl

theorem rotR_zero {axis : Axis} (h : Named axis) : rotR 0 axis = 1 := by
  obtain ⟨m, n, -, -, -, h4, -⟩ := named_axis_compose axis (named_ne h) 0 0
  unfold rotR; rw [h4]; rfl

theorem rotR_neg (a : ℝ) {axis : Axis} (h : Named axis) : rotR (-a) axis = (rotR a axis).transpose := by
  obtain ⟨m, n, h1, -, -, -, h5⟩ := named_axis_compose axis (named_ne h) a a
  unfold rotR; rw [h5, h1]; rfl

theorem rot_zero {axis : Axis} (h : Named axis) : rot 0 axis = 1 := by rw [rot_rotR, zero_mul, zero_div, rotR_zero h]

theorem rot_neg (a : ℝ) {axis : Axis} (h : Named axis) : rot (-a) axis = (rot a axis).transpose := by
  rw [rot_rotR, rot_rotR, neg_mul, neg_div, rotR_neg _ h]

theorem rot_add (a b : ℝ) {axis : Axis} (h : Named axis) : rot (a + b) axis = rot a axis * rot b axis := by
  rw [rot_rotR, rot_rotR, rot_rotR, add_mul, add_div, rotR_add _ _ h]

theorem three_isRot (a b c : ℝ) {x y z : Axis} (hx : Named x) (hy : Named y) (hz : Named z) :
    IsRotation (rot a x * rot b y * rot c z) := isRot_mul (isRot_mul (rot_isRot _ hx) (rot_isRot _ hy)) (rot_isRot _ hz)

/-- The bottom row of a rotation is a unit vector. -/
theorem bottom_unit {m : M3} (h : IsRotation m) : m 2 0 ^ 2 + m 2 1 ^ 2 + m 2 2 ^ 2 = 1 := by
  have := congrFun (congrFun h.2.1 2) 2
  simp only [Matrix.mul_apply, Matrix.transpose_apply, Fin.sum_univ_three, Matrix.one_apply_eq] at this
  linarith

theorem cioMatrix_eq (x y z s : ℝ) :
    cioMatrix x y z s = rotR (-s) .ez * !![1 - x ^ 2 / (1 + z), -(x * y / (1 + z)), -x; -(x * y / (1 + z)), 1 - y ^ 2 / (1 + z), -y;
      x, y, 1 - (x ^ 2 + y ^ 2) / (1 + z)] := by
  rw [rotR_z]
  ext i j
  fin_cases i <;> fin_cases j <;> simp [cioMatrix, Matrix.mul_apply, Fin.sum_univ_three] <;> ring

theorem cio_core {x y z : ℝ} (h : x ^ 2 + y ^ 2 + z ^ 2 = 1) (hz : z ≠ -1) :
    IsRotation !![1 - x ^ 2 / (1 + z), -(x * y / (1 + z)), -x; -(x * y / (1 + z)), 1 - y ^ 2 / (1 + z), -y;
      x, y, 1 - (x ^ 2 + y ^ 2) / (1 + z)] := by
  have hz1 : 1 + z ≠ 0 := fun h => hz (by linarith)
  set b := 1 / (1 + z) with hb
  have hb1 : b * (1 + z) = 1 := by rw [hb]; field_simp
  have hbq : b * (x ^ 2 + y ^ 2) = 1 - z := by
    have : x ^ 2 + y ^ 2 = (1 - z) * (1 + z) := by linarith
    rw [this]; linear_combination (1 - z) * hb1
  have e : (!![1 - x ^ 2 / (1 + z), -(x * y / (1 + z)), -x; -(x * y / (1 + z)), 1 - y ^ 2 / (1 + z), -y;
      x, y, 1 - (x ^ 2 + y ^ 2) / (1 + z)] : M3) = !![1 - b * x ^ 2, -(b * x * y), -x; -(b * x * y), 1 - b * y ^ 2, -y; x, y, z] := by
    ext i j
    have hq : 1 - (x ^ 2 + y ^ 2) / (1 + z) = z := by
      have : (x ^ 2 + y ^ 2) / (1 + z) = b * (x ^ 2 + y ^ 2) := by rw [hb]; ring
      rw [this, hbq]; ring
    fin_cases i <;> fin_cases j <;> simp [hb] <;> first | ring1 | exact hq
  rw [e]
  have hr2 : x ^ 2 + y ^ 2 = 1 - z ^ 2 := by linarith
  refine ⟨?_, ?_, ?_⟩
  · ext i j
    fin_cases i <;> fin_cases j <;> simp [Matrix.mul_apply, Fin.sum_univ_three]
    · linear_combination (x ^ 2 * b) * hbq - x ^ 2 * hb1
    · linear_combination (x * y * b) * hbq - x * y * hb1
    · linear_combination x * hbq
    · linear_combination (x * y * b) * hbq - x * y * hb1
    · linear_combination (y ^ 2 * b) * hbq - y ^ 2 * hb1
    · linear_combination y * hbq
    · linear_combination x * hbq
    · linear_combination y * hbq
    · linear_combination h
  · ext i j
    fin_cases i <;> fin_cases j <;> simp [Matrix.mul_apply, Fin.sum_univ_three]
    · linear_combination (x ^ 2 * b) * hbq - x ^ 2 * hb1
    · linear_combination (x * y * b) * hbq - x * y * hb1
    · linear_combination -x * hbq
    · linear_combination (x * y * b) * hbq - x * y * hb1
    · linear_combination (y ^ 2 * b) * hbq - y ^ 2 * hb1
    · linear_combination -y * hbq
    · linear_combination -x * hbq
    · linear_combination -y * hbq
    · linear_combination h
  · rw [Matrix.det_fin_three]
    simp
    linear_combination -z * hbq + h

theorem cioMatrix_isRot {x y z s : ℝ} (h : x ^ 2 + y ^ 2 + z ^ 2 = 1) (hz : z ≠ -1) : IsRotation (cioMatrix x y z s) := by
  rw [cioMatrix_eq]; exact isRot_mul (rotR_isRot _ trivial) (cio_core h hz)

theorem frameBias_isRot : IsRotation frameBias := three_isRot _ _ _ trivial trivial trivial
theorem precCapitaine_isRot (e : Epoch) : IsRotation (precCapitaine e) := three_isRot _ _ _ trivial trivial trivial
theorem nutation_isRot (S : Series) (e : Epoch) : IsRotation (nutation S e) := by
  unfold nutation
  exact isRot_mul (isRot_mul (rotR_isRot _ trivial) (rotR_isRot _ trivial)) (rotR_isRot _ trivial)
theorem npb_isRot (S : Series) (e : Epoch) : IsRotation (npb S e) :=
  isRot_mul (isRot_mul (nutation_isRot S e) (precCapitaine_isRot e)) frameBias_isRot
theorem wMatrix_isRot (S : Series) (e : Epoch) : IsRotation (wMatrix S e) := three_isRot _ _ _ trivial trivial trivial
theorem precJ_isRot (e1 e2 : Epoch) : IsRotation (precJ e1 e2) := three_isRot _ _ _ trivial trivial trivial
theorem precB_isRot (e1 e2 : Epoch) : IsRotation (precB e1 e2) := three_isRot _ _ _ trivial trivial trivial
theorem galPole_isRot (a b c : ℝ) : IsRotation (galPole a b c) := three_isRot _ _ _ trivial trivial trivial

/-- The epochs at which the pole of date is not exactly opposite to the GCRS pole (there `1+z` would be zero). -/
def Upright (S : Series) (e : Epoch) : Prop := npb S e 2 2 ≠ -1

/-- C139: every built-in matrix transform between celestial frames other than FK4-FK5 is a proper rotation, at every epoch (and without
one), whatever the tabulated series. -/
theorem transforms_are_rotations (S : Series) (oe : Option Epoch) (e : Epoch) :
    (∀ x, oe = some x → Upright S x) → IsRotation (cMatrix S oe) ∧ IsRotation (equinoxMatrix S oe) ∧ IsRotation (equinoxToCirs S oe) ∧
    IsRotation (itrsFromCirs S oe) ∧ IsRotation (itrsFromEquinox S oe) ∧ IsRotation (fk5FromIcrs oe) ∧ IsRotation (galFromFk5 oe) ∧
    IsRotation (galFromFk4 oe) ∧ (∀ a b c, IsRotation (sgalFromGal a b c)) ∧
    (∀ alg m, eclipticFromEq alg e = some m → IsRotation m ∧ eclipticToEq alg e = some m.transpose) := by
  intro hu
  have hb : IsRotation fk5Bias := three_isRot _ _ _ trivial trivial trivial
  refine ⟨?_, ?_, ?_, ?_, ?_, ?_, ?_, ?_, ?_, ?_⟩
  · cases oe with
    | none => exact frameBias_isRot
    | some x => exact cioMatrix_isRot (bottom_unit (npb_isRot S x)) (hu x rfl)
  · cases oe with
    | none => exact frameBias_isRot
    | some x => exact npb_isRot S x
  · cases oe with
    | none => exact isRot_one
    | some x => exact rot_isRot _ trivial
  · cases oe with
    | none => exact isRot_one
    | some x => exact isRot_mul (wMatrix_isRot S x) (rot_isRot _ trivial)
  · cases oe with
    | none => exact isRot_one
    | some x => exact isRot_mul (wMatrix_isRot S x) (rot_isRot _ trivial)
  · cases oe with
    | none => exact hb
    | some x => exact isRot_mul (precJ_isRot _ x) hb
  · exact isRot_mul (galPole_isRot _ _ _) (precJ_isRot _ _)
  · exact isRot_mul (galPole_isRot _ _ _) (precB_isRot _ _)
  · exact fun a b c => three_isRot _ _ _ trivial trivial trivial
  · intro alg m h
    unfold eclipticFromEq at h
    unfold eclipticToEq
    cases ho : obliquity ((e.val - 2000) / 100) alg with
    | none => rw [ho] at h; simp at h
    | some o =>
      rw [ho] at h
      simp only [Option.map_some, Option.some.injEq] at h
      subst h
      exact ⟨rot_isRot _ trivial, by rw [Option.map_some, rot_neg _ (axis := .ex) trivial]⟩

/-- C139: the CIRS matrix takes the celestial pole of date to the pole of the frame, and its determinant formula is exact: the third row
is the pole. -/
theorem cirs_pole (S : Series) (e : Epoch) (hu : Upright S e) :
    cMatrix S (some e) 2 = npb S e 2 ∧ (cMatrix S (some e)).mulVec (npb S e 2) = ![0, 0, 1] := by
  have hunit := bottom_unit (npb_isRot S e)
  set x := npb S e 2 0 with hx
  set y := npb S e 2 1 with hy
  set z := npb S e 2 2 with hz
  have hz1 : 1 + z ≠ 0 := fun h => hu (by show z = -1; linarith)
  have hq : 1 - 1 / (1 + z) * (x ^ 2 + y ^ 2) = z := by
    have : x ^ 2 + y ^ 2 = (1 - z) * (1 + z) := by linarith
    rw [this]; field_simp; ring
  have hrow : cMatrix S (some e) 2 = npb S e 2 := by
    funext j
    have hj : cMatrix S (some e) 2 j = cioMatrix x y z (cioLocator S e) 2 j := rfl
    rw [hj]
    fin_cases j
    · simp [cioMatrix, hx]
    · simp [cioMatrix, hy]
    · have : cioMatrix x y z (cioLocator S e) 2 2 = 1 - 1 / (1 + z) * (x ^ 2 + y ^ 2) := by simp [cioMatrix]
      show cioMatrix x y z (cioLocator S e) 2 2 = z
      rw [this, hq]
  refine ⟨hrow, ?_⟩
  have hrot := (cioMatrix_isRot (s := cioLocator S e) hunit hu).2.1
  have : (cMatrix S (some e)).mulVec (cMatrix S (some e) 2) = ![0, 0, 1] := by
    have h1 : (cMatrix S (some e)).mulVec (cMatrix S (some e) 2) = fun i => (cMatrix S (some e) * (cMatrix S (some e)).transpose) i 2 := by
      funext i
      simp [Matrix.mulVec, Matrix.mul_apply, dotProduct, Matrix.transpose_apply]
    rw [h1]
    have h2 : cMatrix S (some e) * (cMatrix S (some e)).transpose = 1 := hrot
    rw [h2]
    funext i; fin_cases i <;> simp [Matrix.one_apply]
  rwa [hrow] at this

/-! ## Precession -/

/-- C139: no precession over an empty interval, and none at J2000. -/
theorem no_precession (e : Epoch) : precJ e e = 1 ∧ precB e e = 1 ∧ precCapitaine (.flt 2000) = 1 ∧ precCapitaine (.int 2000) = 1 := by
  have hc : centuries e e = 0 := by cases e <;> simp [centuries]
  have h0 : rot 0 .ez = 1 := rot_zero trivial
  have h1 : rot 0 .ey = 1 := rot_zero trivial
  have hcap : ∀ a : Epoch, a.val = 2000 → precCapitaine a = 1 := by
    intro a ha
    simp only [precCapitaine, ha, sub_self, zero_div, polyval, List.foldl_cons, List.foldl_nil, mul_zero, zero_add, h1,
      Matrix.mul_one]
    rw [← rot_add _ _ (axis := .ez) trivial]
    rw [show -(-2.650545 / 3600 : ℝ) + -(2.650545 / 3600) = 0 by norm_num, h0]
  refine ⟨?_, ?_, hcap _ rfl, hcap _ (by simp [Epoch.val])⟩
  · simp [precJ, fk5Angles, hc, h0, h1]
  · simp [precB, polyval, h0, h1]

/-- C139: what the FK5 precession angles are, in arcseconds: those of IAU 1976 except for two terms whose sign is turned round. -/
theorem fk5_angles_exact (T t : ℝ) :
    (fk5Angles T t).1 * 3600 = (iau76 T t).1 - 0.000132 * T * t ^ 2 ∧ (fk5Angles T t).2.1 * 3600 = (iau76 T t).2.1 ∧
    (fk5Angles T t).2.2 * 3600 = (iau76 T t).2.2 + 0.000688 * T * t ^ 2 := by
  simp only [fk5Angles, iau76]
  refine ⟨?_, ?_, ?_⟩ <;> ring

/-- C139: they are the IAU 1976 angles exactly when the interval starts at J2000 or is empty. -/
theorem fk5_angles_iff (T t : ℝ) :
    (fk5Angles T t).1 * 3600 = (iau76 T t).1 ∧ (fk5Angles T t).2.1 * 3600 = (iau76 T t).2.1 ∧
      (fk5Angles T t).2.2 * 3600 = (iau76 T t).2.2 ↔ T = 0 ∨ t = 0 := by
  obtain ⟨a, b, c⟩ := fk5_angles_exact T t
  rw [a, b, c]
  constructor
  · rintro ⟨-, -, h⟩
    have : T * t ^ 2 = 0 := by linarith
    rcases mul_eq_zero.1 this with h | h
    · exact .inl h
    · exact .inr (by simpa using h)
  · rintro (rfl | rfl) <;> simp

/-- The matrix of a set of angles in arcseconds. -/
def precOf (a : ℝ × ℝ × ℝ) : M3 := rot (-(a.1 / 3600)) .ez * rot (a.2.1 / 3600) .ey * rot (-(a.2.2 / 3600)) .ez

/-- The IAU 1976 angles themselves are exactly reversible: from `T` over `t` and back is no change. -/
theorem iau76_reversible (T t : ℝ) : precOf (iau76 (T + t) (-t)) = (precOf (iau76 T t)).transpose := by
  have h1 : (iau76 (T + t) (-t)).1 = -(iau76 T t).2.2 := by simp only [iau76]; ring
  have h2 : (iau76 (T + t) (-t)).2.1 = -(iau76 T t).2.1 := by simp only [iau76]; ring
  have h3 : (iau76 (T + t) (-t)).2.2 = -(iau76 T t).1 := by simp only [iau76]; ring
  unfold precOf
  rw [h1, h2, h3, Matrix.transpose_mul, Matrix.transpose_mul, ← rot_neg _ (axis := .ez) trivial, ← rot_neg _ (axis := .ey) trivial,
    ← rot_neg _ (axis := .ez) trivial, Matrix.mul_assoc]
  simp only [neg_div, neg_neg]

theorem euler_entries (a b c : ℝ) : (rot a .ez * rot b .ey * rot c .ez) 0 2 = -(cos (a * π / 180) * sin (b * π / 180)) ∧
    (rot a .ez * rot b .ey * rot c .ez) 2 0 = sin (b * π / 180) * cos (c * π / 180) ∧
    (rot a .ez * rot b .ey * rot c .ez) 2 1 = sin (b * π / 180) * sin (c * π / 180) ∧
    (rot a .ez * rot b .ey * rot c .ez) 2 2 = cos (b * π / 180) := by
  simp only [rot_rotR, rotR_z, rotR_y]
  refine ⟨?_, ?_, ?_, ?_⟩ <;> simp [Matrix.mul_apply, Fin.sum_univ_three]

/-- C139: where the pole of the second epoch lies, seen from the first: `theta` from the old pole, at right ascension `-zeta`. -/
theorem precession_pole (e1 e2 : Epoch) :
    (precJ e1 e2).transpose.mulVec ![0, 0, 1] =
      dirDeg (-(fk5Angles (centuries e1 (.int 2000)) (centuries e2 e1)).2.2)
        (90 - (fk5Angles (centuries e1 (.int 2000)) (centuries e2 e1)).2.1) := by
  set a := fk5Angles (centuries e1 (.int 2000)) (centuries e2 e1) with ha
  obtain ⟨-, h0, h1, h2⟩ := euler_entries (-a.1) a.2.1 (-a.2.2)
  have hp : precJ e1 e2 = rot (-a.1) .ez * rot a.2.1 .ey * rot (-a.2.2) .ez := rfl
  have hh : (90 - a.2.1) * π / 180 = π / 2 - a.2.1 * π / 180 := by ring
  rw [hp]
  funext i
  have : ∀ (m : M3) i, m.transpose.mulVec ![0, 0, 1] i = m 2 i := by
    intro m i; simp [Matrix.mulVec, dotProduct, Fin.sum_univ_three]
  rw [this]
  fin_cases i
  · simp only [dirDeg, cart, Fin.zero_eta, Matrix.cons_val_zero]
    rw [h0, hh, cos_pi_div_two_sub]
  · simp only [dirDeg, cart, Fin.mk_one, Matrix.cons_val_one, Matrix.cons_val_zero]
    rw [h1, hh, cos_pi_div_two_sub]
  · show _ = sin ((90 - a.2.1) * π / 180)
    rw [hh, sin_pi_div_two_sub]; exact h2

theorem cos_deg_inj {a b : ℝ} (ha0 : 0 ≤ a) (ha1 : a ≤ 180) (hb0 : 0 ≤ b) (hb1 : b ≤ 180)
    (h : cos (a * π / 180) = cos (b * π / 180)) : a = b := by
  have hp := Real.pi_pos
  have := injOn_cos (x₁ := a * π / 180) (x₂ := b * π / 180) ⟨by positivity, by rw [div_le_iff₀ (by norm_num)]; nlinarith⟩
    ⟨by positivity, by rw [div_le_iff₀ (by norm_num)]; nlinarith⟩ h
  have h2 : a * π = b * π := by linarith
  exact mul_right_cancel₀ hp.ne' h2

/-- C139: because of those signs the FK5 precession is not exactly reversible: from J2000 to J2100 and back is not the identity. -/
theorem fk5_not_reversible : precJ (.flt 2100) (.flt 2000) * precJ (.flt 2000) (.flt 2100) ≠ 1 := by
  intro h
  set A := precJ (.flt 2000) (.flt 2100) with hA
  set B := precJ (.flt 2100) (.flt 2000) with hB
  have hrA := precJ_isRot (.flt 2000) (.flt 2100)
  have e : B = A.transpose := by
    have : B * A * A.transpose = A.transpose := by rw [h, Matrix.one_mul]
    rwa [Matrix.mul_assoc, hrA.2.1, Matrix.mul_one] at this
  have h02 : B 2 0 = A 0 2 := by rw [e]; rfl
  have cA : centuries (.flt 2000) (.int 2000) = 0 := by simp [centuries, Epoch.val]
  have cA' : centuries (.flt 2100) (.flt 2000) = 1 := by simp [centuries, Epoch.val]; norm_num
  have cB : centuries (.flt 2100) (.int 2000) = 1 := by simp [centuries, Epoch.val]; norm_num
  have cB' : centuries (.flt 2000) (.flt 2100) = -1 := by simp [centuries, Epoch.val]; norm_num
  have eA : A 0 2 = -(cos (-(fk5Angles 0 1).1 * π / 180) * sin ((fk5Angles 0 1).2.1 * π / 180)) := by
    rw [hA]; unfold precJ; rw [cA, cA']; exact (euler_entries _ _ _).1
  have eB : B 2 0 = sin ((fk5Angles 1 (-1)).2.1 * π / 180) * cos (-(fk5Angles 1 (-1)).2.2 * π / 180) := by
    rw [hB]; unfold precJ; rw [cB, cB']; exact (euler_entries _ _ _).2.1
  have t1 : (fk5Angles 1 (-1)).2.1 = -(fk5Angles 0 1).2.1 := by simp only [fk5Angles]; norm_num
  have s1 : ∀ u : ℝ, sin (-u * π / 180) = -sin (u * π / 180) := fun u => by rw [neg_mul, neg_div, sin_neg]
  have c1 : ∀ u : ℝ, cos (-u * π / 180) = cos (u * π / 180) := fun u => by rw [neg_mul, neg_div, cos_neg]
  rw [eA, eB, t1, s1, c1 (fk5Angles 0 1).1] at h02
  have hth : 0 < sin ((fk5Angles 0 1).2.1 * π / 180) := by
    have hp := Real.pi_pos
    have h0 : (0 : ℝ) < (fk5Angles 0 1).2.1 := by simp only [fk5Angles]; norm_num
    have h1 : (fk5Angles 0 1).2.1 < 180 := by simp only [fk5Angles]; norm_num
    apply sin_pos_of_pos_of_lt_pi
    · positivity
    · rw [div_lt_iff₀ (by norm_num)]; nlinarith
  have hc : cos (-(fk5Angles 1 (-1)).2.2 * π / 180) = cos ((fk5Angles 0 1).1 * π / 180) := by
    apply mul_left_cancel₀ hth.ne'
    linarith
  have := cos_deg_inj (by simp only [fk5Angles]; norm_num) (by simp only [fk5Angles]; norm_num) (by simp only [fk5Angles]; norm_num)
    (by simp only [fk5Angles]; norm_num) hc
  revert this
  simp only [fk5Angles]; norm_num

end

end Verif.Frames
