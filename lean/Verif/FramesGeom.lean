import Verif.FramesEpoch

/-!
# Where the poles of the frames lie (C142) and FK4 (C143)
-/

namespace Verif.Frames

noncomputable section

open Real Verif.Angle Verif.LatLong Verif.Rotation

/-! ## Vectors in degrees -/

theorem deg_sub (a b : ℝ) : (a - b) * π / 180 = a * π / 180 - b * π / 180 := by ring

theorem rot_z_dir (a l b : ℝ) : (rot a .ez).mulVec (dirDeg l b) = dirDeg (l - a) b := by
  rw [rot_rotR, rotR_z]
  funext i
  fin_cases i <;> simp [dirDeg, cart, Matrix.mulVec, dotProduct, Fin.sum_univ_three, deg_sub, cos_sub, sin_sub] <;> ring

theorem dirDeg_pole (l : ℝ) : dirDeg l 90 = ![0, 0, 1] := by
  unfold dirDeg cart
  rw [show (90 : ℝ) * π / 180 = π / 2 by ring]; simp

theorem rot_y_meridian (b d : ℝ) : (rot (90 - d) .ey).mulVec (dirDeg 0 b) = dirDeg 0 (b + 90 - d) := by
  rw [rot_rotR, rotR_y]
  have h : (b + 90 - d) * π / 180 = b * π / 180 + (90 - d) * π / 180 := by ring
  funext i
  fin_cases i <;> simp [dirDeg, cart, Matrix.mulVec, dotProduct, Fin.sum_univ_three, h, cos_add, sin_add] <;> ring

/-- Longitudes 360 degrees apart are the same direction; over the pole the longitude turns by 180. -/
theorem dirDeg_over (l b : ℝ) : dirDeg l (180 - b) = dirDeg (l - 180) b := by
  have h1 : (180 - b) * π / 180 = π - b * π / 180 := by ring
  have h2 : (l - 180) * π / 180 = l * π / 180 - π := by ring
  funext i
  fin_cases i <;> simp [dirDeg, cart, h1, h2, cos_pi_sub, sin_pi_sub, cos_sub_pi, sin_sub_pi]

/-! ## C142 -/

/-- C142: the galactic matrices (J2000 and B1950 constants alike) take the given north galactic pole to latitude 90 degrees and the north
celestial pole to the given galactic longitude, at the latitude of the pole's declination. -/
theorem galactic_poles (ra dec l0 : ℝ) :
    (galPole ra dec l0).mulVec (dirDeg ra dec) = dirDeg 0 90 ∧ (galPole ra dec l0).mulVec (dirDeg 0 90) = dirDeg l0 dec := by
  unfold galPole
  simp only [← Matrix.mulVec_mulVec]
  constructor
  · rw [rot_z_dir, sub_self, rot_y_meridian, rot_z_dir, show dec + 90 - dec = 90 by ring, dirDeg_pole, dirDeg_pole]
  · rw [dirDeg_pole, ← dirDeg_pole ra, rot_z_dir, sub_self, rot_y_meridian, rot_z_dir, show (90 : ℝ) + 90 - dec = 180 - dec by ring,
      dirDeg_over, show (0 : ℝ) - (180 - l0) - 180 = l0 - 360 by ring]
    have h : (l0 - 360) * π / 180 = l0 * π / 180 - 2 * π := by ring
    funext i
    fin_cases i <;> simp [dirDeg, cart, h]

/-- C142: at J2000 (a float epoch, or none) FK5 to galactic is exactly that, and FK4 at B1950. -/
theorem galactic_at_standard_epoch :
    galFromFk5 none = galPole 192.859508 27.128336 122.932 ∧ galFromFk5 (some (.int 2000)) = galPole 192.859508 27.128336 122.932 ∧
    galFromFk5 (some (.flt 2000)) = galPole 192.859508 27.128336 122.932 ∧
    galFromFk4 none = galPole 192.25 27.4 123 ∧ galFromFk4 (some (.flt 1950)) = galPole 192.25 27.4 123 := by
  have hJ : precJ (.flt 2000) (.int 2000) = 1 := by
    unfold precJ
    have h1 : centuries (.flt 2000) (.int 2000) = 0 := by simp [centuries, Epoch.val]
    have h2 : centuries (.int 2000) (.flt 2000) = 0 := by simp [centuries, Epoch.val]
    rw [h1, h2]
    simp [fk5Angles, rot_zero (axis := .ez) trivial, rot_zero (axis := .ey) trivial]
  have hB : precB (.flt 1950) (.int 1950) = 1 := by
    have : precB (.flt 1950) (.int 1950) = precB (.flt 1950) (.flt 1950) := by simp [precB, Epoch.val]
    rw [this]; exact (no_precession _).2.1
  refine ⟨?_, ?_, ?_, ?_, ?_⟩
  · simp [galFromFk5, (no_precession (.int 2000)).1]
  · simp [galFromFk5, (no_precession (.int 2000)).1]
  · simp [galFromFk5, hJ]
  · simp [galFromFk4, (no_precession (.int 1950)).2.1]
  · simp [galFromFk4, hB]

/-- C142: supergalactic coordinates put the given pole at latitude 90 degrees and the given origin, 90 degrees of longitude from the pole on
the galactic equator, at longitude and latitude 0; the built-in constants are of that kind. -/
theorem supergalactic_axes (pl pb : ℝ) :
    (sgalFromGal pl pb (pl + 90)).mulVec (dirDeg pl pb) = dirDeg 0 90 ∧
    (sgalFromGal pl pb (pl + 90)).mulVec (dirDeg (pl + 90) 0) = dirDeg 0 0 ∧ (47.37 : ℝ) + 90 = 137.37 := by
  unfold sgalFromGal
  simp only [← Matrix.mulVec_mulVec]
  refine ⟨?_, ?_, by norm_num⟩
  · rw [rot_z_dir, sub_self, rot_y_meridian, rot_z_dir, show pb + 90 - pb = 90 by ring, dirDeg_pole, dirDeg_pole]
  · rw [rot_z_dir, show pl + 90 - pl = 90 by ring]
    have h1 : dirDeg 90 0 = ![0, 1, 0] := by
      unfold dirDeg cart
      rw [show (90 : ℝ) * π / 180 = π / 2 by ring, show (0 : ℝ) * π / 180 = 0 by ring]; simp
    have h2 : (rot (90 - pb) .ey).mulVec ![0, 1, 0] = ![0, 1, 0] := by
      rw [rot_rotR, rotR_y]
      funext i; fin_cases i <;> simp [Matrix.mulVec, dotProduct, Fin.sum_univ_three]
    rw [h1, h2, ← h1, rot_z_dir, show (90 : ℝ) - (180 - (pl + 90) + pl) = 0 by ring]

/-- C142: ecliptic coordinates keep the equinox (longitude and latitude 0) and put the north celestial pole at longitude 90 and latitude
90 minus the obliquity; the three obliquity models agree with the published polynomials and anything else is refused. -/
theorem ecliptic_axes (alg : ℕ) (e : Epoch) :
    (∀ m, eclipticFromEq alg e = some m → ∃ o, obliquity ((e.val - 2000) / 100) alg = some o ∧
      m.mulVec (dirDeg 0 0) = dirDeg 0 0 ∧ m.mulVec (dirDeg 0 90) = dirDeg 90 (90 - o)) ∧
    ((eclipticFromEq alg e).isSome ↔ alg = 2006 ∨ alg = 2000 ∨ alg = 1980) := by
  constructor
  · intro m h
    unfold eclipticFromEq at h
    cases ho : obliquity ((e.val - 2000) / 100) alg with
    | none => rw [ho] at h; simp at h
    | some o =>
      rw [ho] at h
      simp only [Option.map_some, Option.some.injEq] at h
      subst h
      refine ⟨o, rfl, ?_, ?_⟩
      · have h0 : dirDeg 0 0 = ![1, 0, 0] := by unfold dirDeg cart; simp
        rw [h0, rot_rotR, rotR_x]
        funext i; fin_cases i <;> simp [Matrix.mulVec, dotProduct, Fin.sum_univ_three]
      · rw [dirDeg_pole]
        have h9 : (90 : ℝ) * π / 180 = π / 2 := by ring
        have hb : (90 - o) * π / 180 = π / 2 - o * π / 180 := by ring
        rw [rot_rotR, rotR_x]
        funext i
        fin_cases i <;> simp [Matrix.mulVec, dotProduct, Fin.sum_univ_three, dirDeg, cart, h9, hb, cos_pi_div_two_sub, sin_pi_div_two_sub]
  · unfold eclipticFromEq obliquity
    split_ifs <;> simp_all

/-- C142: the obliquity models in arcseconds. -/
theorem obliquity_models (T : ℝ) :
    obliquity T 1980 = some ((84381.448 - 46.8150 * T - 0.00059 * T ^ 2 + 0.001813 * T ^ 3) / 3600) ∧
    obliquity T 2000 = some ((84381.448 - 46.84024 * T - 0.00059 * T ^ 2 + 0.001813 * T ^ 3) / 3600) ∧
    obliquity T 2006 = some ((84381.406 - 46.836769 * T - 0.0001831 * T ^ 2 + 0.00200340 * T ^ 3 - 0.000000576 * T ^ 4
      - 0.0000000434 * T ^ 5) / 3600) := by
  refine ⟨?_, ?_, ?_⟩ <;> simp only [obliquity, polyval, List.foldl_cons, List.foldl_nil] <;> norm_num <;> ring

/-! ## C139: published angles, nutation, Earth rotation -/

/-- The precession angles of Capitaine et al. (2003) in arcseconds (z, theta, zeta), `T` centuries after J2000. -/
def capitaine (T : ℝ) : ℝ × ℝ × ℝ :=
  (-2.650545 + 2306.077181 * T + 1.0927348 * T ^ 2 + 0.01826837 * T ^ 3 - 0.000028596 * T ^ 4 - 0.0000002904 * T ^ 5,
   2004.191903 * T - 0.4294934 * T ^ 2 - 0.04182264 * T ^ 3 - 0.000007089 * T ^ 4 - 0.0000001274 * T ^ 5,
   2.650545 + 2306.083227 * T + 0.2988499 * T ^ 2 + 0.01801828 * T ^ 3 - 0.000005971 * T ^ 4 - 0.0000003173 * T ^ 5)

/-- Newcomb's precession angles as revised by Kinoshita (arcseconds), from `T` millennia after 1850 over `t` millennia. -/
def newcomb (T t : ℝ) : ℝ × ℝ × ℝ :=
  ((23035.545 + 139.720 * T + 0.060 * T ^ 2) * t + (109.480 + 0.39 * T) * t ^ 2 + 18.325 * t ^ 3,
   (20051.12 - 85.29 * T - 0.37 * T ^ 2) * t - (42.65 + 0.37 * T) * t ^ 2 - 41.8 * t ^ 3,
   (23035.545 + 139.720 * T + 0.060 * T ^ 2) * t + (30.240 - 0.27 * T) * t ^ 2 + 17.995 * t ^ 3)

/-- C139: the precession matrices are those of the published angles, for every epoch. -/
theorem published_precession (e e1 e2 : Epoch) :
    precCapitaine e = precOf (capitaine ((e.val - 2000) / 100)) ∧
    precB e1 e2 = precOf (newcomb ((e1.val - 1850) / 1000) ((e2.val - 1850) / 1000 - (e1.val - 1850) / 1000)) := by
  constructor
  · unfold precCapitaine precOf capitaine
    simp only [polyval, List.foldl]
    congr 1
    · congr 1 <;> congr 1 <;> ring
    · congr 1; ring
  · unfold precB precOf newcomb
    simp only [polyval, List.foldl]
    congr 1
    · congr 1 <;> congr 1 <;> ring
    · congr 1; ring

/-- The equatorial vector of ecliptic longitude and latitude (radians) under an obliquity. -/
def eqOfEcl (obl lam beta : ℝ) : Fin 3 → ℝ :=
  ![cos beta * cos lam, cos obl * (cos beta * sin lam) - sin obl * sin beta, sin obl * (cos beta * sin lam) + cos obl * sin beta]

/-- C139: what nutation does: a point at ecliptic longitude `lam` and latitude `beta` under the mean obliquity is at longitude `lam` plus the
nutation in longitude, and the same latitude, under the true obliquity. -/
theorem nutation_exact (S : Series) (e : Epoch) (lam beta : ℝ) :
    (nutation S e).mulVec (eqOfEcl (S.nut e.val).1 lam beta) =
      eqOfEcl ((S.nut e.val).1 + (S.nut e.val).2.2) (lam + (S.nut e.val).2.1) beta := by
  have h1 : (rotR (S.nut e.val).1 .ex).mulVec (eqOfEcl (S.nut e.val).1 lam beta) = ![cos beta * cos lam, cos beta * sin lam, sin beta] := by
    rw [rotR_x]
    have hs := sin_sq_add_cos_sq (S.nut e.val).1
    funext i
    fin_cases i
    · simp [Matrix.mulVec, dotProduct, Fin.sum_univ_three, eqOfEcl]
    · simp [Matrix.mulVec, dotProduct, Fin.sum_univ_three, eqOfEcl]
      linear_combination (cos beta * sin lam) * hs
    · simp [Matrix.mulVec, dotProduct, Fin.sum_univ_three, eqOfEcl]
      linear_combination (sin beta) * hs
  have h2 : (rotR (-(S.nut e.val).2.1) .ez).mulVec ![cos beta * cos lam, cos beta * sin lam, sin beta] =
      ![cos beta * cos (lam + (S.nut e.val).2.1), cos beta * sin (lam + (S.nut e.val).2.1), sin beta] := by
    rw [rotR_z]
    funext i
    fin_cases i <;> simp [Matrix.mulVec, dotProduct, Fin.sum_univ_three, cos_add, sin_add] <;> ring
  have h3 : nutation S e = rotR (-((S.nut e.val).1 + (S.nut e.val).2.2)) .ex * rotR (-(S.nut e.val).2.1) .ez * rotR (S.nut e.val).1 .ex := rfl
  rw [h3, ← Matrix.mulVec_mulVec, h1, ← Matrix.mulVec_mulVec, h2, rotR_x, cos_neg, sin_neg]
  funext i
  fin_cases i <;> simp [Matrix.mulVec, dotProduct, Fin.sum_univ_three, eqOfEcl] <;> ring

/-- Milliarcseconds in radians. -/
noncomputable def masRad (m : ℝ) : ℝ := m / 1000 / 3600 * (π / 180)

/-- C139: the frame bias of USNO Circular 179: the J2000 axes are the ICRS axes turned by -14.6 mas about z, then by -16.617 mas about y, then by
6.8192 mas about x. -/
theorem frame_bias (v : Fin 3 → ℝ) : let a := masRad 14.6; let xi := masRad 16.617; let eta := masRad 6.8192;
    let w1 := ![cos a * v 0 - sin a * v 1, sin a * v 0 + cos a * v 1, v 2];
    let w2 := ![cos xi * w1 0 + sin xi * w1 2, w1 1, cos xi * w1 2 - sin xi * w1 0];
    frameBias.mulVec v = ![w2 0, cos eta * w2 1 + sin eta * w2 2, cos eta * w2 2 - sin eta * w2 1] := by
  intro a xi eta w1 w2
  have h1 : rot (-14.6 / 3600000) .ez = !![cos a, -sin a, 0; sin a, cos a, 0; 0, 0, 1] := by
    rw [rot_rotR, rotR_z, show (-14.6 / 3600000 : ℝ) * π / 180 = -a by simp only [a, masRad]; ring, cos_neg, sin_neg, neg_neg]
  have h2 : rot (-16.6170 / 3600000) .ey = !![cos xi, 0, sin xi; 0, 1, 0; -sin xi, 0, cos xi] := by
    rw [rot_rotR, rotR_y, show (-16.6170 / 3600000 : ℝ) * π / 180 = -xi by simp only [xi, masRad]; ring, cos_neg, sin_neg, neg_neg]
  have h3 : rot (-(-6.8192) / 3600000) .ex = !![1, 0, 0; 0, cos eta, sin eta; 0, -sin eta, cos eta] := by
    rw [rot_rotR, rotR_x, show (-(-6.8192) / 3600000 : ℝ) * π / 180 = eta by simp only [eta, masRad]; ring]
  rw [frameBias, ← Matrix.mulVec_mulVec, ← Matrix.mulVec_mulVec, h1, h2, h3]
  funext i
  fin_cases i <;> simp only [Matrix.mulVec, dotProduct, Fin.sum_univ_three, w1, w2] <;> simp <;> ring_nf <;> simp

/-- C139: the Earth's rotation: before polar motion, a terrestrial longitude is the right ascension minus the rotation angle (from CIRS) or the
sidereal time (from the equinox), and CIRS right ascension is the equinox one plus the equation of the origins; so if sidereal time is rotation angle minus
equation of the origins, both ways to ITRS agree. -/
theorem earth_rotation (S : Series) (e : Epoch) :
    (∀ ra dec, (itrsFromCirs S (some e)).mulVec (dirDeg ra dec) = (wMatrix S e).mulVec (dirDeg (ra - S.era e.val) dec)) ∧
    (∀ ra dec, (itrsFromEquinox S (some e)).mulVec (dirDeg ra dec) = (wMatrix S e).mulVec (dirDeg (ra - S.gst e.val) dec)) ∧
    (∀ ra dec, (equinoxToCirs S (some e)).mulVec (dirDeg ra dec) = dirDeg (ra + S.eqo e.val) dec) ∧
    (S.gst e.val = S.era e.val - S.eqo e.val → itrsFromEquinox S (some e) = itrsFromCirs S (some e) * equinoxToCirs S (some e)) ∧
    itrsFromCirs S none = 1 ∧ itrsFromEquinox S none = 1 ∧ equinoxToCirs S none = 1 := by
  refine ⟨?_, ?_, ?_, ?_, rfl, rfl, rfl⟩
  · intro ra dec; simp only [itrsFromCirs]; rw [← Matrix.mulVec_mulVec, rot_z_dir]
  · intro ra dec; simp only [itrsFromEquinox]; rw [← Matrix.mulVec_mulVec, rot_z_dir]
  · intro ra dec; simp only [equinoxToCirs]; rw [rot_z_dir, sub_neg_eq_add]
  · intro h
    simp only [itrsFromCirs, itrsFromEquinox, equinoxToCirs]
    rw [Matrix.mul_assoc, ← rot_add _ _ (axis := .ez) trivial, h, sub_eq_add_neg]

/-! ## C143: FK4 -/

theorem atan2_scale {r : ℝ} (hr : 0 < r) (y x : ℝ) : atan2 (r * y) (r * x) = atan2 y x := by
  unfold atan2
  have : (⟨r * x, r * y⟩ : ℂ) = (r : ℂ) * ⟨x, y⟩ := by apply Complex.ext <;> simp
  rw [this, Complex.arg_real_mul _ hr]

theorem rotated_scale {r : ℝ} (hr : 0 < r) (m : M3) (lat long : ℝ) : rotated (r • m) lat long = rotated m lat long := by
  have h : ∀ i, (r • m).mulVec (cart lat long) i = r * m.mulVec (cart lat long) i := by
    intro i; rw [Matrix.smul_mulVec]; rfl
  unfold rotated
  simp only [h]
  have hs : √(r * m.mulVec (cart lat long) 0 * (r * m.mulVec (cart lat long) 0) + r * m.mulVec (cart lat long) 1 * (r * m.mulVec (cart lat long) 1))
      = r * √(m.mulVec (cart lat long) 0 * m.mulVec (cart lat long) 0 + m.mulVec (cart lat long) 1 * m.mulVec (cart lat long) 1) := by
    rw [show r * m.mulVec (cart lat long) 0 * (r * m.mulVec (cart lat long) 0) + r * m.mulVec (cart lat long) 1 * (r * m.mulVec (cart lat long) 1)
      = r ^ 2 * (m.mulVec (cart lat long) 0 * m.mulVec (cart lat long) 0 + m.mulVec (cart lat long) 1 * m.mulVec (cart lat long) 1) by ring,
      sqrt_mul (sq_nonneg r), sqrt_sq hr.le]
  rw [hs, atan2_scale hr, atan2_scale hr]

/-- A matrix that does not kill a direction turns a coordinate to the normalised image. -/
theorem matrixRotate_dir_general {c : LL} (h : WF c) {m : M3} (hm : act m (dir c) ≠ 0) :
    dir (matrixRotate c m) = ‖act m (dir c)‖⁻¹ • act m (dir c) := by
  set n := ‖act m (dir c)‖ with hn
  have hn0 : 0 < n := norm_pos_iff.2 hm
  have hsc : matrixRotate c m = matrixRotate c (n⁻¹ • m) := by
    unfold matrixRotate; rw [rotated_scale (inv_pos.2 hn0)]
  have hact : act (n⁻¹ • m) (dir c) = n⁻¹ • act m (dir c) := by
    unfold act; rw [Matrix.smul_mulVec]; rfl
  have hunit : ‖act (n⁻¹ • m) (dir c)‖ = 1 := by
    rw [hact, norm_smul, norm_inv, Real.norm_of_nonneg hn0.le, ← hn, inv_mul_cancel₀ hn0.ne']
  rw [hsc]
  set m' := n⁻¹ • m with hm'
  have hs : m'.mulVec (cart c.lat.val c.long.val) 0 ^ 2 + m'.mulVec (cart c.lat.val c.long.val) 1 ^ 2
      + m'.mulVec (cart c.lat.val c.long.val) 2 ^ 2 = 1 := by
    rw [EuclideanSpace.norm_eq, Real.sqrt_eq_one] at hunit
    simpa [act, dir_eq_cart, Fin.sum_univ_three, sq_abs] using hunit
  obtain ⟨h0, h1, -, -, hc⟩ := rotated_spec m' c.lat.val c.long.val hs
  have elat : (matrixRotate c m').lat.val = (rotated m' c.lat.val c.long.val).1 := by
    unfold matrixRotate; dsimp only; rw [setRadians_lat h.lat h0 h1]
  have elong : ∃ k : ℤ, (matrixRotate c m').long.val = (rotated m' c.lat.val c.long.val).2 + k * (2 * π) := by
    rcases h.long with hl | ⟨r, hl, hw, hcy⟩
    · refine ⟨0, ?_⟩
      simp [matrixRotate, setRadians, checkRange, hl]
    · obtain ⟨_, ⟨k, hk⟩, -, -⟩ := wrap_congruent hl hcy le_rfl (by have := Real.two_pi_pos; linarith) (rotated m' c.lat.val c.long.val).2
      refine ⟨k, ?_⟩
      unfold matrixRotate; dsimp only
      rw [hk, show r.up - r.low = 2 * π by linarith]
  obtain ⟨k, elong⟩ := elong
  have : cart (matrixRotate c m').lat.val (matrixRotate c m').long.val = m'.mulVec (cart c.lat.val c.long.val) := by
    rw [← hc, elat, elong]
    simp only [cart, cos_add_int_mul_two_pi, sin_add_int_mul_two_pi]
  rw [← hact]
  show WithLp.toLp 2 (cart (matrixRotate c m').lat.val (matrixRotate c m').long.val) = _
  rw [this]; rfl

theorem act_smul (m : M3) (r : ℝ) (v : EuclideanSpace ℝ (Fin 3)) : act m (r • v) = r • act m v := by
  unfold act
  rw [WithLp.ofLp_smul, Matrix.mulVec_smul, WithLp.toLp_smul]

theorem act_ne_zero {m : M3} (hm : m.det ≠ 0) (c : LL) : act m (dir c) ≠ 0 := by
  intro h
  have h1 : act (m⁻¹ * m) (dir c) = 0 := by rw [← act_act, h]; unfold act; simp
  rw [Matrix.nonsing_inv_mul _ (isUnit_iff_ne_zero.2 hm), act_one] at h1
  have := norm_dir c
  rw [h1] at this; simp at this

/-- C143: a conversion by an invertible matrix that is not a rotation (Murray's FK4-FK5 matrix) and back by its inverse restores direction
and epoch: for two classes, at every epoch for which the matrix is invertible. -/
theorem inverse_round_trip (A B : Cls) (hA : FullTurn A.longrange) (hB : FullTurn B.longrange) (m : Option Epoch → M3) (o : Obj)
    (h : WF o.pos) (hm : (m o.epoch).det ≠ 0) :
    let o' := convert (convert o [⟨B, m⟩]) [⟨A, fun e => (m e)⁻¹⟩]
    o'.epoch = o.epoch ∧ dir o'.pos = dir o.pos := by
  refine ⟨rfl, ?_⟩
  obtain ⟨w1, d1⟩ := taken_over hB h
  set p := matrixRotate (setLong (setLat (fresh B.longrange) o.pos.lat.val) o.pos.long.val) (m o.epoch) with hp
  have wp : WF p := matrixRotate_wf w1 _
  have dp : dir p = ‖act (m o.epoch) (dir o.pos)‖⁻¹ • act (m o.epoch) (dir o.pos) := by
    rw [hp, matrixRotate_dir_general w1 (by rw [d1]; exact act_ne_zero hm _), d1]
  obtain ⟨w2, d2⟩ := taken_over hA wp
  have hinv : (m o.epoch)⁻¹.det ≠ 0 := by
    rw [Matrix.det_nonsing_inv, Ring.inverse_eq_inv']; exact inv_ne_zero hm
  show dir (matrixRotate (setLong (setLat (fresh A.longrange) p.lat.val) p.long.val) (m o.epoch)⁻¹) = dir o.pos
  have hact : act (m o.epoch)⁻¹ (dir p) = ‖act (m o.epoch) (dir o.pos)‖⁻¹ • dir o.pos := by
    rw [dp, act_smul, act_act, Matrix.nonsing_inv_mul _ (isUnit_iff_ne_zero.2 hm), act_one]
  have hn0 : 0 < ‖act (m o.epoch) (dir o.pos)‖ := norm_pos_iff.2 (act_ne_zero hm _)
  rw [matrixRotate_dir_general w2 (by rw [d2]; exact act_ne_zero hinv _), d2, hact, norm_smul, norm_inv,
    Real.norm_of_nonneg hn0.le, norm_dir, mul_one, inv_inv, smul_smul, mul_inv_cancel₀ hn0.ne', one_smul]

theorem murray_det : murray.det ≠ 0 := by
  rw [Matrix.det_fin_three]
  simp only [murray, Matrix.of_apply, Matrix.cons_val', Matrix.cons_val_zero, Matrix.cons_val_one, Matrix.cons_val]
  norm_num

/-- C143: the built-in FK4-FK5 pair at the standard epoch (or without one) goes through the fixed matrix and round-trips. -/
theorem fk4_standard (o : Obj) (h : WF o.pos) (he : o.epoch = none ∨ o.epoch = some (.flt 1950)) :
    fk4ToFk5 o.epoch = murray ∧
    dir (convert (convert o [⟨eqCls, fk4ToFk5⟩]) [⟨fk4Cls, fun e => (fk4ToFk5 e)⁻¹⟩]).pos = dir o.pos := by
  have e : fk4ToFk5 o.epoch = murray := by rcases he with he | he <;> simp [he, fk4ToFk5, Epoch.val]
  exact ⟨e, (inverse_round_trip fk4Cls eqCls (.inr ⟨_, rfl, by simp, rfl⟩) eqCls_full fk4ToFk5 o h (by rw [e]; exact murray_det)).2⟩

/-- C143: Murray's matrix is not a rotation, so FK4-FK5 conversions do not exactly keep separations. -/
theorem murray_not_rotation : ¬ IsRotation murray := by
  intro h
  have := congrFun (congrFun h.1 0) 0
  simp only [murray, Matrix.mul_apply, Matrix.transpose_apply, Fin.sum_univ_three, Matrix.of_apply, Matrix.cons_val', Matrix.cons_val_zero,
    Matrix.cons_val_one, Matrix.cons_val, Matrix.one_apply_eq] at this
  norm_num at this

/-- C143: it is one to one part in 10^15, and its rate of change is the rate of a rotation to the same accuracy. -/
theorem murray_nearly_rotation (i j : Fin 3) :
    |(murray * murray.transpose) i j - (1 : M3) i j| < 1e-15 ∧
    |(murray * murrayRate.transpose + murrayRate * murray.transpose) i j| < 1e-15 ∧ |murray.det - 1| < 1e-15 := by
  refine ⟨?_, ?_, ?_⟩
  · fin_cases i <;> fin_cases j <;>
      simp [murray, Matrix.mul_apply, Fin.sum_univ_three] <;> norm_num [abs_lt]
  · rw [Matrix.add_apply, Matrix.mul_apply, Matrix.mul_apply, Fin.sum_univ_three, Fin.sum_univ_three]
    simp only [Matrix.transpose_apply]
    fin_cases i <;> fin_cases j <;> simp [murray, murrayRate] <;> norm_num [abs_lt]
  · rw [Matrix.det_fin_three]
    simp [murray]
    norm_num [abs_lt]

/-- The `theta` angle of Newcomb's precession in arcseconds, from `t1` over `dt` thousand years. -/
def newcombTheta (t1 dt : ℝ) : ℝ := dt * (20051.12 - 85.29 * t1 - 0.37 * t1 ^ 2) + dt ^ 2 * (-42.65 - 0.37 * t1) - 41.8 * dt ^ 3

/-- C143: the FK4 precession from B1950 to B2000 and back is not exactly the identity. -/
theorem fk4_not_reversible : precB (.flt 2000) (.flt 1950) * precB (.flt 1950) (.flt 2000) ≠ 1 := by
  intro h
  set A := precB (.flt 1950) (.flt 2000) with hA
  set B := precB (.flt 2000) (.flt 1950) with hB
  have hrA := precB_isRot (.flt 1950) (.flt 2000)
  have e : B = A.transpose := by
    have : B * A * A.transpose = A.transpose := by rw [h, Matrix.one_mul]
    rwa [Matrix.mul_assoc, hrA.2.1, Matrix.mul_one] at this
  have h22 : B 2 2 = A 2 2 := by rw [e]; rfl
  have eA : A 2 2 = cos (newcombTheta 0.1 0.05 / 3600 * π / 180) := by
    rw [hA]; unfold precB; refine (euler_entries _ _ _).2.2.2.trans ?_
    congr 3
    simp only [newcombTheta, polyval, List.foldl_cons, List.foldl_nil, Epoch.val]; norm_num
  have eB : B 2 2 = cos (newcombTheta 0.15 (-0.05) / 3600 * π / 180) := by
    rw [hB]; unfold precB; refine (euler_entries _ _ _).2.2.2.trans ?_
    congr 3
    simp only [newcombTheta, polyval, List.foldl_cons, List.foldl_nil, Epoch.val]; norm_num
  rw [eA, eB] at h22
  have hneg : cos (newcombTheta 0.15 (-0.05) / 3600 * π / 180) = cos (-(newcombTheta 0.15 (-0.05) / 3600) * π / 180) := by
    rw [neg_mul, neg_div, cos_neg]
  rw [hneg] at h22
  have := cos_deg_inj (by simp only [newcombTheta]; norm_num) (by simp only [newcombTheta]; norm_num) (by simp only [newcombTheta]; norm_num)
    (by simp only [newcombTheta]; norm_num) h22
  revert this
  simp only [newcombTheta]; norm_num

/-- C141: whatever comes after a step to galactic coordinates is computed without an epoch: the epoch of the original plays no part in it. -/
theorem after_galactic (o : Obj) (m : Option Epoch → M3) (l : Leg) : (follow o [⟨galCls, m⟩]).epoch = none ∧
    follow o [⟨galCls, m⟩, l] = smatrix l.target.longrange l.target.default (l.mat none) (follow o [⟨galCls, m⟩]) := ⟨rfl, rfl⟩

end

end Verif.Frames
