import Mathlib.Analysis.SpecialFunctions.Trigonometric.Deriv
import Mathlib.Tactic.Linarith
import Mathlib.Tactic.Ring
import Mathlib.Tactic.NormNum
import Mathlib.Tactic.FieldSimp
import Mathlib.Tactic.LinearCombination

/-!
# Position and velocity of the Earth and geocentric planets (astropysics/coords/ephems.py 845-862, 935-1130, 1165-1185) (C112)

Over the reals, for arbitrary tables of coefficients (the file earth_series.tab is not modelled, its reading is: padding and grouping).
-/

namespace Verif.EarthSeries

open Real

/-! ## Model -/

abbrev V3 := ℝ × ℝ × ℝ

/-- Padding with zeros to a common length, ephems.py 990-1003. -/
def pad (n : ℕ) (l : List ℝ) : List ℝ := l ++ List.replicate (n - l.length) 0

/-- The columns 0::3, 1::3, 2::3 of a row taken together, ephems.py 1025-1027 (a length that is not a multiple of three is a broadcasting error). -/
def triples : List ℝ → Option (List V3)
  | [] => some []
  | a :: b :: c :: l => match triples l with
    | some r => some ((a, b, c) :: r)
    | none => none
  | _ => none

def sumBy (f : V3 → ℝ) (l : List V3) : ℝ := (l.map f).sum

/-- One row (x, y or z) of the three tables. -/
structure Row where
  c0 : List V3
  c1 : List V3
  c2 : List V3

/-- `_compute_earth_series` for one row: position, ephems.py 1023-1053. -/
noncomputable def Row.pos (r : Row) (t : ℝ) : ℝ :=
  sumBy (fun c => c.1 * cos (c.2.1 + c.2.2 * t)) r.c0 +
  sumBy (fun c => c.1 * t * cos (c.2.1 + c.2.2 * t)) r.c1 +
  sumBy (fun c => c.1 * cos (c.2.1 + c.2.2 * t) * t * t) r.c2

/-- ... and velocity. -/
noncomputable def Row.vel (r : Row) (t : ℝ) : ℝ :=
  sumBy (fun c => -c.1 * c.2.2 * sin (c.2.1 + c.2.2 * t)) r.c0 +
  sumBy (fun c => c.1 * (cos (c.2.1 + c.2.2 * t) - c.2.2 * t * sin (c.2.1 + c.2.2 * t))) r.c1 +
  sumBy (fun c => c.1 * t * (2 * cos (c.2.1 + c.2.2 * t) - c.2.2 * t * sin (c.2.1 + c.2.2 * t))) r.c2

/-- The three rows. -/
structure Series where
  x : Row
  y : Row
  z : Row

noncomputable def Series.pos (s : Series) (t : ℝ) : V3 := (s.x.pos t, s.y.pos t, s.z.pos t)
noncomputable def Series.vel (s : Series) (t : ℝ) : V3 := (s.x.vel t, s.y.vel t, s.z.vel t)

/-- The tables and the matrix of the data file. -/
structure Data where
  helio : Series
  bary : Series
  mat : V3 × V3 × V3

def add3 (a b : V3) : V3 := (a.1 + b.1, a.2.1 + b.2.1, a.2.2 + b.2.2)
def sub3 (a b : V3) : V3 := (a.1 - b.1, a.2.1 - b.2.1, a.2.2 - b.2.2)
def scale (k : ℝ) (a : V3) : V3 := (k * a.1, k * a.2.1, k * a.2.2)
def dot (a b : V3) : ℝ := a.1 * b.1 + a.2.1 * b.2.1 + a.2.2 * b.2.2
def apply (m : V3 × V3 × V3) (v : V3) : V3 := (dot m.1 v, dot m.2.1 v, dot m.2.2 v)

/-- constants.py 140-148, obstools jd2000. -/
def jd2000 : ℝ := 2451545
def secperyr : ℝ := 365.25 * 86400
def cmperau : ℝ := 1.49597887e13
noncomputable def aupercm : ℝ := 1 / cmperau

/-- Julian years since 2000, ephems.py 1113. -/
noncomputable def years (jd : ℝ) : ℝ := (jd - jd2000) / 365.25

/-- `earth_pos_vel(jd,barycentric,kms)`, ephems.py 1083-1134. -/
noncomputable def earthPos (d : Data) (jd : ℝ) (barycentric : Bool) : V3 :=
  let p := d.helio.pos (years jd)
  let p := if barycentric then add3 p (d.bary.pos (years jd)) else p
  apply d.mat p

noncomputable def earthVel (d : Data) (jd : ℝ) (barycentric kms : Bool) : V3 :=
  let v := d.helio.vel (years jd)
  let v := if barycentric then add3 v (d.bary.vel (years jd)) else v
  let v := apply d.mat v
  if kms then scale (1e-5 / aupercm / secperyr) v else v

/-- The warning, ephems.py 1115-1116. -/
noncomputable def earthWarns (jd : ℝ) : Prop := years jd > 100 ∨ years jd < -100

/-- `Earth._getCoordObj`: barycentric; `Earth.getVelocity(jd,kms)`, ephems.py 1058-1081. -/
noncomputable def earthCoords (d : Data) (jd : ℝ) : V3 := earthPos d jd true
noncomputable def earthVelocity (d : Data) (ownJd : ℝ) (jd : Option ℝ) (kms : Bool) : V3 := earthVel d (jd.getD ownJd) true kms

/-- The constants of `_ecl_to_icrs` (850-851) and `_ecl_to_gcrs` (1169-1171). -/
def seps : ℝ := 0.39777697800876388
def ceps : ℝ := 0.91748213920828747
def cose : ℝ := 0.917482139208

def eclToIcrs (p : V3) : V3 := (p.1, ceps * p.2.1 - seps * p.2.2, seps * p.2.1 + ceps * p.2.2)
def tilt (p : V3) : V3 := (p.1, cose * p.2.1 - seps * p.2.2, seps * p.2.1 + cose * p.2.2)
noncomputable def eclToGcrs (d : Data) (p : V3) (jd : ℝ) : V3 := sub3 (tilt p) (earthPos d jd true)

/-! ## Reading -/

theorem triples_append (l m : List ℝ) (r s : List V3) (hl : triples l = some r) (hm : triples m = some s) : triples (l ++ m) = some (r ++ s) := by
  induction l using triples.induct generalizing r with
  | case1 => cases hl; simpa using hm
  | case2 a b c l r' h ih =>
    simp only [triples, h] at hl
    cases hl
    simp only [List.cons_append, triples, ih r' h]
  | case3 a b c l h ih => simp [triples, h] at hl
  | case4 l h1 h2 =>
    exfalso
    match l, h1, h2 with
    | [a], _, _ => simp [triples] at hl
    | [a, b], _, _ => simp [triples] at hl
    | a :: b :: c :: l, _, h2 => exact h2 a b c l rfl

theorem triples_zeros (k : ℕ) : triples (List.replicate (3 * k) 0) = some (List.replicate k (0, 0, 0)) := by
  induction k with
  | zero => rfl
  | succ k ih =>
    rw [show 3 * (k + 1) = (3 * k) + 1 + 1 + 1 by ring]
    simp only [List.replicate_succ, triples, ih]

theorem triples_length (l : List ℝ) (r : List V3) (h : triples l = some r) : l.length = 3 * r.length := by
  induction l using triples.induct generalizing r with
  | case1 => cases h; rfl
  | case2 a b c l r' h' ih =>
    simp only [triples, h'] at h
    cases h
    simp [ih r' h']; ring
  | case3 a b c l h' ih => simp [triples, h'] at h
  | case4 l h1 h2 =>
    exfalso
    match l, h1, h2 with
    | [a], _, _ => simp [triples] at h
    | [a, b], _, _ => simp [triples] at h
    | a :: b :: c :: l, _, h2 => exact h2 a b c l rfl

/-- The k-th term of a row consists of its entries 3k, 3k+1, 3k+2: amplitude, phase, frequency. -/
theorem triples_entries (l : List ℝ) (r : List V3) (h : triples l = some r) : l = r.flatMap fun t => [t.1, t.2.1, t.2.2] := by
  induction l using triples.induct generalizing r with
  | case1 => cases h; rfl
  | case2 a b c l r' h' ih =>
    simp only [triples, h'] at h
    cases h
    simp [← ih r' h']
  | case3 a b c l h' ih => simp [triples, h'] at h
  | case4 l h1 h2 =>
    exfalso
    match l, h1, h2 with
    | [a], _, _ => simp [triples] at h
    | [a, b], _, _ => simp [triples] at h
    | a :: b :: c :: l, _, h2 => exact h2 a b c l rfl

/-- Rows of whole terms padded to a common length still consist of whole terms: the old ones and terms of zeros. -/
theorem pad_triples (l : List ℝ) (r : List V3) (h : triples l = some r) (n : ℕ) : triples (pad (3 * n) l) = some (r ++ List.replicate (n - r.length) (0, 0, 0)) := by
  unfold pad
  rw [triples_length l r h, ← Nat.mul_sub]
  exact triples_append _ _ _ _ h (triples_zeros _)

theorem sumBy_pad (f : V3 → ℝ) (hf : f (0, 0, 0) = 0) (l : List V3) (k : ℕ) : sumBy f (l ++ List.replicate k (0, 0, 0)) = sumBy f l := by
  simp [sumBy, hf]

/-- Padding a table changes neither positions nor velocities. -/
theorem pad_neutral (r : Row) (i j k : ℕ) (t : ℝ) :
    let r' : Row := ⟨r.c0 ++ List.replicate i (0, 0, 0), r.c1 ++ List.replicate j (0, 0, 0), r.c2 ++ List.replicate k (0, 0, 0)⟩
    r'.pos t = r.pos t ∧ r'.vel t = r.vel t := by
  intro r'
  constructor
  · simp only [r', Row.pos]; rw [sumBy_pad, sumBy_pad, sumBy_pad] <;> simp
  · simp only [r', Row.vel]; rw [sumBy_pad, sumBy_pad, sumBy_pad] <;> simp

/-! ## The velocity is the derivative of the position -/

theorem hasDerivAt_sumBy (f f' : ℝ → V3 → ℝ) (t : ℝ) (l : List V3) (h : ∀ c, HasDerivAt (fun t => f t c) (f' t c) t) :
    HasDerivAt (fun t => sumBy (f t) l) (sumBy (f' t) l) t := by
  induction l with
  | nil => simpa [sumBy] using hasDerivAt_const t (0 : ℝ)
  | cons c l ih =>
    have : HasDerivAt (fun t => f t c + sumBy (f t) l) (f' t c + sumBy (f' t) l) t := (h c).add ih
    simpa [sumBy] using this

theorem row_deriv (r : Row) (t : ℝ) : HasDerivAt r.pos (r.vel t) t := by
  have hp : ∀ c : V3, HasDerivAt (fun t => c.2.1 + c.2.2 * t) c.2.2 t := fun c => by
    simpa using ((hasDerivAt_id t).const_mul c.2.2).const_add c.2.1
  have h0 := hasDerivAt_sumBy (fun t c => c.1 * cos (c.2.1 + c.2.2 * t)) (fun t c => -c.1 * c.2.2 * sin (c.2.1 + c.2.2 * t)) t r.c0 (fun c =>
    HasDerivAt.congr_deriv ((hp c).cos.const_mul c.1) (by ring))
  have h1 := hasDerivAt_sumBy (fun t c => c.1 * t * cos (c.2.1 + c.2.2 * t))
    (fun t c => c.1 * (cos (c.2.1 + c.2.2 * t) - c.2.2 * t * sin (c.2.1 + c.2.2 * t))) t r.c1 (fun c =>
    HasDerivAt.congr_deriv (((hasDerivAt_id t).const_mul c.1).mul (hp c).cos) (by simp; ring))
  have h2 := hasDerivAt_sumBy (fun t c => c.1 * cos (c.2.1 + c.2.2 * t) * t * t)
    (fun t c => c.1 * t * (2 * cos (c.2.1 + c.2.2 * t) - c.2.2 * t * sin (c.2.1 + c.2.2 * t))) t r.c2 (fun c =>
    HasDerivAt.congr_deriv ((((hp c).cos.const_mul c.1).mul (hasDerivAt_id t)).mul (hasDerivAt_id t)) (by simp; ring))
  exact (h0.add h1).add h2

/-- Derivative of a vector, coordinate by coordinate. -/
def HasDeriv3 (f : ℝ → V3) (f' : V3) (t : ℝ) : Prop :=
  HasDerivAt (fun t => (f t).1) f'.1 t ∧ HasDerivAt (fun t => (f t).2.1) f'.2.1 t ∧ HasDerivAt (fun t => (f t).2.2) f'.2.2 t

theorem hasDeriv3_add (f g : ℝ → V3) (f' g' : V3) (t : ℝ) (hf : HasDeriv3 f f' t) (hg : HasDeriv3 g g' t) :
    HasDeriv3 (fun t => add3 (f t) (g t)) (add3 f' g') t := ⟨hf.1.add hg.1, hf.2.1.add hg.2.1, hf.2.2.add hg.2.2⟩

theorem hasDeriv3_apply (m : V3 × V3 × V3) (f : ℝ → V3) (f' : V3) (t : ℝ) (hf : HasDeriv3 f f' t) :
    HasDeriv3 (fun t => apply m (f t)) (apply m f') t := by
  have h : ∀ r : V3, HasDerivAt (fun t => dot r (f t)) (dot r f') t := fun r =>
    (((hf.1.const_mul r.1).add (hf.2.1.const_mul r.2.1)).add (hf.2.2.const_mul r.2.2))
  exact ⟨h _, h _, h _⟩

/-- For any coefficients and matrix, heliocentric or barycentric, the velocity in AU/yr is the derivative of the position by time in Julian years. -/
theorem velocity_is_derivative (d : Data) (b : Bool) (y : ℝ) :
    HasDeriv3 (fun y => earthPos d (jd2000 + 365.25 * y) b) (earthVel d (jd2000 + 365.25 * y) b false) y := by
  have hy : ∀ y, years (jd2000 + 365.25 * y) = y := fun y => by unfold years; norm_num
  have hs : ∀ s : Series, HasDeriv3 s.pos (s.vel y) y := fun s => ⟨row_deriv _ _, row_deriv _ _, row_deriv _ _⟩
  cases b with
  | false =>
    simp only [earthPos, earthVel, hy]
    exact hasDeriv3_apply d.mat _ _ y (hs d.helio)
  | true =>
    simp only [earthPos, earthVel, hy]
    exact hasDeriv3_apply d.mat _ _ y (hasDeriv3_add _ _ _ _ y (hs d.helio) (hs d.bary))

theorem kms_factor (d : Data) (jd : ℝ) (b : Bool) : earthVel d jd b true = scale (1e-5 * cmperau / secperyr) (earthVel d jd b false) := by
  have : (1e-5 / aupercm / secperyr : ℝ) = 1e-5 * cmperau / secperyr := by unfold aupercm cmperau; norm_num
  cases b <;> simp only [earthVel] <;> rw [← this] <;> rfl

/-- In km/s it is the derivative of the position in km by time in seconds. -/
theorem velocity_kms (d : Data) (b : Bool) (s : ℝ) :
    HasDeriv3 (fun s => scale (cmperau * 1e-5) (earthPos d (jd2000 + s / 86400) b)) (earthVel d (jd2000 + s / 86400) b true) s := by
  have hj : ∀ s : ℝ, jd2000 + s / 86400 = jd2000 + 365.25 * (s / secperyr) := fun s => by unfold secperyr; ring
  have hin : HasDerivAt (fun s : ℝ => s / secperyr) (1 / secperyr) s := (hasDerivAt_id s).div_const secperyr
  have hd := velocity_is_derivative d b (s / secperyr)
  rw [kms_factor]
  simp only [hj]
  refine ⟨?_, ?_, ?_⟩
  · exact HasDerivAt.congr_deriv ((hd.1.comp s hin).const_mul (cmperau * 1e-5)) (by simp only [scale]; ring)
  · exact HasDerivAt.congr_deriv ((hd.2.1.comp s hin).const_mul (cmperau * 1e-5)) (by simp only [scale]; ring)
  · exact HasDerivAt.congr_deriv ((hd.2.2.comp s hin).const_mul (cmperau * 1e-5)) (by simp only [scale]; ring)

/-- `Earth.getVelocity` is the derivative of the coordinates the Earth object gives; without a date it uses the object's own. -/
theorem earth_object (d : Data) (own y : ℝ) :
    HasDeriv3 (fun y => earthCoords d (jd2000 + 365.25 * y)) (earthVelocity d own (some (jd2000 + 365.25 * y)) false) y ∧
    earthVelocity d (jd2000 + 365.25 * y) none false = earthVelocity d own (some (jd2000 + 365.25 * y)) false :=
  ⟨velocity_is_derivative d true y, rfl⟩

/-- The warning is given exactly more than a century of Julian years from J2000. -/
theorem warning_iff (jd : ℝ) : earthWarns jd ↔ |jd - jd2000| > 36525 := by
  unfold earthWarns years
  constructor
  · rintro (h | h)
    · rw [gt_iff_lt, lt_div_iff₀ (by norm_num)] at h
      exact lt_of_lt_of_le (by linarith) (le_abs_self _)
    · rw [div_lt_iff₀ (by norm_num)] at h
      exact lt_of_lt_of_le (by linarith) (neg_le_abs _)
  · intro h
    rcases lt_abs.1 h with h | h
    · left; rw [gt_iff_lt, lt_div_iff₀ (by norm_num)]; linarith
    · right; rw [div_lt_iff₀ (by norm_num)]; linarith

/-! ## Frames -/

/-- Where the Sun is from the barycentre. -/
noncomputable def sunFromBary (d : Data) (jd : ℝ) : V3 := apply d.mat (d.bary.pos (years jd))

/-- The two positions of the Earth differ by the rotated second series. -/
theorem bary_helio (d : Data) (jd : ℝ) : earthPos d jd true = add3 (earthPos d jd false) (sunFromBary d jd) := by
  simp only [earthPos, sunFromBary, apply, dot, add3, if_true, Bool.false_eq_true, if_false, Prod.mk.injEq]
  refine ⟨?_, ?_, ?_⟩ <;> ring

/-- Geocentric coordinates of a planet with heliocentric orbit: its tilted heliocentric position minus the heliocentric Earth would be right;
the function subtracts the barycentric Earth, so the result is off by the whole offset of the Sun from the barycentre. -/
theorem geocentric_off_by_sun (d : Data) (p : V3) (jd : ℝ) :
    eclToGcrs d p jd = sub3 (sub3 (tilt p) (earthPos d jd false)) (sunFromBary d jd) := by
  simp only [eclToGcrs, bary_helio, sub3, add3, Prod.mk.injEq]
  refine ⟨?_, ?_, ?_⟩ <;> ring

/-- In particular an object on the Earth (same heliocentric position) is reported away from the origin whenever the Sun is not at the barycentre. -/
theorem geocentric_counterexample (d : Data) (p : V3) (jd : ℝ) (hp : tilt p = earthPos d jd false) (hs : sunFromBary d jd ≠ (0, 0, 0)) :
    eclToGcrs d p jd ≠ (0, 0, 0) := by
  rw [geocentric_off_by_sun, hp]
  intro h
  apply hs
  simp only [sub3, sub_self, zero_sub, Prod.mk.injEq, neg_eq_zero] at h
  ext
  · exact h.1
  · exact h.2.1
  · exact h.2.2

/-- Tables for which this happens. -/
example : ∃ (d : Data) (p : V3) (jd : ℝ), tilt p = earthPos d jd false ∧ sunFromBary d jd ≠ (0, 0, 0) := by
  refine ⟨⟨⟨⟨[(1, 0, 0)], [], []⟩, ⟨[], [], []⟩, ⟨[], [], []⟩⟩, ⟨⟨[(0.005, 0, 0)], [], []⟩, ⟨[], [], []⟩, ⟨[], [], []⟩⟩,
    ((1, 0, 0), (0, 1, 0), (0, 0, 1))⟩, (1, 0, 0), jd2000, ?_, ?_⟩
  · simp [tilt, earthPos, Series.pos, Row.pos, sumBy, apply, dot]
  · simp [sunFromBary, Series.pos, Row.pos, sumBy, apply, dot]; norm_num

/-- The tilts are rotations about x, to 1e-12 relative in squared length (planets) and 1e-16 (Moon). -/
theorem tilt_length (p : V3) :
    |dot (tilt p) (tilt p) - dot p p| ≤ 1e-12 * dot p p ∧ |dot (eclToIcrs p) (eclToIcrs p) - dot p p| ≤ 1e-16 * dot p p := by
  have hn : 0 ≤ p.2.1 ^ 2 + p.2.2 ^ 2 := by positivity
  have hx : 0 ≤ p.1 ^ 2 := sq_nonneg _
  have e0 : dot p p = p.1 ^ 2 + (p.2.1 ^ 2 + p.2.2 ^ 2) := by unfold dot; ring
  constructor
  · have e : dot (tilt p) (tilt p) - dot p p = (cose ^ 2 + seps ^ 2 - 1) * (p.2.1 ^ 2 + p.2.2 ^ 2) := by unfold dot tilt; ring
    rw [e, e0, abs_mul, abs_of_nonneg hn]
    have : |cose ^ 2 + seps ^ 2 - 1| ≤ 1e-12 := by unfold cose seps; rw [abs_le]; constructor <;> norm_num
    nlinarith
  · have e : dot (eclToIcrs p) (eclToIcrs p) - dot p p = (ceps ^ 2 + seps ^ 2 - 1) * (p.2.1 ^ 2 + p.2.2 ^ 2) := by unfold dot eclToIcrs; ring
    rw [e, e0, abs_mul, abs_of_nonneg hn]
    have : |ceps ^ 2 + seps ^ 2 - 1| ≤ 1e-16 := by unfold ceps seps; rw [abs_le]; constructor <;> norm_num
    nlinarith

/-- Directions in the ecliptic: the pole of the ecliptic and the equinox go where the obliquity 23.43928 says (the equinox stays). -/
theorem tilt_equinox (x : ℝ) : tilt (x, 0, 0) = (x, 0, 0) ∧ eclToIcrs (x, 0, 0) = (x, 0, 0) ∧
    tilt (0, 0, x) = (0, -(seps * x), cose * x) ∧ eclToIcrs (0, 0, x) = (0, -(seps * x), ceps * x) := by
  simp [tilt, eclToIcrs]

end Verif.EarthSeries
