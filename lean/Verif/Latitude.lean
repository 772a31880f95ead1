import Mathlib.Analysis.SpecialFunctions.Trigonometric.Arctan
import Mathlib.Analysis.SpecialFunctions.Trigonometric.ArctanDeriv
import Mathlib.Tactic.Linarith
import Mathlib.Tactic.FieldSimp
import Mathlib.Tactic.Ring
import Mathlib.Tactic.NormNum
import Mathlib.Tactic.Positivity

/-!
# Geographic and geocentric latitude (astropysics/coords/funcs.py 1066-1119, coords/coordsys.py 113, 190-255, 351-380) (C194)

Real numbers instead of floats; angles in radians.  A latitude is given as an angle object, a number of degrees, a sequence of numbers or a text; sequences and texts are spread over the arguments of
`AngularCoordinate` (`operator.isSequenceType` holds for texts).
-/

namespace Verif.Latitude

noncomputable section

open Real

/-- `Rea`, constants.py 128. -/
def Rea : ℝ := 637813700
/-- `Reb`, constants.py 129. -/
def Reb : ℝ := Rea * (1 - 1 / (298257223563 / 1000000000))

/-- `boasq`, funcs.py 1090 and 1118. -/
def boasq : ℝ := (Reb / Rea) ^ 2

/-- funcs.py 1091. -/
def toGeocentric (rads : ℝ) : ℝ := arctan (boasq * tan rads)
/-- funcs.py 1119. -/
def toGeographic (rads : ℝ) : ℝ := arctan (1 / boasq * tan rads)

/-- What can be given. -/
inductive Lat
  /-- an `AngularCoordinate` with this many radians -/
  | coord (rads : ℝ)
  | number (deg : ℝ)
  | numbers (l : List ℝ)
  | text (s : List Char)

inductive Err
  | type
  | value
  deriving DecidableEq

def isSpace (c : Char) : Bool := c = ' ' || c = '\t' || c = '\n' || c = '\r' || c = '\x0b' || c = '\x0c'

/-- `AngularCoordinate(c)` for a text of one character, coordsys.py 196-243: a digit is degrees (radians if `radians`), a space is nothing, anything else is not matched. -/
def oneChar (radians : Bool) (c : Char) : Except Err ℝ :=
  if isSpace c then .ok 0
  else if c.isDigit then (let x : ℝ := (c.toNat - 48 : ℕ)
    .ok (if radians then x else x * π / 180))
  else .error .value

/-- The argument `range` is a number or a text of one character, coordsys.py 351-380: `tuple` of a number is a TypeError, and so is a tuple of length one. -/
def setRange (_v : ℝ) : Except Err ℝ := .error .type

/-- `AngularCoordinate(*l)`, coordsys.py 113 and 190-255: the arguments are the value, `sghms`, `range` and `radians`. -/
def fromNumbers : List ℝ → Except Err ℝ
  | [] => .ok 0
  | [x] => .ok (x * π / 180)
  | [x, _] => .ok (x * π / 180)
  | [x, _, _] => setRange (x * π / 180)
  | [x, _, _, r] => setRange (if r = 0 then x * π / 180 else x)
  | _ => .error .type

/-- `AngularCoordinate(*s)` for a text. -/
def fromChars : List Char → Except Err ℝ
  | [] => .ok 0
  | [c] => oneChar false c
  | [c, _] => oneChar false c
  | [c, _, _] => (match oneChar false c with | .ok v => setRange v | .error e => .error e)
  | [c, _, _, _] => (match oneChar true c with | .ok v => setRange v | .error e => .error e)
  | _ => .error .type

/-- funcs.py 1082-1088 and 1110-1116. -/
def rads : Lat → Except Err ℝ
  | .coord r => .ok r
  | .number d => .ok (d * π / 180)
  | .numbers l => fromNumbers l
  | .text s => fromChars s

/-- `geographic_to_geocentric_latitude`, funcs.py 1066-1091; the radians of the result. -/
def geographicToGeocentric (l : Lat) : Except Err ℝ := (rads l).map toGeocentric
/-- `geocentric_to_geographic_latitude`, funcs.py 1093-1119. -/
def geocentricToGeographic (l : Lat) : Except Err ℝ := (rads l).map toGeographic

/-! ## Specification -/

/-- The direction of a vector with positive first component, above the equator. -/
def elevation (x z : ℝ) : ℝ := arctan (z / x)

/-! ## Proofs -/

theorem rea_pos : 0 < Rea := by norm_num [Rea]
theorem reb_pos : 0 < Reb := by norm_num [Reb, Rea]
theorem reb_lt : Reb < Rea := by norm_num [Reb, Rea]
theorem boasq_pos : 0 < boasq := by unfold boasq; have := rea_pos; have := reb_pos; positivity
theorem boasq_lt : boasq < 1 := by
  unfold boasq
  rw [div_pow, div_lt_one (by have := rea_pos; positivity)]
  have h1 := reb_pos
  have h2 := reb_lt
  nlinarith

/-- C194.  At a point (x, z) of the meridian ellipse, the geographic latitude is the direction of the normal - the gradient of x²/a² + z²/b² - and the geocentric latitude that of the point. -/
theorem ellipse_exact (x z : ℝ) (hx : 0 < x) (_h : x ^ 2 / Rea ^ 2 + z ^ 2 / Reb ^ 2 = 1) :
    toGeocentric (elevation (2 * x / Rea ^ 2) (2 * z / Reb ^ 2)) = elevation x z ∧ toGeographic (elevation x z) = elevation (2 * x / Rea ^ 2) (2 * z / Reb ^ 2) := by
  have ha := rea_pos
  have hb := reb_pos
  unfold toGeocentric toGeographic elevation boasq
  rw [tan_arctan, tan_arctan]
  constructor <;> congr 1 <;> field_simp

/-- C194.  The normal is perpendicular to every curve in the ellipse. -/
theorem normal_perp (x z : ℝ → ℝ) (x' z' t : ℝ) (hx : HasDerivAt x x' t) (hz : HasDerivAt z z' t) (h : ∀ s, x s ^ 2 / Rea ^ 2 + z s ^ 2 / Reb ^ 2 = 1) :
    2 * x t / Rea ^ 2 * x' + 2 * z t / Reb ^ 2 * z' = 0 := by
  have h1 : HasDerivAt (fun s => x s ^ 2 / Rea ^ 2 + z s ^ 2 / Reb ^ 2) (2 * x t ^ 1 * x' / Rea ^ 2 + 2 * z t ^ 1 * z' / Reb ^ 2) t := by
    simpa using ((hx.fun_pow 2).div_const _).fun_add ((hz.fun_pow 2).div_const _)
  have h2 : HasDerivAt (fun s => x s ^ 2 / Rea ^ 2 + z s ^ 2 / Reb ^ 2) 0 t := by
    have : (fun s => x s ^ 2 / Rea ^ 2 + z s ^ 2 / Reb ^ 2) = fun _ => (1 : ℝ) := funext h
    rw [this]; exact hasDerivAt_const t 1
  have h3 := h1.unique h2
  rw [← h3]; ring

theorem arctan_tan_shift (φ : ℝ) (n : ℤ) (h1 : -(π / 2) < φ - n * π) (h2 : φ - n * π < π / 2) : arctan (tan φ) = φ - n * π := by
  have : tan φ = tan (φ - n * π) := (tan_sub_int_mul_pi φ n).symm
  rw [this, arctan_tan h1 h2]

/-- C194.  The two conversions undo each other between the poles; a latitude beyond a pole comes back without its half turns. -/
theorem inverse_exact (φ : ℝ) (n : ℤ) (h1 : -(π / 2) < φ - n * π) (h2 : φ - n * π < π / 2) :
    toGeographic (toGeocentric φ) = φ - n * π ∧ toGeocentric (toGeographic φ) = φ - n * π := by
  have hk := boasq_pos
  unfold toGeographic toGeocentric
  rw [tan_arctan, tan_arctan]
  constructor
  · rw [← mul_assoc, one_div, inv_mul_cancel₀ hk.ne', one_mul, arctan_tan_shift φ n h1 h2]
  · rw [← mul_assoc, one_div, mul_inv_cancel₀ hk.ne', one_mul, arctan_tan_shift φ n h1 h2]

/-- C194.  The order of latitudes is kept, and the equator stays. -/
theorem monotone (φ ψ : ℝ) (h1 : -(π / 2) < φ) (h : φ < ψ) (h2 : ψ < π / 2) : toGeocentric φ < toGeocentric ψ ∧ toGeographic φ < toGeographic ψ ∧ toGeocentric 0 = 0 ∧ toGeographic 0 = 0 := by
  have hk := boasq_pos
  have ht : tan φ < tan ψ := tan_lt_tan_of_lt_of_lt_pi_div_two h1 h2 h
  refine ⟨arctan_strictMono (by nlinarith), arctan_strictMono ?_, by simp [toGeocentric], by simp [toGeographic]⟩
  exact mul_lt_mul_of_pos_left ht (by positivity)

/-- The results are between the poles. -/
theorem results_in_range (φ : ℝ) : |toGeocentric φ| < π / 2 ∧ |toGeographic φ| < π / 2 :=
  ⟨abs_lt.2 ⟨neg_pi_div_two_lt_arctan _, arctan_lt_pi_div_two _⟩, abs_lt.2 ⟨neg_pi_div_two_lt_arctan _, arctan_lt_pi_div_two _⟩⟩

/-- C194.  North of the equator the geocentric latitude is smaller, by at most `arctan ((a² - b²) / (2ab))` (11.55'); in the south it is the mirror image. -/
theorem difference_bound (φ : ℝ) (h1 : 0 < φ) (h2 : φ < π / 2) :
    0 < toGeocentric φ ∧ toGeocentric φ < φ ∧ φ - toGeocentric φ ≤ arctan ((Rea ^ 2 - Reb ^ 2) / (2 * Rea * Reb)) ∧ toGeocentric (-φ) = -toGeocentric φ ∧ toGeographic (-φ) = -toGeographic φ := by
  have hk := boasq_pos
  have hk1 := boasq_lt
  have ht : 0 < tan φ := tan_pos_of_pos_of_lt_pi_div_two h1 h2
  have hφ : arctan (tan φ) = φ := arctan_tan (by linarith) h2
  have hpos : 0 < toGeocentric φ := by unfold toGeocentric; rw [← arctan_zero]; exact arctan_strictMono (by positivity)
  have hlt : toGeocentric φ < φ := by
    conv_rhs => rw [← hφ]
    exact arctan_strictMono (by nlinarith)
  refine ⟨hpos, hlt, ?_, by simp [toGeocentric, arctan_neg], by simp [toGeographic, arctan_neg]⟩
  have hd1 : -(π / 2) < φ - toGeocentric φ := by linarith [pi_pos]
  have hd2 : φ - toGeocentric φ < π / 2 := by linarith
  rw [← arctan_tan hd1 hd2]
  apply arctan_strictMono.monotone
  have hc1 : 0 < cos φ := cos_pos_of_mem_Ioo ⟨by linarith, h2⟩
  have htg : tan (toGeocentric φ) = boasq * tan φ := by unfold toGeocentric; exact tan_arctan _
  have hc2 : 0 < cos (toGeocentric φ) := cos_pos_of_mem_Ioo ⟨by linarith [pi_pos], by linarith⟩
  have hsub : tan (φ - toGeocentric φ) = (tan φ - boasq * tan φ) / (1 + tan φ * (boasq * tan φ)) := by
    rw [← htg, tan_eq_sin_div_cos, tan_eq_sin_div_cos φ, tan_eq_sin_div_cos (toGeocentric φ), sin_sub, cos_sub]
    have h3 : cos φ * cos (toGeocentric φ) + sin φ * sin (toGeocentric φ) ≠ 0 := by
      rw [← cos_sub]; exact (cos_pos_of_mem_Ioo ⟨hd1, hd2⟩).ne'
    have e : 1 + sin φ / cos φ * (sin (toGeocentric φ) / cos (toGeocentric φ)) = (cos φ * cos (toGeocentric φ) + sin φ * sin (toGeocentric φ)) / (cos φ * cos (toGeocentric φ)) := by
      field_simp
    rw [e]
    field_simp
  rw [hsub]
  have ha := rea_pos
  have hb := reb_pos
  have hbl := reb_lt
  have e1 : boasq = Reb ^ 2 / Rea ^ 2 := by unfold boasq; rw [div_pow]
  rw [e1, div_le_div_iff₀ (by positivity) (by positivity)]
  set t := tan φ with htdef
  have e2 : (Rea ^ 2 - Reb ^ 2) * (1 + t * (Reb ^ 2 / Rea ^ 2 * t)) - (t - Reb ^ 2 / Rea ^ 2 * t) * (2 * Rea * Reb) = (Rea ^ 2 - Reb ^ 2) * (1 - Reb / Rea * t) ^ 2 := by
    field_simp; ring
  have e3 : 0 ≤ (Rea ^ 2 - Reb ^ 2) * (1 - Reb / Rea * t) ^ 2 := by
    apply mul_nonneg _ (sq_nonneg _)
    nlinarith
  linarith

/-- C194.  What the argument means: an angle object and a number of degrees are what they say; of a sequence or a text of one or two members only the first counts; three or more members - degrees,
minutes and seconds, or a text such as `45.5` - are an error. -/
theorem input_exact :
    (∀ r, rads (.coord r) = .ok r) ∧ (∀ d, rads (.number d) = .ok (d * π / 180)) ∧ (∀ x, rads (.numbers [x]) = .ok (x * π / 180)) ∧ (∀ x y, rads (.numbers [x, y]) = .ok (x * π / 180)) ∧
    (∀ l, 3 ≤ l.length → rads (.numbers l) = .error .type) ∧ (∀ a b : Char, rads (.text [a, b]) = rads (.text [a])) ∧
    (∀ s, 3 ≤ s.length → rads (.text s) = .error .type ∨ rads (.text s) = .error .value) ∧ (∀ s, 5 ≤ s.length → rads (.text s) = .error .type) := by
  refine ⟨fun _ => rfl, fun _ => rfl, fun _ => rfl, fun _ _ => rfl, ?_, fun _ _ => rfl, ?_, ?_⟩
  · intro l hl
    match l, hl with
    | [_, _, _], _ => rfl
    | [_, _, _, _], _ => rfl
    | _ :: _ :: _ :: _ :: _ :: _, _ => rfl
  · intro s hs
    match s, hs with
    | [c, x, y], _ =>
      simp only [rads, fromChars]
      cases h : oneChar false c with
      | ok v => left; rfl
      | error e => cases e; exacts [Or.inl rfl, Or.inr rfl]
    | [c, x, y, z], _ =>
      simp only [rads, fromChars]
      cases h : oneChar true c with
      | ok v => left; rfl
      | error e => cases e; exacts [Or.inl rfl, Or.inr rfl]
    | _ :: _ :: _ :: _ :: _ :: _, _ => left; rfl
  · intro s hs
    match s, hs with
    | _ :: _ :: _ :: _ :: _ :: _, _ => rfl

/-- C194.  A text of two digits is taken as its first digit: '45' is the latitude 4 degrees. -/
theorem text_45 : geographicToGeocentric (.text ['4', '5']) = geographicToGeocentric (.number 4) ∧ geographicToGeocentric (.text ['4', '5']) ≠ geographicToGeocentric (.number 45) ∧
    geographicToGeocentric (.numbers [45, 30, 0]) = .error .type := by
  have hl : rads (.text ['4', '5']) = .ok (4 * π / 180) := by
    simp only [rads, fromChars, oneChar, isSpace]
    have h1 : ('4').isDigit = true := by decide
    have h2 : ('4').toNat = 52 := by decide
    simp [h1, h2]
  have h4 : geographicToGeocentric (.text ['4', '5']) = .ok (toGeocentric (4 * π / 180)) := by unfold geographicToGeocentric; rw [hl]; rfl
  refine ⟨by rw [h4]; rfl, ?_, rfl⟩
  rw [h4]
  intro h
  have h' : toGeocentric (4 * π / 180) = toGeocentric (45 * π / 180) := by simpa [geographicToGeocentric, rads, Except.map] using h
  have hm := (monotone (4 * π / 180) (45 * π / 180) (by linarith [pi_pos]) (by linarith [pi_pos]) (by linarith [pi_pos])).1
  linarith

/-- C194.  The conversions as functions: for numbers of degrees between the poles they undo each other. -/
theorem degrees_back (d : ℝ) (h : |d| < 90) : ∃ r s, geographicToGeocentric (.number d) = .ok r ∧ geocentricToGeographic (.coord r) = .ok (d * π / 180) ∧
    geocentricToGeographic (.number d) = .ok s ∧ geographicToGeocentric (.coord s) = .ok (d * π / 180) := by
  rw [abs_lt] at h
  have hp := pi_pos
  have h1 : -(π / 2) < d * π / 180 - ((0 : ℤ) : ℝ) * π := by push_cast; nlinarith
  have h2 : d * π / 180 - ((0 : ℤ) : ℝ) * π < π / 2 := by push_cast; nlinarith
  have hi := inverse_exact (d * π / 180) 0 h1 h2
  simp only [Int.cast_zero, zero_mul, sub_zero] at hi
  exact ⟨_, _, rfl, by simp [geocentricToGeographic, rads, Except.map, hi.1], rfl, by simp [geographicToGeocentric, rads, Except.map, hi.2]⟩

end

end Verif.Latitude
