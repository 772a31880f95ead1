import Mathlib.Analysis.SpecialFunctions.Complex.Arg
import Mathlib.Analysis.SpecialFunctions.Pow.Real
import Mathlib.Analysis.SpecialFunctions.Trigonometric.Deriv
import Mathlib.Analysis.SpecialFunctions.Trigonometric.Bounds
import Mathlib.Analysis.Calculus.Deriv.MeanValue
import Mathlib.Topology.Order.IntermediateValue
import Mathlib.Tactic.Linarith
import Mathlib.Tactic.Ring
import Mathlib.Tactic.LinearCombination
import Mathlib.Tactic.FieldSimp

/-!
# Keplerian orbits (astropysics/coords/ephems.py 387-766, 996-1020, 1226-1268) (C111)

Orbital elements, Kepler's equation, anomalies, distance, position and phase, over the reals.  `scipy.optimize.fsolve` is a parameter with a
specification; units and epochs attached to the coordinates, and the transformation of the result to other frames, are not modelled.
-/

namespace Verif.Kepler

open Real

/-! ## Model -/

inductive Err where
  | type | recursion | key | name
deriving DecidableEq, Repr

/-- `math.radians`, `math.degrees`. -/
noncomputable def radians (x : ℝ) : ℝ := x * (π / 180)
noncomputable def degrees (x : ℝ) : ℝ := x * (180 / π)

/-- `x % 360`. -/
noncomputable def mod360 (x : ℝ) : ℝ := x - 360 * ⌊x / 360⌋

/-- An orbital element given to the constructor: a callable or a sequence of coefficients or something else. -/
inductive Given where
  | fn (f : ℝ → ℝ)
  | coeffs (l : List ℝ)
  | other

/-- `np.polyval` of coefficients with the highest power first. -/
def polyval (l : List ℝ) (T : ℝ) : ℝ := l.foldl (fun acc c => acc * T + c) 0

/-- `_makeElement`, ephems.py 506-519. -/
def makeElement : Given → Except Err (ℝ → ℝ)
  | .fn f => .ok f
  | .coeffs l => match l with
    | [a, b] => .ok fun T => a + b * T
    | l => .ok fun T => polyval l.reverse T
  | .other => .error .type

/-- The angles of an orbit that are stored: L and Lp, or ap and M, or nothing. -/
inductive Angles where
  | longitudes (L Lp : ℝ → ℝ)
  | anomaly (ap M : ℝ → ℝ)
  | missing

/-- A `KeplerianObject`. -/
structure Orbit where
  a : ℝ → ℝ
  e : ℝ → ℝ
  i : ℝ → ℝ
  Lan : ℝ → ℝ
  angles : Angles
  etol : Option ℝ
  bcsf : Option (ℝ × ℝ × ℝ × ℝ)

/-- The keywords of the constructor. -/
structure Kw where
  a : Option Given
  e : Option Given
  i : Option Given
  Lan : Option Given
  L : Option Given
  Lp : Option Given
  ap : Option Given
  M : Option Given
  /-- None: keyword not given -/
  etol : Option (Option ℝ)

/-- A required element, ephems.py 477-484. -/
def required : Option Given → Except Err (ℝ → ℝ)
  | none => .error .type
  | some g => makeElement g

/-- The angles, ephems.py 491-502. -/
def makeAngles (k : Kw) : Except Err Angles :=
  match k.L, k.Lp, k.ap, k.M with
  | some l, some lp, none, none => do return .longitudes (← makeElement l) (← makeElement lp)
  | some _, some _, _, _ => .error .type
  | none, none, some p, some m => do return .anomaly (← makeElement p) (← makeElement m)
  | _, _, some _, some _ => .error .type
  | _, _, _, _ => .ok .missing

/-- The constructor, ephems.py 424-502; the tolerance defaults to 23.43928.  (All the checks raise TypeError, so that their order does not show.) -/
noncomputable def construct (k : Kw) : Except Err Orbit := do
  let a ← required k.a
  let e ← required k.e
  let i ← required k.i
  let lan ← required k.Lan
  let an ← makeAngles k
  return ⟨a, e, i, lan, an, k.etol.getD (some 23.43928), none⟩

/-- `Lp`, ephems.py 557-565: without stored angles `Lp` and `ap` (and `M` and `L`) call each other for ever. -/
def Orbit.Lp (o : Orbit) (T : ℝ) : Except Err ℝ :=
  match o.angles with
  | .longitudes _ lp => .ok (lp T)
  | .anomaly ap _ => .ok (ap T + o.Lan T)
  | .missing => .error .recursion

/-- `ap`, ephems.py 586-594. -/
def Orbit.ap (o : Orbit) (T : ℝ) : Except Err ℝ :=
  match o.angles with
  | .longitudes _ lp => .ok (lp T - o.Lan T)
  | .anomaly ap _ => .ok (ap T)
  | .missing => .error .recursion

/-- `M`, ephems.py 567-584, in degrees; the hidden correction takes f*T in radians. -/
noncomputable def Orbit.M (o : Orbit) (T : ℝ) : Except Err ℝ :=
  match o.angles with
  | .longitudes l lp => match o.bcsf with
    | some (b, c, s, f) => .ok (l T - lp T + b * T * T + c * cos (f * T) + s * sin (f * T))
    | none => .ok (l T - lp T)
  | .anomaly _ m => .ok (m T)
  | .missing => .error .recursion

/-- `L`, ephems.py 547-555. -/
noncomputable def Orbit.L (o : Orbit) (T : ℝ) : Except Err ℝ :=
  match o.angles with
  | .longitudes l _ => .ok (l T)
  | .anomaly ap m => .ok (m T + (ap T + o.Lan T))
  | .missing => .error .recursion

/-- `_keplerEq`, ephems.py 597-604. -/
noncomputable def keplerEq (E M e : ℝ) : ℝ := E - M - e * sin E

/-- The starting value of the solver, ephems.py 616. -/
noncomputable def guess (M e : ℝ) : ℝ := M + e * sin M * (1 + e * cos M)

/-- `fsolve(_keplerEq,E0,args=(M,e),xtol)`. -/
abbrev Solver := (xtol : Option ℝ) → (E0 M e : ℝ) → ℝ

/-- `E` from the mean anomaly (degrees), ephems.py 606-627. -/
noncomputable def eccentric (solve : Solver) (etol : Option ℝ) (Mdeg e : ℝ) : ℝ :=
  let M := radians (mod360 (Mdeg + 180) - 180)
  let E0 := guess M e
  let Er := match etol with
    | some t => if t = 0 then E0 else solve (some t) E0 M e
    | none => solve none E0 M e
  mod360 (degrees Er)

/-- `nu`, ephems.py 629-643. -/
noncomputable def trueAnomaly (Edeg e : ℝ) : ℝ :=
  degrees (Complex.arg ⟨cos (radians Edeg) - e, √(1 - e * e) * sin (radians Edeg)⟩)

/-- `d`, ephems.py 645-656. -/
noncomputable def distance (a e nuDeg : ℝ) : ℝ := a * (1 - e * e) / (1 + e * cos (radians nuDeg))

/-- `dperi`, `dapo`, `P`, ephems.py 658-677. -/
def dperi (a e : ℝ) : ℝ := a * (1 - e)
def dapo (a e : ℝ) : ℝ := a * (1 + e)
noncomputable def period (a : ℝ) : ℝ := a ^ (1.5 : ℝ)

/-- `_getCoordObj` without output transformation, ephems.py 680-701; angles in degrees. -/
noncomputable def position (a e Edeg ap Lan inc : ℝ) : ℝ × ℝ × ℝ :=
  let E := radians Edeg
  let xp := a * (cos E - e)
  let yp := a * √(1 - e * e) * sin E
  let w := radians ap
  let o := radians Lan
  let i := radians inc
  let cw := cos w
  let sw := sin w
  let co := cos o
  let so := sin o
  let ci := cos i
  let si := sin i
  ((cw * co - sw * so * ci) * xp + (-sw * co - cw * so * ci) * yp,
   (cw * so + sw * co * ci) * xp + (-sw * so + cw * co * ci) * yp,
   sw * si * xp + cw * si * yp)

/-- The phase from the positions of object, viewer and illuminator, ephems.py 757-766. -/
noncomputable def phase (p v l : ℝ × ℝ × ℝ) : ℝ :=
  let xR := p.1 - v.1
  let yR := p.2.1 - v.2.1
  let zR := p.2.2 - v.2.2
  let xs := v.1 - l.1
  let ys := v.2.1 - l.2.1
  let zs := v.2.2 - l.2.2
  let xr := p.1 - l.1
  let yr := p.2.1 - l.2.1
  let zr := p.2.2 - l.2.2
  let r := √(xr * xr + yr * yr + zr * zr)
  let R := √(xR * xR + yR * yR + zR * zR)
  let s := √(xs * xs + ys * ys + zs * zs)
  (1 + (r * r + R * R - s * s) / (2 * r * R)) / 2

/-- `Moon.getPhase()` from the geocentric position of the Moon and the heliocentric position of the Earth, ephems.py 913-925. -/
noncomputable def moonPhase (g e : ℝ × ℝ × ℝ) : ℝ :=
  let xm := e.1 + g.1
  let ym := e.2.1 + g.2.1
  let zm := e.2.2 + g.2.2
  let r := √(xm * xm + ym * ym + zm * zm)
  let R := √(g.1 * g.1 + g.2.1 * g.2.1 + g.2.2 * g.2.2)
  let s := √(e.1 * e.1 + e.2.1 * e.2.1 + e.2.2 * e.2.2)
  (1 + (r * r + R * R - s * s) / (2 * r * R)) / 2

/-- The names with ephemerides, ephems.py 811-833, 1226-1268 and the data files: the planets of the two tables and Moon and Earth. -/
def names : List String :=
  ["Mercury", "Venus", "EM Bary", "Mars", "Jupiter", "Saturn", "Uranus", "Neptune", "Pluto"] ++
  (["Mercury", "Venus", "EM Bary", "Mars", "Jupiter", "Saturn", "Uranus", "Neptune", "Pluto"].map (· ++ "-long")) ++ ["Moon", "Earth"]

/-- Looking up an illuminating or viewing object by name, ephems.py 737-741, 795: unknown names raise KeyError. -/
def lookup (n : String) : Except Err String := if n ∈ names then .ok n else .error .key

/-- Planets with additional terms, data/ss_elems_2b.dat. -/
def tableB : List String := ["Jupiter", "Saturn", "Uranus", "Neptune", "Pluto"]

/-- Does an object made for a name of the long table get the additional terms, ephems.py 1256-1266 (the name is extended before the look-up)? -/
def corrected (n : String) : Bool := decide (n ++ "-long" ∈ tableB)

/-- `set_solar_system_ephem_method(meth)`, ephems.py 814-826: the message of the error uses an undefined name. -/
def setMethod (meth : Option String) : Except Err Unit :=
  match meth with
  | none => .ok ()
  | some m => if m = "keplerian" then .ok () else .error .name

/-! ## Angles -/

theorem mod360_range (x : ℝ) : 0 ≤ mod360 x ∧ mod360 x < 360 := by
  unfold mod360
  have h1 := Int.floor_le (x / 360)
  have h2 := Int.lt_floor_add_one (x / 360)
  constructor
  · have : (⌊x / 360⌋ : ℝ) * 360 ≤ x := by rwa [le_div_iff₀ (by norm_num)] at h1
    linarith
  · have : x < (⌊x / 360⌋ + 1 : ℝ) * 360 := by rwa [div_lt_iff₀ (by norm_num)] at h2
    linarith

theorem cos_mod360 (x : ℝ) : cos (radians (mod360 x)) = cos (radians x) := by
  unfold mod360 radians
  have : (x - 360 * ⌊x / 360⌋) * (π / 180) = x * (π / 180) - (⌊x / 360⌋ : ℝ) * (2 * π) := by ring
  rw [this, cos_sub_int_mul_two_pi]

theorem sin_mod360 (x : ℝ) : sin (radians (mod360 x)) = sin (radians x) := by
  unfold mod360 radians
  have : (x - 360 * ⌊x / 360⌋) * (π / 180) = x * (π / 180) - (⌊x / 360⌋ : ℝ) * (2 * π) := by ring
  rw [this, sin_sub_int_mul_two_pi]

theorem radians_degrees (x : ℝ) : radians (degrees x) = x := by
  unfold radians degrees
  have := pi_ne_zero
  field_simp

/-! ## Elements -/

/-- A sequence of coefficients is a polynomial with the constant term first. -/
theorem element_polynomial (l : List ℝ) : ∃ f, makeElement (.coeffs l) = .ok f ∧ ∀ T, f T = l.foldr (fun c acc => c + T * acc) 0 := by
  have hp : ∀ T, polyval l.reverse T = l.foldr (fun c acc => c + T * acc) 0 := by
    intro T
    unfold polyval
    rw [List.foldl_reverse]
    congr 1
    funext c acc
    ring
  match l, hp with
  | [], hp => exact ⟨_, rfl, hp⟩
  | [a], hp => exact ⟨_, rfl, hp⟩
  | [a, b], _ => exact ⟨_, rfl, fun T => by simp; ring⟩
  | a :: b :: c :: l, hp => exact ⟨_, rfl, hp⟩

/-- Whatever form was given, the four angles satisfy L = M + Lp and Lp = ap + Lan, and what was given is what is returned. -/
theorem angles_consistent (o : Orbit) (T : ℝ) (h : o.bcsf = none) :
    (∀ l lp, o.angles = .longitudes l lp →
      o.L T = .ok (l T) ∧ o.Lp T = .ok (lp T) ∧ o.M T = .ok (l T - lp T) ∧ o.ap T = .ok (lp T - o.Lan T)) ∧
    (∀ ap m, o.angles = .anomaly ap m →
      o.ap T = .ok (ap T) ∧ o.M T = .ok (m T) ∧ o.Lp T = .ok (ap T + o.Lan T) ∧ o.L T = .ok (m T + (ap T + o.Lan T))) := by
  constructor
  · intro l lp ha
    simp [Orbit.L, Orbit.Lp, Orbit.M, Orbit.ap, ha, h]
  · intro l lp ha
    simp [Orbit.L, Orbit.Lp, Orbit.M, Orbit.ap, ha]

/-- The constructor rejects missing elements a, e, i, Lan, elements that are numbers, and both sets of angles together. -/
theorem construct_rejects (k : Kw) :
    ((k.a = none ∨ k.e = none ∨ k.i = none ∨ k.Lan = none) → construct k = .error .type) ∧
    (k.a = some .other → construct k = .error .type) ∧
    ((k.L ≠ none ∧ k.Lp ≠ none ∧ (k.ap ≠ none ∨ k.M ≠ none)) ∨ (k.ap ≠ none ∧ k.M ≠ none ∧ (k.L ≠ none ∨ k.Lp ≠ none)) → construct k = .error .type) := by
  have hreq : ∀ g, (∃ f, required g = .ok f) ∨ required g = .error .type := by
    intro g
    cases g with
    | none => right; rfl
    | some g =>
      cases g with
      | fn f => left; exact ⟨f, rfl⟩
      | coeffs l => left; obtain ⟨f, hf, _⟩ := element_polynomial l; exact ⟨f, hf⟩
      | other => right; rfl
  have hmk : ∀ g, (∃ f, makeElement g = .ok f) ∨ makeElement g = .error .type := fun g => hreq (some g)
  have hmain : ∀ k : Kw, (required k.a = .error .type ∨ required k.e = .error .type ∨ required k.i = .error .type ∨ required k.Lan = .error .type ∨
      makeAngles k = .error .type) → construct k = .error .type := by
    intro k h
    unfold construct
    rcases hreq k.a with ⟨fa, ha⟩ | ha <;> rcases hreq k.e with ⟨fe, he⟩ | he <;> rcases hreq k.i with ⟨fi, hi⟩ | hi <;>
      rcases hreq k.Lan with ⟨fl, hl⟩ | hl <;> simp only [ha, he, hi, hl, bind, Except.bind, reduceCtorEq, false_or, true_or, or_true] at h ⊢
    rw [h]
  refine ⟨fun h => ?_, fun h => ?_, fun h => ?_⟩
  · apply hmain
    rcases h with h | h | h | h
    · left; rw [h]; rfl
    · right; left; rw [h]; rfl
    · right; right; left; rw [h]; rfl
    · right; right; right; left; rw [h]; rfl
  · apply hmain; left; rw [h]; rfl
  · apply hmain
    right; right; right; right
    unfold makeAngles
    obtain ⟨a, e, i, lan, L, Lp, ap, M, et⟩ := k
    cases L <;> cases Lp <;> cases ap <;> cases M <;> simp at h ⊢

/-- What is given is what is read: a constructed object answers, for each of the angles that were given, the value of that very argument. -/
theorem construct_reads (k : Kw) (a e i lan u v : ℝ → ℝ) (ha : k.a = some (.fn a)) (he : k.e = some (.fn e)) (hi : k.i = some (.fn i)) (hl : k.Lan = some (.fn lan)) :
    (k.L = some (.fn u) → k.Lp = some (.fn v) → k.ap = none → k.M = none →
      ∃ o, construct k = .ok o ∧ ∀ T, o.L T = .ok (u T) ∧ o.Lp T = .ok (v T) ∧ o.ap T = .ok (v T - lan T)) ∧
    (k.L = none → k.Lp = none → k.ap = some (.fn u) → k.M = some (.fn v) →
      ∃ o, construct k = .ok o ∧ ∀ T, o.ap T = .ok (u T) ∧ o.M T = .ok (v T) ∧ o.Lp T = .ok (u T + lan T)) := by
  constructor
  · intro h1 h2 h3 h4
    have hm : makeAngles k = .ok (.longitudes u v) := by simp [makeAngles, h1, h2, h3, h4, makeElement, bind, Except.bind, pure, Except.pure]
    refine ⟨⟨a, e, i, lan, .longitudes u v, k.etol.getD (some 23.43928), none⟩, ?_, fun T => ⟨rfl, rfl, rfl⟩⟩
    simp [construct, hm, ha, he, hi, hl, required, makeElement, bind, Except.bind, pure, Except.pure]
  · intro h1 h2 h3 h4
    have hm : makeAngles k = .ok (.anomaly u v) := by simp [makeAngles, h1, h2, h3, h4, makeElement, bind, Except.bind, pure, Except.pure]
    refine ⟨⟨a, e, i, lan, .anomaly u v, k.etol.getD (some 23.43928), none⟩, ?_, fun T => ⟨rfl, rfl, rfl⟩⟩
    simp [construct, hm, ha, he, hi, hl, required, makeElement, bind, Except.bind, pure, Except.pure]

/-- But angles that are missing (none, or one of each set) are accepted, and then every one of L, Lp, ap, M fails with endless recursion. -/
theorem missing_angles (k : Kw) (hr : ∀ g ∈ [k.a, k.e, k.i, k.Lan], ∃ f, g = some (.fn f)) (h1 : k.L = none ∨ k.Lp = none) (h2 : k.ap = none ∨ k.M = none) :
    ∃ o, construct k = .ok o ∧ ∀ T, o.L T = .error .recursion ∧ o.Lp T = .error .recursion ∧ o.ap T = .error .recursion ∧ o.M T = .error .recursion := by
  obtain ⟨a, e, i, lan, L, Lp, ap, M, et⟩ := k
  simp only [List.mem_cons, List.not_mem_nil, or_false, forall_eq_or_imp, forall_eq] at hr
  obtain ⟨⟨fa, rfl⟩, ⟨fe, rfl⟩, ⟨fi, rfl⟩, ⟨fl, rfl⟩⟩ := hr
  have hm : makeAngles ⟨some (.fn fa), some (.fn fe), some (.fn fi), some (.fn fl), L, Lp, ap, M, et⟩ = .ok .missing := by
    unfold makeAngles
    cases L <;> cases Lp <;> cases ap <;> cases M <;> simp at h1 h2 ⊢
  refine ⟨⟨fa, fe, fi, fl, .missing, et.getD (some 23.43928), none⟩, ?_, fun T => ⟨rfl, rfl, rfl, rfl⟩⟩
  simp only [construct, required, makeElement, bind, Except.bind, hm]
  rfl

/-! ## Kepler's equation -/

theorem kepler_gap (M e x y : ℝ) (he0 : 0 ≤ e) (hxy : x ≤ y) : (1 - e) * (y - x) ≤ keplerEq y M e - keplerEq x M e := by
  have hs := abs_sin_sub_sin_le y x
  rw [abs_of_nonneg (by linarith : 0 ≤ y - x)] at hs
  have h2 := (abs_le.1 hs).2
  simp only [keplerEq]
  nlinarith

/-- For every mean anomaly and eccentricity below 1 Kepler's equation has exactly one solution. -/
theorem kepler_unique (M e : ℝ) (he0 : 0 ≤ e) (he : e < 1) : ∃! E, keplerEq E M e = 0 := by
  have hcont : Continuous fun E => keplerEq E M e := by unfold keplerEq; fun_prop
  have hlo : keplerEq (M - 1) M e ≤ 0 := by
    have := neg_one_le_sin (M - 1); simp only [keplerEq]; nlinarith
  have hhi : 0 ≤ keplerEq (M + 1) M e := by
    have := sin_le_one (M + 1); simp only [keplerEq]; nlinarith
  obtain ⟨E, _, hE⟩ := intermediate_value_Icc (by linarith : M - 1 ≤ M + 1) hcont.continuousOn ⟨hlo, hhi⟩
  refine ⟨E, hE, fun F hF => ?_⟩
  simp only at hE hF
  rcases le_total F E with h | h
  · have := kepler_gap M e F E he0 h
    rw [hE, hF] at this
    nlinarith
  · have := kepler_gap M e E F he0 h
    rw [hE, hF] at this
    nlinarith

/-- How far a value is from the solution is bounded by how badly it satisfies the equation. -/
theorem kepler_stable (M e x E : ℝ) (he0 : 0 ≤ e) (_he : e < 1) (hE : keplerEq E M e = 0) : (1 - e) * |x - E| ≤ |keplerEq x M e| := by
  rcases le_total x E with h | h
  · have := kepler_gap M e x E he0 h
    rw [hE] at this
    rw [abs_of_nonpos (by linarith : x - E ≤ 0)]
    have := neg_abs_le (keplerEq x M e)
    linarith
  · have := kepler_gap M e E x he0 h
    rw [hE] at this
    rw [abs_of_nonneg (by linarith : 0 ≤ x - E)]
    have := le_abs_self (keplerEq x M e)
    linarith

theorem sin_add_bound (M d : ℝ) : |sin (M + d) - sin M - d * cos M| ≤ d ^ 2 := by
  have h1 : sin (M + d) - sin M - d * cos M = sin M * (cos d - 1) + cos M * (sin d - d) := by rw [sin_add]; ring
  have hc : |cos d - 1| ≤ d ^ 2 / 2 := by
    rw [abs_le]
    have := one_sub_sq_div_two_le_cos (x := d)
    have := cos_le_one d
    constructor <;> nlinarith [sq_nonneg d]
  have hs : |sin d - d| ≤ d ^ 2 / 2 := by
    have hd : ∀ d : ℝ, 0 ≤ d → d - d ^ 2 / 2 ≤ sin d := by
      intro d hd
      rcases le_or_gt d 1 with h1 | h1
      · rcases eq_or_lt_of_le hd with h0 | h0
        · rw [← h0]; simp
        · have := sin_gt_sub_cube h0
          nlinarith [pow_pos h0 2]
      · have hm : MonotoneOn (fun x => sin x - x + x ^ 2 / 2) (Set.Ici 0) := by
          apply monotoneOn_of_deriv_nonneg (convex_Ici 0)
          · fun_prop
          · fun_prop
          · intro x hx
            rw [interior_Ici, Set.mem_Ioi] at hx
            have hder : HasDerivAt (fun x => sin x - x + x ^ 2 / 2) (cos x - 1 + (2 * x ^ 1 * 1) / 2) x :=
              (((hasDerivAt_sin x).sub (hasDerivAt_id x)).add (((hasDerivAt_id x).pow 2).div_const 2))
            rw [hder.deriv]
            have hcx : |cos x - cos 0| ≤ |x - 0| := abs_cos_sub_cos_le x 0
            rw [cos_zero, sub_zero, abs_of_pos hx] at hcx
            have := (abs_le.1 hcx).1
            linarith
        have := hm (Set.mem_Ici.2 le_rfl) (Set.mem_Ici.2 hd) hd
        simp at this
        linarith
    have hu : ∀ d : ℝ, 0 ≤ d → sin d ≤ d := fun d hd => sin_le hd
    rcases le_total 0 d with h | h
    · rw [abs_le]; have := hd d h; have := hu d h; constructor <;> nlinarith [sq_nonneg d]
    · have h' : 0 ≤ -d := by linarith
      have a1 := hd (-d) h'
      have a2 := hu (-d) h'
      rw [sin_neg] at a1 a2
      rw [abs_le]; constructor <;> nlinarith [sq_nonneg d]
  rw [h1]
  have b1 : |sin M * (cos d - 1)| ≤ d ^ 2 / 2 := by
    rw [abs_mul]
    calc |sin M| * |cos d - 1| ≤ 1 * |cos d - 1| := mul_le_mul_of_nonneg_right (abs_sin_le_one M) (abs_nonneg _)
      _ ≤ d ^ 2 / 2 := by linarith
  have b2 : |cos M * (sin d - d)| ≤ d ^ 2 / 2 := by
    rw [abs_mul]
    calc |cos M| * |sin d - d| ≤ 1 * |sin d - d| := mul_le_mul_of_nonneg_right (abs_cos_le_one M) (abs_nonneg _)
      _ ≤ d ^ 2 / 2 := by linarith
  calc _ ≤ |sin M * (cos d - 1)| + |cos M * (sin d - d)| := abs_add_le _ _
    _ ≤ d ^ 2 := by linarith

/-- The analytic approximation used for a tolerance of 0 is right to third order in the eccentricity: the error is below 5 e^3/(1-e). -/
theorem guess_accuracy (M e E : ℝ) (he0 : 0 ≤ e) (he : e < 1) (hE : keplerEq E M e = 0) : (1 - e) * |guess M e - E| ≤ 5 * e ^ 3 := by
  refine (kepler_stable M e (guess M e) E he0 he hE).trans ?_
  set d := e * sin M * (1 + e * cos M) with hd
  have hg : guess M e = M + d := rfl
  have hk : keplerEq (guess M e) M e = -(e * (sin (M + d) - sin M - d * cos M)) - e ^ 3 * (sin M * cos M ^ 2) := by
    rw [hg]; unfold keplerEq; rw [hd]; ring
  have hb := sin_add_bound M d
  have hdb : d ^ 2 ≤ 4 * e ^ 2 := by
    have h1 : (1 + e * cos M) ^ 2 ≤ 4 := by
      have hc1 := neg_one_le_cos M
      have hc2 := cos_le_one M
      have : 0 ≤ 1 + e * cos M := by nlinarith
      have : 1 + e * cos M ≤ 2 := by nlinarith
      nlinarith
    have h2 : sin M ^ 2 ≤ 1 := sin_sq_le_one M
    have : d ^ 2 = e ^ 2 * (sin M ^ 2 * (1 + e * cos M) ^ 2) := by rw [hd]; ring
    rw [this]
    have : sin M ^ 2 * (1 + e * cos M) ^ 2 ≤ 4 := by nlinarith [sq_nonneg (sin M), sq_nonneg (1 + e * cos M)]
    nlinarith [sq_nonneg e]
  have h3 : |e ^ 3 * (sin M * cos M ^ 2)| ≤ e ^ 3 := by
    rw [abs_mul, abs_of_nonneg (by positivity)]
    have : |sin M * cos M ^ 2| ≤ 1 := by
      rw [abs_mul, abs_of_nonneg (sq_nonneg (cos M))]
      have a1 := abs_sin_le_one M
      have a2 := cos_sq_le_one M
      nlinarith [abs_nonneg (sin M), sq_nonneg (cos M)]
    nlinarith [pow_nonneg he0 3]
  have h4 : |e * (sin (M + d) - sin M - d * cos M)| ≤ 4 * e ^ 3 := by
    rw [abs_mul, abs_of_nonneg he0]
    nlinarith
  rw [hk]
  calc _ ≤ |-(e * (sin (M + d) - sin M - d * cos M))| + |e ^ 3 * (sin M * cos M ^ 2)| := abs_sub _ _
    _ ≤ 5 * e ^ 3 := by rw [abs_neg]; linarith

/-- A solver that finds the solution. -/
def Exact (solve : Solver) (xtol : Option ℝ) : Prop := ∀ E0 M e, 0 ≤ e → e < 1 → keplerEq (solve xtol E0 M e) M e = 0

/-- What fsolve promises: a value within the relative tolerance xtol of the solution. -/
def Tolerant (solve : Solver) : Prop :=
  ∀ t E0 M e E, 0 ≤ t → 0 ≤ e → e < 1 → keplerEq E M e = 0 → |solve (some t) E0 M e - E| ≤ t * |E|

/-- The eccentric anomaly is in [0,360) degrees and satisfies Kepler's equation up to whole turns. -/
theorem eccentric_spec (solve : Solver) (Mdeg e : ℝ) (he0 : 0 ≤ e) (he : e < 1) (hs : Exact solve none) :
    (0 ≤ eccentric solve none Mdeg e ∧ eccentric solve none Mdeg e < 360) ∧
    ∃ n : ℤ, radians (eccentric solve none Mdeg e) - e * sin (radians (eccentric solve none Mdeg e)) = radians Mdeg + n * (2 * π) := by
  refine ⟨mod360_range _, ?_⟩
  set M := radians (mod360 (Mdeg + 180) - 180) with hM
  set Er := solve none (guess M e) M e with hEr
  have hk : Er - M - e * sin Er = 0 := hs _ _ _ he0 he
  have hE : eccentric solve none Mdeg e = mod360 (degrees Er) := rfl
  refine ⟨-⌊(Mdeg + 180) / 360⌋ - ⌊degrees Er / 360⌋, ?_⟩
  rw [hE, sin_mod360, radians_degrees]
  have h1 : radians (mod360 (degrees Er)) = Er - (⌊degrees Er / 360⌋ : ℝ) * (2 * π) := by
    conv_rhs => rw [← radians_degrees Er]
    unfold mod360
    simp only [radians, radians_degrees]
    rw [show degrees (degrees Er * (π / 180)) = degrees Er from by congr 1; exact radians_degrees Er]
    ring
  have h2 : M = radians Mdeg - (⌊(Mdeg + 180) / 360⌋ : ℝ) * (2 * π) := by
    rw [hM]; unfold mod360 radians; ring
  rw [h1]
  push_cast
  linarith

/-- The tolerance of an object made without `Etol` is 23.43928 (the obliquity), not None, ... -/
theorem default_tolerance (k : Kw) (o : Orbit) (hk : k.etol = none) (h : construct k = .ok o) : o.etol = some 23.43928 := by
  unfold construct at h
  rcases ha : required k.a with _ | _ <;> simp only [ha, bind, Except.bind, reduceCtorEq] at h
  rcases he : required k.e with _ | _ <;> simp only [he, reduceCtorEq] at h
  rcases hi : required k.i with _ | _ <;> simp only [hi, reduceCtorEq] at h
  rcases hl : required k.Lan with _ | _ <;> simp only [hl, reduceCtorEq] at h
  rcases hm : makeAngles k with _ | _ <;> simp only [hm, reduceCtorEq] at h
  cases h
  simp [hk]

/-- ... and with that tolerance a correct solver may return anything: for instance 0 for every mean anomaly. -/
theorem default_tolerance_vacuous : ∃ solve : Solver, Exact solve none ∧ Tolerant solve ∧
    ∀ Mdeg e, eccentric solve (some 23.43928) Mdeg e = 0 := by
  classical
  refine ⟨fun xtol E0 M e => if h : 0 ≤ e ∧ e < 1 then
      (match xtol with
        | none => (kepler_unique M e h.1 h.2).choose
        | some t => if 1 ≤ t then 0 else (kepler_unique M e h.1 h.2).choose) else 0, ?_, ?_, ?_⟩
  · intro E0 M e he0 he
    simp only [he0, he, and_self, dif_pos]
    exact (kepler_unique M e he0 he).choose_spec.1
  · intro t E0 M e E ht he0 he hE
    simp only [he0, he, and_self, dif_pos]
    have hu := (kepler_unique M e he0 he).choose_spec.2 E hE
    split_ifs with h1
    · rw [zero_sub, abs_neg]
      nlinarith [abs_nonneg E]
    · rw [← hu, sub_self, abs_zero]
      exact mul_nonneg ht (abs_nonneg _)
  · intro Mdeg e
    simp [eccentric, mod360, degrees]
    intros; norm_num

/-! ## Anomalies and distance -/

theorem orbit_sq (e E : ℝ) (he0 : 0 ≤ e) (he : e < 1) :
    (cos E - e) ^ 2 + (√(1 - e * e) * sin E) ^ 2 = (1 - e * cos E) ^ 2 := by
  rw [mul_pow, sq_sqrt (by nlinarith)]
  have := sin_sq_add_cos_sq E
  linear_combination (1 - e * e) * this

theorem one_sub_pos (e E : ℝ) (he0 : 0 ≤ e) (he : e < 1) : 0 < 1 - e * cos E := by
  have := cos_le_one E
  nlinarith

/-- The true anomaly is in (-180,180] degrees and is the direction of the object in its orbital plane. -/
theorem trueAnomaly_spec (Edeg e : ℝ) (he0 : 0 ≤ e) (he : e < 1) :
    (-180 < trueAnomaly Edeg e ∧ trueAnomaly Edeg e ≤ 180) ∧
    (1 - e * cos (radians Edeg)) * cos (radians (trueAnomaly Edeg e)) = cos (radians Edeg) - e ∧
    (1 - e * cos (radians Edeg)) * sin (radians (trueAnomaly Edeg e)) = √(1 - e * e) * sin (radians Edeg) := by
  set E := radians Edeg with hEd
  set z : ℂ := ⟨cos E - e, √(1 - e * e) * sin E⟩ with hz
  have hn : ‖z‖ = 1 - e * cos E := by
    rw [Complex.norm_def, Complex.normSq_apply]
    have : z.re * z.re + z.im * z.im = (1 - e * cos E) ^ 2 := by rw [← orbit_sq e E he0 he]; simp only [hz]; ring
    rw [this, sqrt_sq (one_sub_pos e E he0 he).le]
  have hr : radians (trueAnomaly Edeg e) = Complex.arg z := by unfold trueAnomaly; rw [radians_degrees]
  refine ⟨?_, ?_, ?_⟩
  · have h1 := Complex.neg_pi_lt_arg z
    have h2 := Complex.arg_le_pi z
    have ht : trueAnomaly Edeg e = Complex.arg z * (180 / π) := rfl
    rw [ht]
    have hp := pi_pos
    constructor
    · rw [mul_div_assoc', lt_div_iff₀ hp]; nlinarith
    · rw [mul_div_assoc', div_le_iff₀ hp]; nlinarith
  · rw [hr, ← hn, Complex.norm_mul_cos_arg]
  · rw [hr, ← hn, Complex.norm_mul_sin_arg]

/-- The distance is a(1 - e cos E) and lies between the pericentre and apocentre distances. -/
theorem distance_spec (a e Edeg : ℝ) (ha : 0 ≤ a) (he0 : 0 ≤ e) (he : e < 1) :
    distance a e (trueAnomaly Edeg e) = a * (1 - e * cos (radians Edeg)) ∧
    dperi a e ≤ distance a e (trueAnomaly Edeg e) ∧ distance a e (trueAnomaly Edeg e) ≤ dapo a e := by
  obtain ⟨_, h1, _⟩ := trueAnomaly_spec Edeg e he0 he
  have hp := one_sub_pos e (radians Edeg) he0 he
  have hd : distance a e (trueAnomaly Edeg e) = a * (1 - e * cos (radians Edeg)) := by
    unfold distance
    have hne : (1 - e * cos (radians Edeg)) * (1 + e * cos (radians (trueAnomaly Edeg e))) = 1 - e * e := by
      linear_combination e * h1
    have hpos : 0 < 1 - e * e := by nlinarith
    have hn2 : 1 + e * cos (radians (trueAnomaly Edeg e)) ≠ 0 := by
      intro h0; rw [h0, mul_zero] at hne; linarith
    rw [div_eq_iff hn2]
    linear_combination -a * hne
  refine ⟨hd, ?_, ?_⟩
  · rw [hd]; unfold dperi
    have := cos_le_one (radians Edeg)
    nlinarith [mul_nonneg ha he0]
  · rw [hd]; unfold dapo
    have := neg_one_le_cos (radians Edeg)
    nlinarith [mul_nonneg ha he0]

/-- At mean anomaly 0 the object is at pericentre, at 180 at apocentre. -/
theorem apsides (solve : Solver) (a e : ℝ) (ha : 0 ≤ a) (he0 : 0 ≤ e) (he : e < 1) (hs : Exact solve none) :
    distance a e (trueAnomaly (eccentric solve none 0 e) e) = dperi a e ∧
    distance a e (trueAnomaly (eccentric solve none 180 e) e) = dapo a e := by
  constructor
  · rw [(distance_spec a e _ ha he0 he).1]
    have hk : solve none (guess 0 e) 0 e = 0 := by
      obtain ⟨E, _, hu⟩ := kepler_unique 0 e he0 he
      rw [hu _ (hs _ _ _ he0 he), hu 0 (by simp [keplerEq])]
    have : radians (mod360 (0 + 180) - 180) = 0 := by
      have : ⌊(0 + 180 : ℝ) / 360⌋ = 0 := by rw [Int.floor_eq_iff]; constructor <;> norm_num
      simp only [mod360, this, radians]; push_cast; ring
    have hE : cos (radians (eccentric solve none 0 e)) = 1 := by
      unfold eccentric
      simp only [this, hk]
      rw [cos_mod360, radians_degrees, cos_zero]
    rw [hE]; unfold dperi; ring
  · rw [(distance_spec a e _ ha he0 he).1]
    have hk : solve none (guess (-π) e) (-π) e = -π := by
      obtain ⟨E, _, hu⟩ := kepler_unique (-π) e he0 he
      rw [hu _ (hs _ _ _ he0 he), hu (-π) (by simp [keplerEq])]
    have : radians (mod360 (180 + 180) - 180) = -π := by
      have : ⌊(180 + 180 : ℝ) / 360⌋ = 1 := by rw [Int.floor_eq_iff]; norm_num
      simp only [mod360, this, radians]; push_cast; ring
    have hE : cos (radians (eccentric solve none 180 e)) = -1 := by
      unfold eccentric
      simp only [this, hk]
      rw [cos_mod360, radians_degrees, cos_neg, cos_pi]
    rw [hE]; unfold dapo; ring

/-- P^2 = a^3 (years and astronomical units); for GM=1, as documented, the period would be 2 pi times as long. -/
theorem period_third_law (a : ℝ) (ha : 0 ≤ a) : period a ^ 2 = a ^ 3 := by
  unfold period
  rw [← rpow_natCast, ← rpow_mul ha]
  norm_num

/-! ## Position -/

/-- The position is at distance d in the direction given by the argument of latitude u = ap + nu, the node and the inclination. -/
theorem position_spec (a e Edeg ap lan inc : ℝ) (he0 : 0 ≤ e) (he : e < 1) :
    let u := radians ap + radians (trueAnomaly Edeg e)
    let d := a * (1 - e * cos (radians Edeg))
    position a e Edeg ap lan inc =
      (d * (cos (radians lan) * cos u - sin (radians lan) * sin u * cos (radians inc)),
       d * (sin (radians lan) * cos u + cos (radians lan) * sin u * cos (radians inc)),
       d * (sin u * sin (radians inc))) := by
  intro u d
  obtain ⟨_, h1, h2⟩ := trueAnomaly_spec Edeg e he0 he
  have hc : cos u = cos (radians ap) * cos (radians (trueAnomaly Edeg e)) - sin (radians ap) * sin (radians (trueAnomaly Edeg e)) := cos_add _ _
  have hs : sin u = sin (radians ap) * cos (radians (trueAnomaly Edeg e)) + cos (radians ap) * sin (radians (trueAnomaly Edeg e)) := sin_add _ _
  simp only [position, Prod.mk.injEq]
  rw [hc, hs]
  refine ⟨?_, ?_, ?_⟩
  · linear_combination (-a * (cos (radians ap) * cos (radians lan) - sin (radians ap) * sin (radians lan) * cos (radians inc))) * h1
      + (-a * (-sin (radians ap) * cos (radians lan) - cos (radians ap) * sin (radians lan) * cos (radians inc))) * h2
  · linear_combination (-a * (cos (radians ap) * sin (radians lan) + sin (radians ap) * cos (radians lan) * cos (radians inc))) * h1
      + (-a * (-sin (radians ap) * sin (radians lan) + cos (radians ap) * cos (radians lan) * cos (radians inc))) * h2
  · linear_combination (-a * (sin (radians ap) * sin (radians inc))) * h1 + (-a * (cos (radians ap) * sin (radians inc))) * h2

/-- Its distance from the focus is `d`, and it lies in the plane through the focus with the given node and inclination. -/
theorem position_geometry (a e Edeg ap lan inc : ℝ) (ha : 0 ≤ a) (he0 : 0 ≤ e) (he : e < 1) :
    let p := position a e Edeg ap lan inc
    √(p.1 ^ 2 + p.2.1 ^ 2 + p.2.2 ^ 2) = distance a e (trueAnomaly Edeg e) ∧
    p.1 * (sin (radians lan) * sin (radians inc)) - p.2.1 * (cos (radians lan) * sin (radians inc)) + p.2.2 * cos (radians inc) = 0 := by
  intro p
  have hp := position_spec a e Edeg ap lan inc he0 he
  simp only at hp
  set u := radians ap + radians (trueAnomaly Edeg e)
  set d := a * (1 - e * cos (radians Edeg)) with hd
  have hd0 : 0 ≤ d := mul_nonneg ha (one_sub_pos e _ he0 he).le
  have e1 := sin_sq_add_cos_sq (radians lan)
  have e2 := sin_sq_add_cos_sq u
  have e3 := sin_sq_add_cos_sq (radians inc)
  constructor
  · rw [(distance_spec a e Edeg ha he0 he).1, ← hd]
    have : p.1 ^ 2 + p.2.1 ^ 2 + p.2.2 ^ 2 = d ^ 2 := by
      simp only [p, hp]
      linear_combination (d ^ 2 * (cos u ^ 2 + sin u ^ 2 * cos (radians inc) ^ 2)) * e1 + d ^ 2 * e2 + (d ^ 2 * sin u ^ 2) * e3
    rw [this, sqrt_sq hd0]
  · simp only [p, hp]
    linear_combination (-(d * sin u * cos (radians inc) * sin (radians inc))) * e1

/-! ## Phase -/

/-- The inner product. -/
def dot (a b : ℝ × ℝ × ℝ) : ℝ := a.1 * b.1 + a.2.1 * b.2.1 + a.2.2 * b.2.2
noncomputable def norm3 (a : ℝ × ℝ × ℝ) : ℝ := √(dot a a)
def sub3 (a b : ℝ × ℝ × ℝ) : ℝ × ℝ × ℝ := (a.1 - b.1, a.2.1 - b.2.1, a.2.2 - b.2.2)

theorem dot_self_nonneg (a : ℝ × ℝ × ℝ) : 0 ≤ dot a a := by unfold dot; nlinarith [mul_self_nonneg a.1, mul_self_nonneg a.2.1, mul_self_nonneg a.2.2]

/-- The phase is (1 + cosine of the angle between viewer and illuminator seen from the object)/2. -/
theorem phase_spec (p v l : ℝ × ℝ × ℝ) (hv : p ≠ v) (hl : p ≠ l) :
    phase p v l = (1 + dot (sub3 v p) (sub3 l p) / (norm3 (sub3 v p) * norm3 (sub3 l p))) / 2 := by
  have pos : ∀ q : ℝ × ℝ × ℝ, p ≠ q → 0 < dot (sub3 q p) (sub3 q p) := by
    intro q hq
    rcases lt_or_eq_of_le (dot_self_nonneg (sub3 q p)) with h | h
    · exact h
    · exfalso
      apply hq
      simp only [dot, sub3] at h
      have h1 : q.1 - p.1 = 0 := by nlinarith [mul_self_nonneg (q.1 - p.1), mul_self_nonneg (q.2.1 - p.2.1), mul_self_nonneg (q.2.2 - p.2.2)]
      have h2 : q.2.1 - p.2.1 = 0 := by nlinarith [mul_self_nonneg (q.1 - p.1), mul_self_nonneg (q.2.1 - p.2.1), mul_self_nonneg (q.2.2 - p.2.2)]
      have h3 : q.2.2 - p.2.2 = 0 := by nlinarith [mul_self_nonneg (q.1 - p.1), mul_self_nonneg (q.2.1 - p.2.1), mul_self_nonneg (q.2.2 - p.2.2)]
      ext
      · linarith
      · linarith
      · linarith
  have hR : √((p.1 - v.1) * (p.1 - v.1) + (p.2.1 - v.2.1) * (p.2.1 - v.2.1) + (p.2.2 - v.2.2) * (p.2.2 - v.2.2)) = norm3 (sub3 v p) := by
    unfold norm3 dot sub3; congr 1; ring
  have hr : √((p.1 - l.1) * (p.1 - l.1) + (p.2.1 - l.2.1) * (p.2.1 - l.2.1) + (p.2.2 - l.2.2) * (p.2.2 - l.2.2)) = norm3 (sub3 l p) := by
    unfold norm3 dot sub3; congr 1; ring
  have hR2 : norm3 (sub3 v p) * norm3 (sub3 v p) = dot (sub3 v p) (sub3 v p) := mul_self_sqrt (dot_self_nonneg _)
  have hr2 : norm3 (sub3 l p) * norm3 (sub3 l p) = dot (sub3 l p) (sub3 l p) := mul_self_sqrt (dot_self_nonneg _)
  have hRp : 0 < norm3 (sub3 v p) := sqrt_pos.2 (pos v hv)
  have hrp : 0 < norm3 (sub3 l p) := sqrt_pos.2 (pos l hl)
  unfold phase
  simp only [hR, hr]
  rw [mul_self_sqrt (by nlinarith [mul_self_nonneg (v.1 - l.1), mul_self_nonneg (v.2.1 - l.2.1), mul_self_nonneg (v.2.2 - l.2.2)]), hR2, hr2]
  have : dot (sub3 l p) (sub3 l p) + dot (sub3 v p) (sub3 v p) - ((v.1 - l.1) * (v.1 - l.1) + (v.2.1 - l.2.1) * (v.2.1 - l.2.1) + (v.2.2 - l.2.2) * (v.2.2 - l.2.2))
      = 2 * dot (sub3 v p) (sub3 l p) := by unfold dot sub3; ring
  rw [this]
  field_simp

/-- It is between 0 and 1; 1 if the viewer is in the direction of the light, 0 if the object is between them. -/
theorem phase_range (p v l : ℝ × ℝ × ℝ) (hv : p ≠ v) (hl : p ≠ l) : 0 ≤ phase p v l ∧ phase p v l ≤ 1 := by
  rw [phase_spec p v l hv hl]
  have hcs : |dot (sub3 v p) (sub3 l p)| ≤ norm3 (sub3 v p) * norm3 (sub3 l p) := by
    unfold norm3
    rw [← sqrt_mul (dot_self_nonneg _)]
    apply abs_le_sqrt
    set a := sub3 v p
    set b := sub3 l p
    unfold dot
    nlinarith [sq_nonneg (a.1 * b.2.1 - a.2.1 * b.1), sq_nonneg (a.1 * b.2.2 - a.2.2 * b.1), sq_nonneg (a.2.1 * b.2.2 - a.2.2 * b.2.1)]
  have hn : 0 ≤ norm3 (sub3 v p) * norm3 (sub3 l p) := mul_nonneg (sqrt_nonneg _) (sqrt_nonneg _)
  have : |dot (sub3 v p) (sub3 l p) / (norm3 (sub3 v p) * norm3 (sub3 l p))| ≤ 1 := by
    rw [abs_div, abs_of_nonneg hn]
    exact div_le_one_of_le₀ hcs hn
  have := abs_le.1 this
  constructor <;> linarith

theorem phase_extremes (p : ℝ × ℝ × ℝ) (n : ℝ × ℝ × ℝ) (s t : ℝ) (hs : 0 < s) (ht : 0 < t) (hn : dot n n = 1) :
    phase p (p.1 + s * n.1, p.2.1 + s * n.2.1, p.2.2 + s * n.2.2) (p.1 + t * n.1, p.2.1 + t * n.2.1, p.2.2 + t * n.2.2) = 1 ∧
    phase p (p.1 - s * n.1, p.2.1 - s * n.2.1, p.2.2 - s * n.2.2) (p.1 + t * n.1, p.2.1 + t * n.2.1, p.2.2 + t * n.2.2) = 0 := by
  have hn' : n.1 * n.1 + n.2.1 * n.2.1 + n.2.2 * n.2.2 = 1 := hn
  constructor
  · unfold phase
    simp only
    have h1 : √((p.1 - (p.1 + t * n.1)) * (p.1 - (p.1 + t * n.1)) + (p.2.1 - (p.2.1 + t * n.2.1)) * (p.2.1 - (p.2.1 + t * n.2.1)) + (p.2.2 - (p.2.2 + t * n.2.2)) * (p.2.2 - (p.2.2 + t * n.2.2))) = t := by
      rw [sqrt_eq_iff_mul_self_eq_of_pos ht]; linear_combination -t ^ 2 * hn'
    have h2 : √((p.1 - (p.1 + s * n.1)) * (p.1 - (p.1 + s * n.1)) + (p.2.1 - (p.2.1 + s * n.2.1)) * (p.2.1 - (p.2.1 + s * n.2.1)) + (p.2.2 - (p.2.2 + s * n.2.2)) * (p.2.2 - (p.2.2 + s * n.2.2))) = s := by
      rw [sqrt_eq_iff_mul_self_eq_of_pos hs]; linear_combination -s ^ 2 * hn'
    rw [h1, h2, mul_self_sqrt (add_nonneg (add_nonneg (mul_self_nonneg _) (mul_self_nonneg _)) (mul_self_nonneg _))]
    have : (t * t + s * s - ((p.1 + s * n.1 - (p.1 + t * n.1)) * (p.1 + s * n.1 - (p.1 + t * n.1)) + (p.2.1 + s * n.2.1 - (p.2.1 + t * n.2.1)) * (p.2.1 + s * n.2.1 - (p.2.1 + t * n.2.1)) + (p.2.2 + s * n.2.2 - (p.2.2 + t * n.2.2)) * (p.2.2 + s * n.2.2 - (p.2.2 + t * n.2.2)))) = 2 * t * s := by
      linear_combination -(s - t) ^ 2 * hn'
    rw [this]
    field_simp
    norm_num
  · unfold phase
    simp only
    have h1 : √((p.1 - (p.1 + t * n.1)) * (p.1 - (p.1 + t * n.1)) + (p.2.1 - (p.2.1 + t * n.2.1)) * (p.2.1 - (p.2.1 + t * n.2.1)) + (p.2.2 - (p.2.2 + t * n.2.2)) * (p.2.2 - (p.2.2 + t * n.2.2))) = t := by
      rw [sqrt_eq_iff_mul_self_eq_of_pos ht]; linear_combination -t ^ 2 * hn'
    have h2 : √((p.1 - (p.1 - s * n.1)) * (p.1 - (p.1 - s * n.1)) + (p.2.1 - (p.2.1 - s * n.2.1)) * (p.2.1 - (p.2.1 - s * n.2.1)) + (p.2.2 - (p.2.2 - s * n.2.2)) * (p.2.2 - (p.2.2 - s * n.2.2))) = s := by
      rw [sqrt_eq_iff_mul_self_eq_of_pos hs]; linear_combination -s ^ 2 * hn'
    rw [h1, h2, mul_self_sqrt (add_nonneg (add_nonneg (mul_self_nonneg _) (mul_self_nonneg _)) (mul_self_nonneg _))]
    have : (t * t + s * s - ((p.1 - s * n.1 - (p.1 + t * n.1)) * (p.1 - s * n.1 - (p.1 + t * n.1)) + (p.2.1 - s * n.2.1 - (p.2.1 + t * n.2.1)) * (p.2.1 - s * n.2.1 - (p.2.1 + t * n.2.1)) + (p.2.2 - s * n.2.2 - (p.2.2 + t * n.2.2)) * (p.2.2 - s * n.2.2 - (p.2.2 + t * n.2.2)))) = -(2 * t * s) := by
      linear_combination -(s + t) ^ 2 * hn'
    rw [this]
    field_simp
    norm_num

/-- The Moon's own phase is its phase seen from the Earth and lit by the Sun (at the origin of heliocentric coordinates). -/
theorem moonPhase_spec (g e : ℝ × ℝ × ℝ) : moonPhase g e = phase (e.1 + g.1, e.2.1 + g.2.1, e.2.2 + g.2.2) e (0, 0, 0) := by
  simp only [moonPhase, phase, sub_zero, add_sub_cancel_left]

/-- The default illuminating object of `getPhase` is not among the objects with ephemerides: without arguments it always raises KeyError. -/
theorem default_phase_fails : lookup "Sun" = .error .key ∧ lookup "Earth" = .ok "Earth" := by decide

/-- The additional terms of the long-period elements are never applied, for any name. -/
theorem corrections_never (n : String) : corrected n = false := by
  unfold corrected tableB
  simp only [decide_eq_false_iff_not]
  intro h
  have hl : (n ++ "-long").toList.getLast? = some 'g' := by
    rw [String.toList_append, List.getLast?_append]; rfl
  simp only [List.mem_cons, List.not_mem_nil, or_false] at h
  rcases h with h | h | h | h | h <;> rw [h] at hl <;> exact absurd hl (by decide)

/-- An unknown method is reported as NameError instead of ValueError. -/
theorem unknown_method (m : String) (h : m ≠ "keplerian") : setMethod (some m) = .error .name := by simp [setMethod, h]

end Verif.Kepler
