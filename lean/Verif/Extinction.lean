import Mathlib.Analysis.SpecialFunctions.Pow.Real
import Mathlib.Analysis.SpecialFunctions.Log.Base
import Mathlib.Tactic.Linarith
import Mathlib.Tactic.Ring
import Mathlib.Tactic.FieldSimp
import Mathlib.Tactic.NormNum
import Mathlib.Tactic.Positivity

/-!
# Extinction laws (astropysics/obstools.py 1924-2268, 2420-2515) (C98, C99)

Exact real arithmetic; one wavelength at a time (arrays are treated element by element).  `bandwl` (phot.py 3673-3680) is a partial function from
names to wavelengths.
-/

namespace Verif.Extinction

inductive Err where
  | value | type | key | name
deriving DecidableEq, Repr

/-- A band: a name or a wavelength. -/
inductive Band where
  | name (n : String)
  | wl (x : ℝ)

/-- The argument of the constructor: nothing, a function, or something that cannot be called. -/
inductive FArg where
  | none
  | func (f : ℝ → ℝ)
  | other

/-- `Extinction.__init__`, obstools.py 1936-1944: is the object built?  (The test is inverted: functions are refused.) -/
def construct : FArg → Except Err Unit
  | .none => .ok ()
  | .func _ => .error .value
  | .other => .ok ()

/-- An extinction object: the law and its normalisation. -/
structure Ext where
  f : ℝ → ℝ
  A0 : ℝ

/-- `__call__`, obstools.py 1949-1950. -/
noncomputable def Ext.call (e : Ext) (lam : ℝ) : ℝ := e.A0 * e.f lam

/-- obstools.py 1960-1963. -/
def wavelength (bandwl : String → Option ℝ) : Band → Except Err ℝ
  | .name n => match bandwl n with
    | some x => .ok x
    | none => .error .key
  | .wl x => .ok x

/-- `correctPhotometry(mags,band)`, obstools.py 1952-1965. -/
noncomputable def Ext.correctPhotometry (e : Ext) (bandwl : String → Option ℝ) (mag : ℝ) (b : Band) : Except Err ℝ :=
  match wavelength bandwl b with
  | .error x => .error x
  | .ok l => .ok (mag - e.call l)

/-- `Alambda(band)`, obstools.py 1967-1977. -/
noncomputable def Ext.alambda (e : Ext) (bandwl : String → Option ℝ) (b : Band) : Except Err ℝ :=
  match e.correctPhotometry bandwl 0 b with
  | .error x => .error x
  | .ok v => .ok (-1 * v)

/-- The `bands` argument of `correctColor`: a string, already without `E(` and `)` and split at commas, or two bands. -/
inductive Bands where
  | str (parts : List String)
  | two (b1 b2 : Band)

/-- `correctColor(colors,bands)` for two bands, obstools.py 1992-1998: the second band is looked up if the FIRST is a name. -/
noncomputable def Ext.correctTwo (e : Ext) (bandwl : String → Option ℝ) (color : ℝ) : Band → Band → Except Err ℝ
  | .name n1, .name n2 =>
    match bandwl n1, bandwl n2 with
    | some l1, some l2 => .ok (color - e.call l1 + e.call l2)
    | _, _ => .error .key
  | .name _, .wl _ => .error .key
  | .wl l1, .wl l2 => .ok (color - e.call l1 + e.call l2)
  | .wl _, .name _ => .error .type

/-- `correctColor`, obstools.py 1979-1998: `b1,b2 = ...split(',')` fails unless there are two parts. -/
noncomputable def Ext.correctColor (e : Ext) (bandwl : String → Option ℝ) (color : ℝ) : Bands → Except Err ℝ
  | .str [n1, n2] => e.correctTwo bandwl color (.name n1) (.name n2)
  | .str _ => .error .value
  | .two b1 b2 => e.correctTwo bandwl color b1 b2

/-- The Balmer lines, obstools.py 2022-2028. -/
noncomputable def lines : String → Option ℝ
  | "Ha" => some 6562.82
  | "Hb" => some 4861.33
  | "Hg" => some 4340.46
  | "Hd" => some 4101.74
  | "He" => some 3970.07
  | _ => none

/-- `correctFlux(flux,lamb)`, obstools.py 2029-2032 (another string is passed to the law, which raises TypeError). -/
noncomputable def Ext.correctFlux (e : Ext) (flux : ℝ) : Band → Except Err ℝ
  | .wl l => .ok (flux * (10 : ℝ) ^ (e.call l / 2.5))
  | .name n =>
    match lines n with
    | some l => .ok (flux * (10 : ℝ) ^ (e.call l / 2.5))
    | none => .error .type

/-- `correctSpectrum`, obstools.py 2000-2020, for a point of the spectrum in Ångström: flux and error. -/
noncomputable def Ext.correctPoint (e : Ext) (lam flux err : ℝ) : ℝ × ℝ :=
  let corr := (10 : ℝ) ^ (e.call lam / 2.5)
  (flux * corr, err * corr)

/-- The Balmer decrements, obstools.py 2035-2046. -/
noncomputable def balmer : String → Option (ℝ × ℝ × ℝ)
  | "Hab" => some (2.86, 6562.82, 4861.33)
  | "Hag" => some (6.16, 6562.82, 4340.46)
  | "Had" => some (11.21, 6562.82, 4101.74)
  | "Hae" => some (18.16, 6562.82, 3970.07)
  | "Hbg" => some (2.15, 4861.33, 4340.46)
  | "Hbd" => some (3.91, 4861.33, 4101.74)
  | "Hbe" => some (6.33, 4861.33, 3970.07)
  | "Hgd" => some (1.82, 4340.46, 4101.74)
  | "Hge" => some (2.95, 4340.46, 3970.07)
  | "Hde" => some (1.62, 4101.74, 3970.07)
  | _ => none

/-- The `expected` argument: the name of a decrement, a list of names, or a list of numbers; a number has no `[0]`. -/
inductive Expected where
  | decrement (n : String)
  | decrements (l : List String)
  | ratio (r : ℝ)
  | ratios (r : ℝ)

/-- The value of A0, obstools.py 2090. -/
noncomputable def a0 (f : ℝ → ℝ) (R R0 l1 l2 : ℝ) : ℝ := -2.5 * Real.logb 10 (R / R0) / (f l1 - f l2)

/-- `computeA0FromFluxRatio(measured,expected,lambda1,lambda2)` for one measurement, obstools.py 2047-2095: the new extinction object.  With a list
of names `R` is never set (UnboundLocalError).  Wavelengths that are `None` or 0 count as missing. -/
noncomputable def Ext.computeA0 (e : Ext) (measured : ℝ) (expected : Expected) (l1 l2 : Option ℝ) : Except Err Ext :=
  match expected with
  | .decrement n =>
    match balmer n with
    | none => .error .key
    | some (R0, x1, x2) => .ok { e with A0 := a0 e.f measured R0 x1 x2 }
  | .decrements l => if l.all (fun n => (balmer n).isSome) then .error .name else .error .key
  | .ratio _ => .error .type
  | .ratios r =>
    match l1, l2 with
    | some x1, some x2 => if x1 = 0 ∨ x2 = 0 then .error .value else .ok { e with A0 := a0 e.f measured r x1 x2 }
    | _, _ => .error .value

/-- `bandwl['V']`, phot.py 3680. -/
noncomputable def wlV : ℝ := 5510

/-- The `EBmV` property, obstools.py 2161-2168. -/
noncomputable def Ext.getEBmV (e : Ext) (Rv : ℝ) : ℝ := e.A0 * e.f wlV / Rv
noncomputable def Ext.setEBmV (e : Ext) (Rv v : ℝ) : Ext := { e with A0 := Rv * v / e.f wlV }

/-- `_EBmVExtinction.__init__`, obstools.py 2156-2159. -/
noncomputable def ebmvExt (f : ℝ → ℝ) (EBmV Rv : ℝ) : Ext := Ext.setEBmV ⟨f, 1⟩ Rv EBmV

/-- `CalzettiExtinction.f`, obstools.py 2144-2149. -/
noncomputable def calzetti (lam : ℝ) : ℝ :=
  let x := 1e4 / lam
  (-2.5 / Real.log 10) * (0.011 * x ^ 3 - 0.198 * x ^ 2 + 1.509 * x - 2.156)

/-- `FMExtinction.f`, obstools.py 2189-2205. -/
noncomputable def fm (C1 C2 C3 C4 x0 gamma Rv lam : ℝ) : ℝ :=
  let x := 1e4 / lam
  let xsq := x * x
  let D := xsq * ((xsq - x0 * x0) ^ 2 + xsq * gamma * gamma)⁻¹
  let v := C1 + C2 * x + C3 * D
  (if x ≥ 5.9 then v + C4 * (0.5392 * (x - 5.9) ^ 2 + 0.05644 * (x - 5.9) ^ 3) else v) + Rv

/-- The coefficients a and b of the `CardelliExtinction`, obstools.py 2222-2248: the regions share their end points, the later one wins.  `none`:
ValueError (2216). -/
noncomputable def ccmAB (x : ℝ) : Option (ℝ × ℝ) :=
  if x < 0.3 ∨ 10 < x then none
  else if 8 ≤ x then
    let y := x - 8
    some (-0.070 * y ^ 3 + 0.137 * y ^ 2 - 0.628 * y - 1.073, 0.374 * y ^ 3 - 0.42 * y ^ 2 + 4.257 * y + 13.67)
  else if 5.9 ≤ x then
    let y := x - 5.9
    some (1.752 - 0.316 * x - 0.104 / ((x - 4.67) ^ 2 + 0.341) + (-0.04473 * y ^ 2 - 0.009779 * y ^ 3),
      -3.09 + 1.825 * x + 1.206 / ((x - 4.62) ^ 2 + 0.263) + (-0.2130 * y ^ 2 - 0.1207 * y ^ 3))
  else if 3.3 ≤ x then
    some (1.752 - 0.316 * x - 0.104 / ((x - 4.67) ^ 2 + 0.341), -3.09 + 1.825 * x + 1.206 / ((x - 4.62) ^ 2 + 0.263))
  else if 1.1 ≤ x then
    let y := x - 1.82
    some (0.32999 * y ^ 7 - 0.7753 * y ^ 6 + 0.01979 * y ^ 5 + 0.72085 * y ^ 4 - 0.02427 * y ^ 3 - 0.50447 * y ^ 2 + 0.17699 * y + 1,
      -2.09002 * y ^ 7 + 5.3026 * y ^ 6 - 0.62251 * y ^ 5 - 5.38434 * y ^ 4 + 1.07233 * y ^ 3 + 2.28305 * y ^ 2 + 1.41338 * y)
  else some (0.574 * x ^ (1.61 : ℝ), -0.527 * x ^ (1.61 : ℝ))

/-- `CardelliExtinction.f`, obstools.py 2211-2254. -/
noncomputable def ccm (Rv lam : ℝ) : Option ℝ := (ccmAB (1e4 / lam)).map fun p => p.1 + p.2 / Rv

/-- The flux corrected by a `CardelliExtinction(EBmV,Rv)` object (2029-2032 with 2161-2168). -/
noncomputable def ccmFlux (EBmV Rv flux lam : ℝ) : Option ℝ :=
  match ccm Rv wlV, ccm Rv lam with
  | some fv, some fl => some (flux * (10 : ℝ) ^ (Rv * EBmV / fv * fl / 2.5))
  | _, _ => none

/-- `extinction_correction(lineflux,linewl,EBmV,Rv)` (deprecated), obstools.py 2420-2512, for one value; without a flux Alambda is returned. -/
noncomputable def extinctionCorrection (flux : Option ℝ) (lam EBmV Rv : ℝ) : Option ℝ :=
  match ccm Rv lam with
  | none => none
  | some r =>
    let Al := r * Rv * EBmV
    match flux with
    | none => some Al
    | some F => some ((10 : ℝ) ^ ((-2.5 * Real.logb 10 F - Al) / -2.5))

/-! ## Properties -/

/-- C98: `Alambda` is the normalisation times the law, and correcting a magnitude subtracts it. -/
theorem alambda_spec (e : Ext) (bandwl : String → Option ℝ) (b : Band) (l : ℝ) (h : wavelength bandwl b = .ok l) (m : ℝ) :
    e.alambda bandwl b = .ok (e.A0 * e.f l) ∧ e.correctPhotometry bandwl m b = .ok (m - e.A0 * e.f l) := by
  simp [Ext.alambda, Ext.correctPhotometry, h, Ext.call]

/-- C98: a band that is not known raises KeyError. -/
theorem unknown_band (e : Ext) (bandwl : String → Option ℝ) (n : String) (h : bandwl n = none) (m : ℝ) :
    e.correctPhotometry bandwl m (.name n) = .error .key ∧ e.alambda bandwl (.name n) = .error .key := by
  simp [Ext.alambda, Ext.correctPhotometry, wavelength, h]

/-- C98: correcting a flux is the same as correcting its magnitude. -/
theorem flux_magnitude (e : Ext) (F l zp : ℝ) (hF : 0 < F) : ∃ F', e.correctFlux F (.wl l) = .ok F' ∧ 0 < F' ∧
    -2.5 * Real.logb 10 F' + zp = (-2.5 * Real.logb 10 F + zp) - e.A0 * e.f l := by
  refine ⟨_, rfl, by positivity, ?_⟩
  rw [Real.logb_mul hF.ne' (by positivity), Real.logb_rpow (by norm_num) (by norm_num), Ext.call]
  ring_nf

/-- C98: the names of Balmer lines stand for their wavelengths; another name raises. -/
theorem flux_lines (e : Ext) (F : ℝ) (n : String) : e.correctFlux F (.name n) =
    match lines n with
    | some l => e.correctFlux F (.wl l)
    | none => .error .type := by
  simp only [Ext.correctFlux]

/-- C98: corrections add up: correcting with two laws after each other is correcting with the sum; zero extinction changes nothing; and a reddened
flux is restored. -/
theorem flux_compose (f : ℝ → ℝ) (A B F l : ℝ) : ∃ F', (Ext.mk f A).correctFlux F (.wl l) = .ok F' ∧
    (Ext.mk f B).correctFlux F' (.wl l) = (Ext.mk f (A + B)).correctFlux F (.wl l) := by
  refine ⟨_, rfl, ?_⟩
  simp only [Ext.correctFlux, Ext.call, Except.ok.injEq]
  rw [mul_assoc, ← Real.rpow_add (by norm_num)]
  congr 2
  ring_nf

theorem flux_restored (f : ℝ → ℝ) (A F l : ℝ) : ∃ F', (Ext.mk f A).correctFlux F (.wl l) = .ok F' ∧ (Ext.mk f (-A)).correctFlux F' (.wl l) = .ok F := by
  obtain ⟨F', h1, h2⟩ := flux_compose f A (-A) F l
  refine ⟨F', h1, ?_⟩
  rw [h2]
  simp [Ext.correctFlux, Ext.call]

/-- C98: a spectrum is corrected point by point, and its relative errors stay the same. -/
theorem spectrum_point (e : Ext) (l F err : ℝ) : e.correctFlux F (.wl l) = .ok (e.correctPoint l F err).1 ∧
    (F ≠ 0 → (e.correctPoint l F err).2 / (e.correctPoint l F err).1 = err / F) := by
  refine ⟨rfl, fun hF => ?_⟩
  have : (10 : ℝ) ^ (e.call l / 2.5) ≠ 0 := by positivity
  simp only [Ext.correctPoint]
  rw [mul_div_mul_right _ _ this]

/-- C98: correcting a colour is correcting the two magnitudes, for two band names (as a string `'b1,b2'` or as a pair) or two wavelengths. -/
theorem color_spec (e : Ext) (bandwl : String → Option ℝ) (m1 m2 : ℝ) (b1 b2 : Band) (x1 x2 : ℝ)
    (hb : (∃ n1 n2, b1 = .name n1 ∧ b2 = .name n2) ∨ (∃ l1 l2, b1 = .wl l1 ∧ b2 = .wl l2))
    (h1 : e.correctPhotometry bandwl m1 b1 = .ok x1) (h2 : e.correctPhotometry bandwl m2 b2 = .ok x2) :
    e.correctColor bandwl (m1 - m2) (.two b1 b2) = .ok (x1 - x2) ∧
    (∀ n1 n2, b1 = .name n1 → b2 = .name n2 → e.correctColor bandwl (m1 - m2) (.str [n1, n2]) = .ok (x1 - x2)) := by
  have main : e.correctTwo bandwl (m1 - m2) b1 b2 = .ok (x1 - x2) := by
    rcases hb with ⟨n1, n2, rfl, rfl⟩ | ⟨l1, l2, rfl, rfl⟩
    · simp only [Ext.correctPhotometry, wavelength] at h1 h2
      cases hn1 : bandwl n1 with
      | none => simp [hn1] at h1
      | some l1 =>
        cases hn2 : bandwl n2 with
        | none => simp [hn2] at h2
        | some l2 =>
          simp only [hn1, hn2, Except.ok.injEq] at h1 h2
          simp only [Ext.correctTwo, hn1, hn2, Except.ok.injEq, ← h1, ← h2]
          ring
    · simp only [Ext.correctPhotometry, wavelength, Except.ok.injEq] at h1 h2
      simp only [Ext.correctTwo, Except.ok.injEq, ← h1, ← h2]
      ring
  refine ⟨main, ?_⟩
  rintro n1 n2 rfl rfl
  exact main

/-- C98 fails for the documented forms `'B-V'` and `'E(B-V)'` (no comma: ValueError) and for a name together with a wavelength. -/
theorem color_fails (e : Ext) (bandwl : String → Option ℝ) (c : ℝ) (s n : String) (l : ℝ) :
    e.correctColor bandwl c (.str [s]) = .error .value ∧ e.correctColor bandwl c (.two (.name n) (.wl l)) = .error .key ∧
    e.correctColor bandwl c (.two (.wl l) (.name n)) = .error .type := ⟨rfl, rfl, rfl⟩

/-- C98 fails for laws given as functions: the constructor refuses every function, and accepts what cannot be called. -/
theorem constructor_inverted (f : ℝ → ℝ) : construct (.func f) = .error .value ∧ construct .other = .ok () := ⟨rfl, rfl⟩

/-! ### Normalisation -/

/-- C99: setting E(B-V) and reading it gives the same value, and the extinction in V is Rv times it. -/
theorem ebmv_roundtrip (e : Ext) (Rv v : ℝ) (hR : Rv ≠ 0) (hf : e.f wlV ≠ 0) :
    (e.setEBmV Rv v).getEBmV Rv = v ∧ (e.setEBmV Rv v).call wlV = Rv * v ∧ (e.setEBmV Rv v).f = e.f := by
  refine ⟨?_, ?_, rfl⟩
  · simp only [Ext.setEBmV, Ext.getEBmV]; field_simp
  · simp only [Ext.setEBmV, Ext.call]; field_simp

/-- C99: ... also in the constructor; and the extinction everywhere is proportional to E(B-V). -/
theorem ebmv_constructor (f : ℝ → ℝ) (v Rv l : ℝ) (hR : Rv ≠ 0) (hf : f wlV ≠ 0) :
    (ebmvExt f v Rv).getEBmV Rv = v ∧ (ebmvExt f v Rv).call l = v * (ebmvExt f 1 Rv).call l := by
  refine ⟨(ebmv_roundtrip ⟨f, 1⟩ Rv v hR hf).1, ?_⟩
  simp only [ebmvExt, Ext.setEBmV, Ext.call]; ring

/-- C99: after calibration with a measured line ratio, correcting the two lines gives the expected ratio. -/
theorem calibrated_ratio (e : Ext) (F1 F2 R0 l1 l2 : ℝ) (h1 : 0 < F1) (h2 : 0 < F2) (h0 : 0 < R0) (hl1 : l1 ≠ 0) (hl2 : l2 ≠ 0)
    (hf : e.f l1 ≠ e.f l2) : ∃ e' G1 G2, e.computeA0 (F1 / F2) (.ratios R0) (some l1) (some l2) = .ok e' ∧ e'.f = e.f ∧
      e'.correctFlux F1 (.wl l1) = .ok G1 ∧ e'.correctFlux F2 (.wl l2) = .ok G2 ∧ G1 / G2 = R0 := by
  refine ⟨{ e with A0 := a0 e.f (F1 / F2) R0 l1 l2 }, _, _, by simp [Ext.computeA0, hl1, hl2], rfl, rfl, rfl, ?_⟩
  simp only [Ext.call]
  rw [mul_div_mul_comm, ← Real.rpow_sub (by norm_num)]
  have hne : e.f l1 - e.f l2 ≠ 0 := sub_ne_zero.2 hf
  have : a0 e.f (F1 / F2) R0 l1 l2 * e.f l1 / 2.5 - a0 e.f (F1 / F2) R0 l1 l2 * e.f l2 / 2.5 = -Real.logb 10 (F1 / F2 / R0) := by
    unfold a0; field_simp; ring
  rw [this, Real.rpow_neg (by norm_num), Real.rpow_logb (by norm_num) (by norm_num) (by positivity)]
  field_simp

/-- C99: a decrement `'Hxy'` has a ratio above one and the wavelengths of the lines `'Hx'` and `'Hy'`. -/
theorem balmer_lines (n : String) (R0 l1 l2 : ℝ) (h : balmer n = some (R0, l1, l2)) :
    1 < R0 ∧ ∃ x y, n = "H" ++ x ++ y ∧ lines ("H" ++ x) = some l1 ∧ lines ("H" ++ y) = some l2 := by
  unfold balmer at h
  split at h
  all_goals first
    | (simp only [Option.some.injEq, Prod.mk.injEq] at h
       obtain ⟨rfl, rfl, rfl⟩ := h
       refine ⟨by norm_num, ?_⟩)
    | cases h
  · exact ⟨"a", "b", by decide, rfl, rfl⟩
  · exact ⟨"a", "g", by decide, rfl, rfl⟩
  · exact ⟨"a", "d", by decide, rfl, rfl⟩
  · exact ⟨"a", "e", by decide, rfl, rfl⟩
  · exact ⟨"b", "g", by decide, rfl, rfl⟩
  · exact ⟨"b", "d", by decide, rfl, rfl⟩
  · exact ⟨"b", "e", by decide, rfl, rfl⟩
  · exact ⟨"g", "d", by decide, rfl, rfl⟩
  · exact ⟨"g", "e", by decide, rfl, rfl⟩
  · exact ⟨"d", "e", by decide, rfl, rfl⟩

/-- C99: calibration with a named Balmer decrement: correcting the two lines gives the case B ratio. -/
theorem calibrated_balmer (e : Ext) (n : String) (R0 l1 l2 : ℝ) (hb : balmer n = some (R0, l1, l2)) (F1 F2 : ℝ) (h1 : 0 < F1) (h2 : 0 < F2)
    (hf : e.f l1 ≠ e.f l2) (o1 o2 : Option ℝ) : ∃ e' G1 G2, e.computeA0 (F1 / F2) (.decrement n) o1 o2 = .ok e' ∧ e'.f = e.f ∧
      e'.correctFlux F1 (.wl l1) = .ok G1 ∧ e'.correctFlux F2 (.wl l2) = .ok G2 ∧ G1 / G2 = R0 := by
  obtain ⟨hR, x, y, _, hx, hy⟩ := balmer_lines n R0 l1 l2 hb
  have hpos : ∀ a l, lines a = some l → l ≠ 0 := by
    intro a l h
    unfold lines at h
    split at h <;> first | (simp only [Option.some.injEq] at h; rw [← h]; norm_num) | cases h
  have hl1 := hpos _ _ hx
  have hl2 := hpos _ _ hy
  obtain ⟨e', G1, G2, he, rest⟩ := calibrated_ratio e F1 F2 R0 l1 l2 h1 h2 (by linarith) hl1 hl2 hf
  refine ⟨e', G1, G2, ?_, rest⟩
  rw [← he]
  simp [Ext.computeA0, hb, hl1, hl2]

/-- C99 fails for several decrements (UnboundLocalError) and for a plain number as the expected ratio (TypeError). -/
theorem calibration_fails (e : Ext) (m r : ℝ) (l : List String) (h : ∀ n ∈ l, (balmer n).isSome) (l1 l2 : Option ℝ) :
    e.computeA0 m (.decrements l) l1 l2 = .error .name ∧ e.computeA0 m (.ratio r) l1 l2 = .error .type := by
  refine ⟨?_, rfl⟩
  simp only [Ext.computeA0]
  rw [if_pos]
  simpa using h

/-! ### The laws -/

/-- C99: the Cardelli law is defined exactly between 0.3 and 10 inverse microns. -/
theorem ccm_range (Rv lam : ℝ) : ccm Rv lam = none ↔ 1e4 / lam < 0.3 ∨ 10 < 1e4 / lam := by
  unfold ccm ccmAB
  simp only [Option.map_eq_none_iff]
  split_ifs <;> simp_all

/-- C99: the law is one at 1.82 inverse microns, whatever Rv. -/
theorem ccm_visual (Rv : ℝ) : ccm Rv (1e4 / 1.82) = some 1 := by
  have : (1e4 : ℝ) / (1e4 / 1.82) = 1.82 := by norm_num
  unfold ccm ccmAB
  rw [this]
  norm_num

/-- C99: the two pieces that meet at 5.9 inverse microns agree there. -/
theorem ccm_joint : ccmAB 5.9 = some (1.752 - 0.316 * 5.9 - 0.104 / ((5.9 - 4.67) ^ 2 + 0.341), -3.09 + 1.825 * 5.9 + 1.206 / ((5.9 - 4.62) ^ 2 + 0.263)) := by
  unfold ccmAB; norm_num

/-- The law at the wavelength of the V band. -/
noncomputable def fV (Rv : ℝ) : ℝ :=
  let y : ℝ := 1e4 / 5510 - 1.82
  (0.32999 * y ^ 7 - 0.7753 * y ^ 6 + 0.01979 * y ^ 5 + 0.72085 * y ^ 4 - 0.02427 * y ^ 3 - 0.50447 * y ^ 2 + 0.17699 * y + 1) +
    (-2.09002 * y ^ 7 + 5.3026 * y ^ 6 - 0.62251 * y ^ 5 - 5.38434 * y ^ 4 + 1.07233 * y ^ 3 + 2.28305 * y ^ 2 + 1.41338 * y) / Rv

theorem ccm_V (Rv : ℝ) : ccm Rv wlV = some (fV Rv) := by
  unfold ccm ccmAB wlV fV
  rw [if_neg (by norm_num), if_neg (by norm_num), if_neg (by norm_num), if_neg (by norm_num), if_pos (by norm_num)]
  rfl

/-- C99: without a flux the deprecated `extinction_correction` gives Rv E(B-V) times the law; with a flux it multiplies by 10^(0.4 A). -/
theorem deprecated_spec (lam EBmV Rv r F : ℝ) (h : ccm Rv lam = some r) (hF : 0 < F) :
    extinctionCorrection none lam EBmV Rv = some (r * Rv * EBmV) ∧
    extinctionCorrection (some F) lam EBmV Rv = some (F * (10 : ℝ) ^ (r * Rv * EBmV / 2.5)) := by
  refine ⟨by simp [extinctionCorrection, h], ?_⟩
  simp only [extinctionCorrection, h, Option.some.injEq]
  have : (-2.5 * Real.logb 10 F - r * Rv * EBmV) / -2.5 = Real.logb 10 F + r * Rv * EBmV / 2.5 := by field_simp; ring
  rw [this, Real.rpow_add (by norm_num), Real.rpow_logb (by norm_num) (by norm_num) hF]

/-- C99: the class normalises the law to the V band: it gives what the deprecated function gives for E(B-V) divided by the law there ... -/
theorem class_vs_deprecated (lam EBmV Rv F : ℝ) (hF : 0 < F) (hl : ccm Rv lam ≠ none) :
    ccmFlux EBmV Rv F lam = extinctionCorrection (some F) lam (EBmV / fV Rv) Rv := by
  obtain ⟨r, hr⟩ := Option.ne_none_iff_exists'.1 hl
  rw [(deprecated_spec lam (EBmV / fV Rv) Rv r F hr hF).2]
  simp only [ccmFlux, ccm_V, hr, Option.some.injEq]
  congr 2
  ring

/-- ... and these differ, since the law is not one there for the default Rv = 3.1. -/
theorem class_differs : fV 3.1 < 1 ∧ 0 < fV 3.1 ∧ ∃ F lam E, 0 < F ∧ ccmFlux E 3.1 F lam ≠ extinctionCorrection (some F) lam E 3.1 := by
  have h1 : fV 3.1 < 1 := by unfold fV; norm_num
  have h2 : 0 < fV 3.1 := by unfold fV; norm_num
  refine ⟨h1, h2, 1, wlV, 1, by norm_num, ?_⟩
  rw [(deprecated_spec wlV 1 3.1 (fV 3.1) 1 (ccm_V 3.1) (by norm_num)).2]
  simp only [ccmFlux, ccm_V, ne_eq, Option.some.injEq, one_mul]
  intro h
  have := (Real.rpow_right_inj (by norm_num : (0 : ℝ) < 10) (by norm_num)).1 h
  rw [div_mul_cancel₀ _ h2.ne'] at this
  generalize fV 3.1 = t at this h1
  norm_num at this
  linarith

/-- C99: the far-ultraviolet term of the Fitzpatrick-Massa law starts at zero: it is absent below 5.9 inverse microns and continuous there. -/
theorem fm_spec (C1 C2 C3 C4 x0 gamma Rv lam : ℝ) : fm C1 C2 C3 C4 x0 gamma Rv lam =
    Rv + C1 + C2 * (1e4 / lam) + C3 * ((1e4 / lam) ^ 2 / (((1e4 / lam) ^ 2 - x0 ^ 2) ^ 2 + (1e4 / lam) ^ 2 * gamma ^ 2)) +
      C4 * (0.5392 * (max 0 (1e4 / lam - 5.9)) ^ 2 + 0.05644 * (max 0 (1e4 / lam - 5.9)) ^ 3) := by
  unfold fm
  generalize (1e4 : ℝ) / lam = x
  simp only
  split_ifs with h
  · rw [max_eq_right (by linarith)]; rw [div_eq_mul_inv, pow_two x, pow_two x0, pow_two gamma]; ring_nf
  · rw [max_eq_left (by linarith)]; rw [div_eq_mul_inv, pow_two x, pow_two x0, pow_two gamma]; ring_nf

/-- The Small Magellanic Cloud law (obstools.py 2263-2268) is defined at V: E(B-V) can be set and read. -/
example : (ebmvExt (fm (-4.959) 2.264 0.389 0.461 4.6 1 2.74) 0.2 2.74).getEBmV 2.74 = 0.2 :=
  (ebmv_constructor _ _ _ 1 (by norm_num) (by rw [fm_spec, wlV, max_eq_left (by norm_num)]; norm_num)).1

example : ∃ e' G1 G2, (Ext.mk (fun l => 1 / l) 1).computeA0 (3 / 1) (.ratios 2.86) (some 6562.82) (some 4861.33) = .ok e' ∧ e'.f = (fun l => 1 / l) ∧
      e'.correctFlux 3 (.wl 6562.82) = .ok G1 ∧ e'.correctFlux 1 (.wl 4861.33) = .ok G2 ∧ G1 / G2 = 2.86 :=
  calibrated_ratio _ 3 1 2.86 _ _ (by norm_num) (by norm_num) (by norm_num) (by norm_num) (by norm_num) (by norm_num)

end Verif.Extinction
