import Mathlib.Analysis.SpecialFunctions.Log.Base
import Mathlib.Analysis.SpecialFunctions.Log.Deriv
import Mathlib.Analysis.SpecialFunctions.ExpDeriv
import Mathlib.Analysis.SpecialFunctions.Pow.Real
import Mathlib.Analysis.Complex.ExponentialBounds
import Mathlib.Tactic.Linarith
import Mathlib.Tactic.Ring
import Mathlib.Tactic.FieldSimp
import Verif.CosmoDist

/-!
# Magnitudes (astropysics/phot.py 60-143, 3080-3400)

Exact real arithmetic, one element at a time.
-/

namespace Verif.Phot

open Real

/-! ## Magnitude systems -/

/-- `PogsonMagnitude.a`, phot.py 79. -/
noncomputable def a : ℝ := -2.5 / log 10

/-- `PogsonMagnitude.magToFlux`, phot.py 81-82. -/
noncomputable def magToFlux (mag : ℝ) : ℝ := exp (mag / a)
/-- `PogsonMagnitude.magerrToFluxerr`, phot.py 83-84. -/
noncomputable def magerrToFluxerr (err mag : ℝ) : ℝ := -err * magToFlux mag / a
/-- `PogsonMagnitude.fluxToMag`, phot.py 85-86. -/
noncomputable def fluxToMag (flux : ℝ) : ℝ := a * log flux
/-- `PogsonMagnitude.fluxerrToMagerr`, phot.py 87-88. -/
noncomputable def fluxerrToMagerr (err flux : ℝ) : ℝ := -a * err / flux

theorem log10_pos : 0 < log 10 := log_pos (by norm_num)
theorem a_neg : a < 0 := by unfold a; exact div_neg_of_neg_of_pos (by norm_num) log10_pos
theorem a_ne : a ≠ 0 := a_neg.ne

/-- The conversions between magnitude and flux are inverse to each other (for positive flux). -/
theorem mag_flux_roundtrip : (∀ m, fluxToMag (magToFlux m) = m) ∧ (∀ f, 0 < f → magToFlux (fluxToMag f) = f) := by
  constructor
  · intro m
    unfold fluxToMag magToFlux
    rw [log_exp, mul_div_cancel₀ _ a_ne]
  · intro f hf
    unfold fluxToMag magToFlux
    rw [mul_div_cancel_left₀ _ a_ne, exp_log hf]

/-- Pogson's law: `m = -2.5 log10 f`; fluxes are positive, brighter means a smaller magnitude, and five magnitudes are a factor
of a hundred. -/
theorem pogson (m : ℝ) (f : ℝ) :
    fluxToMag f = -2.5 * logb 10 f ∧ 0 < magToFlux m ∧ (∀ m', m < m' → magToFlux m' < magToFlux m) ∧
    magToFlux (m + 5) = magToFlux m / 100 := by
  have hl := log10_pos
  refine ⟨?_, exp_pos _, ?_, ?_⟩
  · unfold fluxToMag a logb; ring
  · intro m' h
    unfold magToFlux
    apply exp_lt_exp.2
    exact div_lt_div_of_neg_of_lt a_neg h
  · unfold magToFlux
    rw [add_div, exp_add, show (5 : ℝ) / a = -(2 * log 10) by unfold a; field_simp; norm_num, exp_neg, two_mul, exp_add,
      exp_log (by norm_num)]
    norm_num
    ring

/-- The error conversions are the first-order ones (the derivative times the error, with positive sign), and inverse to each other. -/
theorem error_conversion (err m : ℝ) :
    HasDerivAt magToFlux (-(magerrToFluxerr 1 m)) m ∧ magerrToFluxerr err m = err * magerrToFluxerr 1 m ∧
    (0 < err → 0 < magerrToFluxerr err m) ∧
    fluxerrToMagerr (magerrToFluxerr err m) (magToFlux m) = err ∧
    (∀ f, 0 < f → magerrToFluxerr (fluxerrToMagerr err f) (fluxToMag f) = err) := by
  have ha := a_ne
  have hm : 0 < magToFlux m := exp_pos _
  refine ⟨?_, ?_, ?_, ?_, ?_⟩
  · have h := ((hasDerivAt_id m).div_const a).exp
    have e : -(magerrToFluxerr 1 m) = exp (id m / a) * (1 / a) := by
      unfold magerrToFluxerr magToFlux
      simp only [id]
      ring
    rw [e]; exact h
  · unfold magerrToFluxerr; ring
  · intro he
    unfold magerrToFluxerr
    rw [neg_mul, neg_div, ← div_neg]
    have := a_neg
    apply div_pos (mul_pos he hm); linarith
  · unfold fluxerrToMagerr magerrToFluxerr
    field_simp
  · intro f hf
    unfold magerrToFluxerr
    rw [mag_flux_roundtrip.2 f hf]
    unfold fluxerrToMagerr
    field_simp

/-- The systems `choose_magnitude_system` can install. -/
inductive System
  | pogson | asinh | own
deriving DecidableEq, Repr

/-- Its argument. -/
inductive SystemArg
  | pogson | asinh | own | other
deriving DecidableEq, Repr

inductive Err
  | name | value | unbound | type
deriving DecidableEq, Repr

/-- `choose_magnitude_system`, phot.py 117-143.  Making an `AsinhMagnitude` assigns `self.b`, whose setter reads a global name `b` that
does not exist (phot.py 93-100): a NameError before anything is installed. -/
def chooseSystem (cur : System) : SystemArg → System × Option Err
  | .own => (.own, none)
  | .pogson => (.pogson, none)
  | .asinh => (cur, some .name)
  | .other => (cur, some .value)

/-- The documented system 'asinh' can never be installed: it raises, and after any history of choices by name the Pogson system
is in use. -/
theorem asinh_never (args : List SystemArg) :
    (∀ cur, (chooseSystem cur .asinh).2 = some .name) ∧ (args.foldl (fun s x => (chooseSystem s x).1) .pogson) ≠ .asinh ∧
    (.own ∉ args → args.foldl (fun s x => (chooseSystem s x).1) .pogson = .pogson) := by
  refine ⟨fun _ => rfl, ?_, ?_⟩
  · have : ∀ (l : List SystemArg) s, s ≠ .asinh → l.foldl (fun s x => (chooseSystem s x).1) s ≠ .asinh := by
      intro l
      induction l with
      | nil => intro s h; exact h
      | cons x l ih =>
        intro s h
        apply ih
        cases x <;> simp [chooseSystem, h]
    exact this args _ (by decide)
  · have : ∀ (l : List SystemArg), .own ∉ l → l.foldl (fun s x => (chooseSystem s x).1) System.pogson = .pogson := by
      intro l
      induction l with
      | nil => intro _; rfl
      | cons x l ih =>
        intro h
        simp only [List.mem_cons, not_or] at h
        cases x
        · exact ih h.2
        · exact ih h.2
        · exact absurd rfl h.1
        · exact ih h.2
    exact this args

/-! ## Distance modulus -/

/-- The `autocosmo` argument. -/
inductive Auto
  | yes | no | warn
deriving DecidableEq, Repr

/-- The `intype` argument. -/
inductive InType
  | distance | redshift | other
deriving DecidableEq, Repr

/-- What `distance_modulus` returns: a value, or a value with upper and lower error. -/
inductive Out
  | val (dm : ℝ)
  | withErr (dm up lo : ℝ)

/-- `distance_modulus(x,intype,dx,autocosmo)` for a scalar, phot.py 3080-3145.  `cosmo z dz` is `cosmo_z_to_dist(z,dz,4)`, `H0` and `c`
the Hubble constant and the speed of light in km/s.  `np.any(z) > 0.1` compares a truth value with 0.1: it holds exactly for
`z ≠ 0`.  In the last branch `ddm` is read before it is assigned. -/
noncomputable def distanceModulus (cosmo : ℝ → Option ℝ → Out) (H0 c x : ℝ) (intype : InType) (dx : Option ℝ) (auto : Auto) :
    Except Err Out :=
  match intype with
  | .other => .error .value
  | .distance =>
    let z := x / 1000000 * H0 / c
    if auto = .yes ∧ z ≠ 0 then .ok (cosmo z (dx.map (fun d => d / 1000000 * H0 / c)))
    else
      match dx with
      | none => .ok (.val (5 * logb 10 x - 5))
      | some _ => .error .unbound
  | .redshift =>
    let z := x
    if auto = .yes ∧ z ≠ 0 then .ok (cosmo z dx)
    else
      match dx with
      | none => .ok (.val (5 * logb 10 (z * c / H0) - 5))
      | some _ => .error .unbound

/-- `distance_from_modulus(dm,ddm)`, phot.py 3147-3171 (with `ddm` the first component is `dm` itself). -/
noncomputable def distanceFromModulus (dm : ℝ) (ddm : Option ℝ) : Out :=
  match ddm with
  | none => .val (10 ^ (1 + dm / 5))
  | some e => .withErr dm (10 ^ (1 + (dm + e) / 5) - dm) (dm - 10 ^ (1 + (dm - e) / 5))

/-- `abs_mag`, phot.py 3174-3184, and `app_mag`, phot.py 3186-3196, for a value as distance modulus. -/
noncomputable def absMag (cosmo : ℝ → Option ℝ → Out) (H0 c m x : ℝ) (intype : InType) (auto : Auto) : Except Err ℝ :=
  match distanceModulus cosmo H0 c x intype none auto with
  | .ok (.val dm) => .ok (m - dm)
  | .ok _ => .error .type
  | .error e => .error e
noncomputable def appMag (cosmo : ℝ → Option ℝ → Out) (H0 c m x : ℝ) (intype : InType) (auto : Auto) : Except Err ℝ :=
  match distanceModulus cosmo H0 c x intype none auto with
  | .ok (.val dm) => .ok (m + dm)
  | .ok _ => .error .type
  | .error e => .error e

theorem rpow_logb (x : ℝ) (hx : 0 < x) : (10 : ℝ) ^ (1 + (5 * logb 10 x - 5) / 5) = x := by
  rw [show 1 + (5 * logb 10 x - 5) / 5 = logb 10 x by ring]
  exact Real.rpow_logb (by norm_num) (by norm_num) hx

/-- Without the cosmological calculation the distance comes back from its modulus, and the modulus from its distance. -/
theorem modulus_roundtrip (cosmo : ℝ → Option ℝ → Out) (H0 c : ℝ) (auto : Auto) (ha : auto ≠ .yes) :
    (∀ d, 0 < d → ∃ dm, distanceModulus cosmo H0 c d .distance none auto = .ok (.val dm) ∧ distanceFromModulus dm none = .val d) ∧
    (∀ dm, ∃ d, distanceFromModulus dm none = .val d ∧ 0 < d ∧ distanceModulus cosmo H0 c d .distance none auto = .ok (.val dm)) := by
  constructor
  · intro d hd
    refine ⟨5 * logb 10 d - 5, ?_, ?_⟩
    · simp only [distanceModulus]
      rw [if_neg (fun h => ha h.1)]
    · simp only [distanceFromModulus]
      rw [rpow_logb d hd]
  · intro dm
    have hp : (0 : ℝ) < 10 ^ (1 + dm / 5) := rpow_pos_of_pos (by norm_num) _
    refine ⟨10 ^ (1 + dm / 5), rfl, hp, ?_⟩
    simp only [distanceModulus]
    rw [if_neg (fun h => ha h.1), Real.logb_rpow (by norm_num) (by norm_num)]
    congr 2
    ring

/-- With the default `autocosmo=True` every distance but 0 is treated as cosmological, however near (the documentation says above
redshift 0.1). -/
theorem always_cosmological (cosmo : ℝ → Option ℝ → Out) (H0 c x : ℝ) (hH : H0 ≠ 0) (hc : c ≠ 0) (hx : x ≠ 0) :
    distanceModulus cosmo H0 c x .distance none .yes = .ok (cosmo (x / 1000000 * H0 / c) none) ∧
    distanceModulus cosmo H0 c x .redshift none .yes = .ok (cosmo x none) := by
  have hz : x / 1000000 * H0 / c ≠ 0 := by positivity
  constructor
  · simp only [distanceModulus]
    rw [if_pos ⟨trivial, hz⟩]; rfl
  · simp only [distanceModulus]
    rw [if_pos ⟨trivial, hx⟩]

/-- So by default the distance does not come back: in the Einstein-de Sitter cosmology the round trip of every positive distance
returns a larger one. -/
theorem default_not_inverse (d : ℝ) (hd : 0 < d) :
    ∃ dm d', distanceModulus (fun z _ => .val (CosmoDist.dist CosmoDist.scdm .distmod z)) 72 CosmoDist.c d .distance none .yes = .ok (.val dm) ∧
      distanceFromModulus dm none = .val d' ∧ d < d' := by
  have hc := CosmoDist.c_pos
  set z := d / 1000000 * 72 / CosmoDist.c with hz
  have hzp : 0 < z := by positivity
  have hL : 0 < CosmoDist.dist CosmoDist.scdm .luminosity z := by
    have := CosmoDist.dist_strict CosmoDist.scdm CosmoDist.scdm_good .luminosity (Or.inr (Or.inl rfl)) 0 z le_rfl hzp
    rwa [CosmoDist.dist_zero _ _ (by decide)] at this
  refine ⟨CosmoDist.dist CosmoDist.scdm .distmod z, CosmoDist.dist CosmoDist.scdm .luminosity z * 1000000, ?_, ?_, ?_⟩
  · rw [(always_cosmological _ 72 CosmoDist.c d (by norm_num) hc.ne' hd.ne').1]
  · simp only [distanceFromModulus]
    rw [(CosmoDist.luminosity_comoving CosmoDist.scdm z).2, rpow_logb _ (by positivity)]
  · have e : CosmoDist.intres CosmoDist.scdm .luminosity z = CosmoDist.intres CosmoDist.scdm .angular z := rfl
    simp only [CosmoDist.dist, e]
    rw [CosmoDist.scdm_intres z hzp.le]
    have hd' : d = z * CosmoDist.c / 72 * 1000000 := by rw [hz]; field_simp
    rw [hd']
    set w := √(1 / (z + 1)) with hw
    have hw2 : w * w = 1 / (z + 1) := mul_self_sqrt (by positivity)
    have hwp : 0 < w := sqrt_pos.2 (by positivity)
    have hz1 : z + 1 = 1 / (w * w) := by rw [hw2, one_div_one_div]
    have hw1 : w < 1 := by
      by_contra hn
      push Not at hn
      have h1 : 1 ≤ w * w := by nlinarith
      rw [hw2, le_div_iff₀ (by linarith)] at h1
      linarith
    have hzw : z = 1 / (w * w) - 1 := by linarith
    have key : z < 2 * (1 - w) * (z + 1) := by
      rw [hz1, hzw]
      rw [show 2 * (1 - w) * (1 / (w * w)) = (2 - 2 * w) / (w * w) by ring, show 1 / (w * w) - 1 = (1 - w * w) / (w * w) by field_simp]
      apply div_lt_div_of_pos_right _ (by positivity)
      nlinarith [sq_nonneg (1 - w), mul_pos (sub_pos.2 hw1) (sub_pos.2 hw1)]
    have hinv : (1 : ℝ) / (1 / (z + 1)) = z + 1 := by field_simp
    rw [show CosmoDist.c * (2 * (1 - w) / 72) / (1 / (z + 1)) * 1000000 = CosmoDist.c / 72 * 1000000 * (2 * (1 - w) * (z + 1)) by
      rw [div_eq_mul_one_div _ (1 / (z + 1)), hinv]; ring]
    rw [show z * CosmoDist.c / 72 * 1000000 = CosmoDist.c / 72 * 1000000 * z by ring]
    exact mul_lt_mul_of_pos_left key (by positivity)

/-- A redshift without the cosmological calculation is turned into a distance in Mpc that is used as one in pc: the result is 30
magnitudes below the modulus of the Hubble distance. -/
theorem redshift_off_by_thirty (cosmo : ℝ → Option ℝ → Out) (H0 c z : ℝ) (hz : 0 < z) (hH : 0 < H0) (hc : 0 < c) :
    ∃ dm, distanceModulus cosmo H0 c z .redshift none .no = .ok (.val dm) ∧
      distanceModulus cosmo H0 c (z * c / H0 * 1000000) .distance none .no = .ok (.val (dm + 30)) := by
  refine ⟨5 * logb 10 (z * c / H0) - 5, ?_, ?_⟩
  · simp only [distanceModulus]
    rw [if_neg (by simp)]
  · simp only [distanceModulus]
    rw [if_neg (by simp)]
    rw [Real.logb_mul (by positivity) (by norm_num)]
    have : logb 10 (1000000 : ℝ) = 6 := by
      rw [show (1000000 : ℝ) = 10 ^ (6 : ℝ) by norm_num, Real.logb_rpow (by norm_num) (by norm_num)]
    rw [this]
    congr 2
    ring

/-- An error without the cosmological calculation always raises UnboundLocalError. -/
theorem modulus_error_fails (cosmo : ℝ → Option ℝ → Out) (H0 c x dx : ℝ) (intype : InType) (h : intype ≠ .other) (auto : Auto)
    (ha : auto ≠ .yes) : distanceModulus cosmo H0 c x intype (some dx) auto = .error .unbound := by
  cases intype with
  | other => exact absurd rfl h
  | distance => simp only [distanceModulus]; rw [if_neg (fun h => ha h.1)]
  | redshift => simp only [distanceModulus]; rw [if_neg (fun h => ha h.1)]

/-- `distance_from_modulus` with an error never returns the distance: its first component is the modulus, always smaller. -/
theorem from_modulus_error_wrong (dm e : ℝ) :
    ∃ v up lo d, distanceFromModulus dm (some e) = .withErr v up lo ∧ distanceFromModulus dm none = .val d ∧ v < d ∧
      v + up = 10 ^ (1 + (dm + e) / 5) ∧ v - lo = 10 ^ (1 + (dm - e) / 5) := by
  refine ⟨_, _, _, _, rfl, rfl, ?_, by ring, by ring⟩
  rw [rpow_def_of_pos (by norm_num)]
  have h1 : log 10 * (1 + dm / 5) + 1 ≤ exp (log 10 * (1 + dm / 5)) := add_one_le_exp _
  rcases le_or_gt dm 0 with h | h
  · exact lt_of_le_of_lt h (exp_pos _)
  · rw [mul_add, exp_add, mul_one, exp_log (by norm_num)]
    have h2 : log 10 * (dm / 5) + 1 ≤ exp (log 10 * (dm / 5)) := add_one_le_exp _
    have h3 : 1 ≤ log 10 := by
      rw [le_log_iff_exp_le (by norm_num)]
      have := Real.exp_one_lt_d9
      linarith
    nlinarith [mul_nonneg (sub_nonneg.2 h3) h.le]

/-- `abs_mag` and `app_mag` with the same arguments are inverse to each other, whatever the mode, as long as they return at all. -/
theorem abs_app_roundtrip (cosmo : ℝ → Option ℝ → Out) (H0 c m x : ℝ) (intype : InType) (auto : Auto) :
    (∀ M, absMag cosmo H0 c m x intype auto = .ok M → appMag cosmo H0 c M x intype auto = .ok m) ∧
    (∀ M, appMag cosmo H0 c m x intype auto = .ok M → absMag cosmo H0 c M x intype auto = .ok m) ∧
    (intype ≠ .other → (∀ z, ∃ v, cosmo z none = .val v) → ∃ M, absMag cosmo H0 c m x intype auto = .ok M) := by
  refine ⟨?_, ?_, ?_⟩
  · intro M h
    unfold absMag at h
    unfold appMag
    cases hd : distanceModulus cosmo H0 c x intype none auto with
    | error e => rw [hd] at h; simp at h
    | ok o =>
      cases o with
      | val dm =>
        rw [hd] at h
        simp only [Except.ok.injEq] at h
        simp only [Except.ok.injEq]; linarith
      | withErr _ _ _ => rw [hd] at h; simp at h
  · intro M h
    unfold appMag at h
    unfold absMag
    cases hd : distanceModulus cosmo H0 c x intype none auto with
    | error e => rw [hd] at h; simp at h
    | ok o =>
      cases o with
      | val dm =>
        rw [hd] at h
        simp only [Except.ok.injEq] at h
        simp only [Except.ok.injEq]; linarith
      | withErr _ _ _ => rw [hd] at h; simp at h
  · intro hi hcos
    have : ∃ v, distanceModulus cosmo H0 c x intype none auto = .ok (.val v) := by
      cases intype with
      | other => exact absurd rfl hi
      | distance =>
        simp only [distanceModulus]
        split
        · obtain ⟨v, hv⟩ := hcos (x / 1000000 * H0 / c)
          exact ⟨v, by simp [hv]⟩
        · exact ⟨_, rfl⟩
      | redshift =>
        simp only [distanceModulus]
        split
        · obtain ⟨v, hv⟩ := hcos x
          exact ⟨v, by simp [hv]⟩
        · exact ⟨_, rfl⟩
    obtain ⟨v, hv⟩ := this
    exact ⟨m - v, by unfold absMag; rw [hv]⟩

/-- At ten parsec absolute and apparent magnitude agree (without the cosmological calculation). -/
theorem ten_parsec (cosmo : ℝ → Option ℝ → Out) (H0 c m : ℝ) : absMag cosmo H0 c m 10 .distance .no = .ok m := by
  unfold absMag distanceModulus
  simp [Real.logb_self_eq_one (by norm_num : (1 : ℝ) < 10)]

/-! ## Luminosities -/

/-- A result with or without error. -/
inductive Res
  | val (x : ℝ)
  | pair (x err : ℝ)

/-- `mag_to_lum(M,Mzpt,Lzpt,Merr)` for a scalar and a numeric zero point, phot.py 3290-3314: `np.any(Merr)` is false for None and for 0. -/
noncomputable def magToLum (M Mzpt Lzpt : ℝ) (Merr : Option ℝ) : Res :=
  let L := magToFlux (M - Mzpt) * Lzpt
  match Merr with
  | none => .val L
  | some e => if e = 0 then .val L else .pair L (magerrToFluxerr e (M - Mzpt) * Lzpt)

/-- `lum_to_mag(L,Mzpt,Lzpt,Lerr)`, phot.py 3341-3367. -/
noncomputable def lumToMag (L Mzpt Lzpt : ℝ) (Lerr : Option ℝ) : Res :=
  let M := Mzpt + fluxToMag (L / Lzpt)
  match Lerr with
  | none => .val M
  | some e => if e = 0 then .val M else .pair M (fluxerrToMagerr (e / Lzpt) (L / Lzpt))

/-- `mag_to_lum` of a dictionary, phot.py 3286-3306: every band with its own zero point (`band` is the table `_band_to_msun`; a
band that is not in it raises). -/
noncomputable def magToLumDict (band : String → Option ℝ) (Lzpt : ℝ) (d : List (String × ℝ)) : Except Err (List (String × ℝ)) :=
  d.mapM (fun kv => match band kv.1 with | some z => .ok (kv.1, magToFlux (kv.2 - z) * Lzpt) | none => .error .type)

noncomputable def lumToMagDict (band : String → Option ℝ) (Lzpt : ℝ) (d : List (String × ℝ)) : Except Err (List (String × ℝ)) :=
  d.mapM (fun kv => match band kv.1 with | some z => .ok (kv.1, z + fluxToMag (kv.2 / Lzpt)) | none => .error .type)

/-- Luminosity and magnitude are inverse to each other for every zero point and positive unit; the zero point itself is one unit. -/
theorem lum_roundtrip (Mzpt Lzpt : ℝ) (hL : 0 < Lzpt) :
    (∀ M, ∃ L, magToLum M Mzpt Lzpt none = .val L ∧ 0 < L ∧ lumToMag L Mzpt Lzpt none = .val M) ∧
    (∀ L, 0 < L → ∃ M, lumToMag L Mzpt Lzpt none = .val M ∧ magToLum M Mzpt Lzpt none = .val L) ∧
    magToLum Mzpt Mzpt Lzpt none = .val Lzpt := by
  refine ⟨?_, ?_, ?_⟩
  · intro M
    refine ⟨magToFlux (M - Mzpt) * Lzpt, rfl, mul_pos (exp_pos _) hL, ?_⟩
    simp only [lumToMag]
    rw [mul_div_cancel_right₀ _ hL.ne', mag_flux_roundtrip.1]
    congr 1; ring
  · intro L h
    refine ⟨Mzpt + fluxToMag (L / Lzpt), rfl, ?_⟩
    simp only [magToLum]
    rw [add_sub_cancel_left, mag_flux_roundtrip.2 _ (by positivity)]
    congr 1; field_simp
  · simp [magToLum, magToFlux]

/-- The errors convert back, too. -/
theorem lum_error_roundtrip (M Mzpt Lzpt e : ℝ) (hL : 0 < Lzpt) (he : 0 < e) :
    ∃ L dL, magToLum M Mzpt Lzpt (some e) = .pair L dL ∧ 0 < dL ∧ lumToMag L Mzpt Lzpt (some dL) = .pair M e := by
  have hd : 0 < magerrToFluxerr e (M - Mzpt) * Lzpt := mul_pos ((error_conversion e (M - Mzpt)).2.2.1 he) hL
  refine ⟨magToFlux (M - Mzpt) * Lzpt, magerrToFluxerr e (M - Mzpt) * Lzpt, ?_, hd, ?_⟩
  · simp only [magToLum]; rw [if_neg he.ne']
  · simp only [lumToMag]
    rw [if_neg hd.ne', mul_div_cancel_right₀ _ hL.ne', mul_div_cancel_right₀ _ hL.ne', mag_flux_roundtrip.1,
      (error_conversion e (M - Mzpt)).2.2.2.1]
    congr 1; ring

/-- With an error that happens to be 0 a single value is returned instead of the documented pair. -/
theorem zero_error_dropped (M Mzpt Lzpt : ℝ) :
    magToLum M Mzpt Lzpt (some 0) = magToLum M Mzpt Lzpt none ∧ lumToMag M Mzpt Lzpt (some 0) = lumToMag M Mzpt Lzpt none := by
  simp [magToLum, lumToMag]

/-- Dictionaries: the same keys, each band converted with its own zero point, and back. -/
theorem dict_roundtrip (band : String → Option ℝ) (Lzpt : ℝ) (hL : 0 < Lzpt) (d : List (String × ℝ))
    (hb : ∀ kv ∈ d, (band kv.1).isSome) :
    ∃ l, magToLumDict band Lzpt d = .ok l ∧ l.map (·.1) = d.map (·.1) ∧ lumToMagDict band Lzpt l = .ok d := by
  induction d with
  | nil => exact ⟨[], rfl, rfl, rfl⟩
  | cons kv d ih =>
    obtain ⟨l, h1, h2, h3⟩ := ih (fun x hx => hb x (by simp [hx]))
    obtain ⟨z, hz⟩ := Option.isSome_iff_exists.1 (hb kv (by simp))
    refine ⟨(kv.1, magToFlux (kv.2 - z) * Lzpt) :: l, ?_, by simp [h2], ?_⟩
    · unfold magToLumDict at h1 ⊢
      rw [List.mapM_cons, h1, hz]
      rfl
    · unfold lumToMagDict at h3 ⊢
      rw [List.mapM_cons, h3]
      simp only [hz]
      rw [mul_div_cancel_right₀ _ hL.ne', mag_flux_roundtrip.1, add_sub_cancel]
      rfl

/-- A dictionary with a band that is not known is refused as a whole, in both directions. -/
theorem dict_unknown_band (band : String → Option ℝ) (Lzpt : ℝ) (d : List (String × ℝ)) (h : ∃ kv ∈ d, band kv.1 = none) :
    magToLumDict band Lzpt d = .error .type ∧ lumToMagDict band Lzpt d = .error .type := by
  induction d with
  | nil => simp at h
  | cons kv d ih =>
    unfold magToLumDict lumToMagDict at ih ⊢
    rw [List.mapM_cons, List.mapM_cons]
    cases hb : band kv.1 with
    | none => exact ⟨rfl, rfl⟩
    | some z =>
      obtain ⟨kv', hm, hn⟩ := h
      rcases List.mem_cons.1 hm with rfl | hm
      · rw [hb] at hn; cases hn
      · obtain ⟨h1, h2⟩ := ih ⟨kv', hm, hn⟩
        rw [h1, h2]; exact ⟨rfl, rfl⟩

/-- `color_to_flux_ratio` and `flux_ratio_to_color`, phot.py 3369-3379. -/
noncomputable def colorToFluxRatio (color z1 z2 : ℝ) : ℝ := (magToFlux (color - z1) * 1) / (magToFlux (0 - z2) * 1)
noncomputable def fluxRatioToColor (ratio z1 z2 : ℝ) : ℝ := (z1 + fluxToMag (ratio / 1)) - (z2 + fluxToMag (1 / 1))

/-- They are inverse to each other; and the ratio is that of the luminosities of any two magnitudes with this color. -/
theorem color_roundtrip (color z1 z2 : ℝ) :
    fluxRatioToColor (colorToFluxRatio color z1 z2) z1 z2 = color ∧
    (∀ r, 0 < r → colorToFluxRatio (fluxRatioToColor r z1 z2) z1 z2 = r) ∧
    (∀ m, magToFlux ((m + color) - z1) / magToFlux (m - z2) = colorToFluxRatio color z1 z2) := by
  have ha := a_ne
  have e1 : fluxToMag 1 = 0 := by simp [fluxToMag]
  have hr : colorToFluxRatio color z1 z2 = magToFlux (color - z1 + z2) := by
    unfold colorToFluxRatio magToFlux
    rw [mul_one, mul_one, ← exp_sub]
    congr 1; ring
  refine ⟨?_, ?_, ?_⟩
  · rw [hr]
    unfold fluxRatioToColor
    rw [div_one, div_one, mag_flux_roundtrip.1, e1]; ring
  · intro r h
    unfold colorToFluxRatio fluxRatioToColor
    rw [div_one, div_one, e1, mul_one, mul_one]
    have : magToFlux (z1 + fluxToMag r - (z2 + 0) - z1) = magToFlux (fluxToMag r) * magToFlux (0 - z2) := by
      unfold magToFlux
      rw [← exp_add]; congr 1; ring
    rw [this, mag_flux_roundtrip.2 r h, mul_div_cancel_right₀ _ (show magToFlux (0 - z2) ≠ 0 from (exp_pos _).ne')]
  · intro m
    rw [hr]
    unfold magToFlux
    rw [← exp_sub]
    congr 1; ring

/-! ## Surface brightness -/

/-- `area_to_surface_brightness`, phot.py 3205-3210. -/
noncomputable def areaToSB (m area : ℝ) : ℝ := m + 2.5 * logb 10 area
/-- `rh_to_surface_brightness`, phot.py 3198-3203. -/
noncomputable def rhToSB (totalm rh : ℝ) : ℝ := areaToSB (totalm + 2.5 * logb 10 2) (π * rh * rh)
/-- `intensity_to_flux`, phot.py 3212-3219, and `flux_to_intensity`, phot.py 3221-3228. -/
noncomputable def intensityToFlux (radius distance : ℝ) : ℝ := π * (radius / distance) * (radius / distance)
noncomputable def fluxToIntensity (radius distance : ℝ) : ℝ := 1 / (π * (radius / distance) * (radius / distance))
/-- `cosmo_surface_brightness_correction`, phot.py 3391-3400. -/
noncomputable def cosmoSB (S z : ℝ) (mag : Bool) : ℝ := if mag then S - 10 * logb 10 (1 + z) else S * (1 + z) ^ 4

/-- Surface brightness is the magnitude of the flux per area; the half-light version is that of half the flux in the half-light circle;
the cosmological correction is the same in magnitudes and in flux; intensity and flux factors are reciprocal. -/
theorem surface_brightness (f area rh z radius distance : ℝ) (hf : 0 < f) (ha : 0 < area) (hr : 0 < rh) (hz : -1 < z)
    (h1 : 0 < radius) (h2 : 0 < distance) :
    areaToSB (fluxToMag f) area = fluxToMag (f / area) ∧
    rhToSB (fluxToMag f) rh = fluxToMag (f / 2 / (π * rh * rh)) ∧
    cosmoSB (fluxToMag f) z true = fluxToMag (cosmoSB f z false) ∧
    intensityToFlux radius distance * fluxToIntensity radius distance = 1 := by
  have e : ∀ x, fluxToMag x = -2.5 * logb 10 x := fun x => (pogson 0 x).1
  have hpi := pi_pos
  have hz1 : 0 < 1 + z := by linarith
  refine ⟨?_, ?_, ?_, ?_⟩
  · rw [e, e, areaToSB, Real.logb_div hf.ne' ha.ne']; ring
  · rw [e, e, rhToSB, areaToSB, Real.logb_div (by positivity) (by positivity), Real.logb_div hf.ne' (by norm_num)]; ring
  · simp only [cosmoSB, if_true, Bool.false_eq_true, if_false]
    rw [e, e, Real.logb_mul hf.ne' (by positivity), Real.logb_pow]; push_cast; ring
  · unfold intensityToFlux fluxToIntensity
    field_simp

/-- Cases that meet the hypotheses. -/
example : ∃ L, magToLum (-20.5) 4.83 1 none = .val L ∧ 0 < L ∧ lumToMag L 4.83 1 none = .val (-20.5) :=
  (lum_roundtrip 4.83 1 one_pos).1 (-20.5)

example : ∃ l, magToLumDict (fun b => if b = "V" then some 4.83 else if b = "g" then some 5.33 else none) 1 [("V", -20), ("g", -19)] = .ok l ∧
    l.map (·.1) = ["V", "g"] ∧
    lumToMagDict (fun b => if b = "V" then some 4.83 else if b = "g" then some 5.33 else none) 1 l = .ok [("V", -20), ("g", -19)] :=
  dict_roundtrip _ 1 one_pos _ (by simp)

end Verif.Phot
