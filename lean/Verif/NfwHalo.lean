import Verif.Profiles
import Mathlib.Analysis.Calculus.Deriv.MeanValue
import Mathlib.Analysis.SpecialFunctions.Log.Deriv
import Mathlib.Analysis.Complex.ExponentialBounds
import Mathlib.Analysis.SpecialFunctions.Pow.Real
import Mathlib.Tactic.Linarith
import Mathlib.Tactic.Positivity

/-!
# NFW haloes: virial quantities, concentration, circular velocity (astropysics/models.py 535-1096) (C114)

Over the reals.  The cosmology is a pair of functions of redshift; the numerical inverse of pymodelfit (`inv`, Newton's method) is a parameter.
-/

namespace Verif.Nfw

open Real Filter Topology Verif.Profiles

/-! ## Model -/

/-- The parameters of an `NFWModel` and the attribute `_c`, which only exists after `setC` with both arguments, models.py 535, 657-658. -/
structure Halo where
  rho0 : ℝ
  rc : ℝ
  savedC : Option ℝ

/-- What is used of the current cosmology: `rhoC(z,'cosmological')`, `deltavir(z)`, `h` and `omega`, constants.py 314-380. -/
structure Cosmo where
  rhoC : ℝ → ℝ
  deltavir : ℝ → ℝ
  h : ℝ
  omega : ℝ

/-- `integrateSpherical(0,r)`, models.py 564-568. -/
noncomputable def Halo.mass (m : Halo) (r : ℝ) : ℝ := 4 * π * m.rho0 * m.rc ^ 3 * (log (1 + r / m.rc) - r / m.rc / (1 + r / m.rc))

/-- `getV(r)`, models.py 570-599; `GMspc` of constants is a parameter. -/
noncomputable def Halo.getV (GMspc : ℝ) (m : Halo) (r : ℝ) : ℝ := (GMspc / 1000 * m.mass r / r) ^ (0.5 : ℝ)

/-- `_xmin`, models.py 603 (rounded to the double printed there: 2.16258158706461). -/
noncomputable def xmin : ℝ := 2.16258158706460983485655366960326457351

/-- `getVmax()`, models.py 604-615. -/
noncomputable def Halo.getVmax (GMspc : ℝ) (m : Halo) : ℝ × ℝ := (m.getV GMspc (m.rc * xmin), m.rc * xmin)

/-- `getRhoMean(r)`, models.py 692-693. -/
noncomputable def Halo.rhoMean (m : Halo) (r : ℝ) : ℝ := m.mass r / (4 * π * (r * 1000) ^ 3 / 3)

/-- The virial density in Msun pc^-3, models.py 651, 655, 730. -/
noncomputable def Cosmo.rhov (k : Cosmo) (z : ℝ) : ℝ := k.rhoC z * 1e-18 * k.deltavir z

/-- The numerical inverse: `inv f y x0` is looked for near x0. -/
abbrev Inv := (ℝ → ℝ) → ℝ → ℝ → ℝ

/-- `getRv(z)`, models.py 715-743. -/
noncomputable def Halo.getRv (k : Cosmo) (inv : Inv) (m : Halo) (z : ℝ) : ℝ := inv m.rhoMean (k.rhov z) m.rc

/-- `getMv(z)`, models.py 747-752. -/
noncomputable def Halo.getMv (k : Cosmo) (inv : Inv) (m : Halo) (z : ℝ) : ℝ := m.mass (m.getRv k inv z)

/-- `getC(z)`, models.py 678-681. -/
noncomputable def Halo.getC (k : Cosmo) (inv : Inv) (m : Halo) (z : ℝ) : ℝ :=
  match m.savedC with
  | some c => c
  | none => m.getRv k inv z / m.rc

/-- The radius enclosing a mass at a mean density, models.py 652; the mass of a radius, 656. -/
noncomputable def radiusOf (rhov M : ℝ) : ℝ := 1e-3 * (3 * M / (4 * π * rhov)) ^ (1 / 3 : ℝ)
noncomputable def massOf (rhov R : ℝ) : ℝ := 4 * π * (R * 1e3) ^ 3 / 3 * rhov

/-- The end of `setC`, models.py 660-663. -/
noncomputable def Halo.fix (saved : Option ℝ) (c R M : ℝ) : Halo := ⟨M / (Halo.mk 1 (R / c) none).mass R, R / c, saved⟩

/-- `setC(c,Rvir,Mvir,z)`, models.py 617-663: without a mass and a radius the mass is `getMv()`, at redshift 0. -/
noncomputable def Halo.setC (k : Cosmo) (inv : Inv) (m : Halo) (c : ℝ) (R M : Option ℝ) (z : ℝ) : Halo :=
  match R, M with
  | none, none => Halo.fix m.savedC c (radiusOf (k.rhov z) (m.getMv k inv 0)) (m.getMv k inv 0)
  | none, some M => Halo.fix m.savedC c (radiusOf (k.rhov z) M) M
  | some R, none => Halo.fix m.savedC c R (massOf (k.rhov z) R)
  | some R, some M => Halo.fix (some c) c R M

/-- The scalings, models.py 776, 797, 818, 838, 854, 871, 924, 940, 956. -/
noncomputable def rvirToMvir (k : Cosmo) (R z : ℝ) : ℝ := 1e12 / k.h * (k.omega * k.deltavir z / 97.2) * (R * k.h * (1 + z) / 203.4) ^ 3
noncomputable def mvirToRvir (k : Cosmo) (M z : ℝ) : ℝ :=
  203.4 / k.h * (k.omega * k.deltavir z / 97.2) ^ (-1 / 3 : ℝ) * (M * k.h / 1e12) ^ (1 / 3 : ℝ) / (1 + z)
noncomputable def mvirToVvir (k : Cosmo) (M z : ℝ) : ℝ :=
  143.8 * (k.omega * k.deltavir z / 97.2) ^ (1 / 6 : ℝ) * (M * k.h / 1e12) ^ (1 / 3 : ℝ) * (1 + z) ^ (0.5 : ℝ)
noncomputable def vvirToMvir (k : Cosmo) (V z : ℝ) : ℝ :=
  (k.omega * k.deltavir z / 97.2) ^ (-0.5 : ℝ) * (1 + z) ^ (-1.5 : ℝ) * 1e12 * (V / 143.8) ^ 3 / k.h
noncomputable def vvirToVmax (V : ℝ) : ℝ := (V / 0.468) ^ (1 / 1.1 : ℝ)
noncomputable def vmaxToVvir (V : ℝ) : ℝ := 0.468 * V ^ (1.1 : ℝ)
noncomputable def mvirToVmax (k : Cosmo) (M z : ℝ) : ℝ := vvirToVmax (mvirToVvir k M z)
noncomputable def vmaxToMvir (k : Cosmo) (V z : ℝ) : ℝ := vvirToMvir k (vmaxToVvir V) z
noncomputable def vmaxToRvir (k : Cosmo) (V z : ℝ) : ℝ := mvirToRvir k (vmaxToMvir k V 0) z

/-- `Mvir_to_Cvir`, models.py 890-891; H0 is that of constants. -/
noncomputable def mvirToCvir (H0 M z : ℝ) : ℝ :=
  let c := 9.6 * (M * (H0 / 72) / 1e13) ^ (-0.13 : ℝ) * (1 + z) ^ (-1 : ℤ)
  if 4 < c then c else 4

/-- Errors of this file. -/
inductive Err where
  | name
  deriving DecidableEq

/-- `Cvir_to_Mvir`, models.py 908: `c` is not defined. -/
def cvirToMvir (_C _z : ℝ) : Except Err ℝ := .error .name

/-- `create_Mvir`, `create_Rvir`, `create_Cvir`, models.py 1015-1065. -/
noncomputable def createMvir (k : Cosmo) (inv : Inv) (H0 M z : ℝ) : Halo :=
  (Halo.mk 1 1 none).setC k inv (mvirToCvir H0 M z) (some (mvirToRvir k M z)) (some M) 0
noncomputable def createRvir (k : Cosmo) (inv : Inv) (H0 R z : ℝ) : Halo :=
  (Halo.mk 1 1 none).setC k inv (mvirToCvir H0 (rvirToMvir k R z) z) (some R) (some (rvirToMvir k R z)) 0
noncomputable def createCvir (k : Cosmo) (inv : Inv) (C z : ℝ) : Except Err Halo := do
  let M ← cvirToMvir C z
  return (Halo.mk 1 1 none).setC k inv C (some (mvirToRvir k M z)) (some M) 0

/-- `create_VmaxRvmax`, models.py 1086-1096: `_c` of the guess stays; `opt` is the central density found by the minimiser. -/
noncomputable def createVmaxRvmax (k : Cosmo) (inv : Inv) (H0 vmax rvmax opt : ℝ) : Halo :=
  { createMvir k inv H0 (vmaxToMvir k vmax 0) 0 with rc := rvmax / 2.16, rho0 := opt }

/-! ## The profile function -/

/-- The dimensionless mass. -/
noncomputable def mu (x : ℝ) : ℝ := log (1 + x) - x / (1 + x)

theorem mass_mu (m : Halo) (r : ℝ) : m.mass r = 4 * π * m.rho0 * m.rc ^ 3 * mu (r / m.rc) := rfl

theorem mu_deriv (x : ℝ) (hx : 0 ≤ x) : HasDerivAt mu (x / (1 + x) ^ 2) x := by
  have h1 : 1 + x ≠ 0 := by positivity
  have hb : HasDerivAt (fun r : ℝ => 1 + r) 1 x := (hasDerivAt_id x).const_add 1
  refine ((hb.log h1).sub ((hasDerivAt_id x).div hb h1)).congr_deriv ?_
  simp only [id]
  field_simp
  ring

theorem mu_zero : mu 0 = 0 := by simp [mu]

/-- A function with a positive derivative on (0,∞), continuous at 0. -/
theorem strictMono_of (f f' : ℝ → ℝ) (hd : ∀ x, 0 ≤ x → HasDerivAt f (f' x) x) (hp : ∀ x, 0 < x → 0 < f' x) : StrictMonoOn f (Set.Ici 0) := by
  apply strictMonoOn_of_deriv_pos (convex_Ici 0)
  · exact fun x hx => (hd x hx).continuousAt.continuousWithinAt
  · intro x hx
    rw [interior_Ici] at hx
    rw [(hd x (le_of_lt hx)).deriv]
    exact hp x hx

theorem mu_mono : StrictMonoOn mu (Set.Ici 0) := strictMono_of mu _ mu_deriv (fun x hx => by positivity)

theorem mu_pos (x : ℝ) (hx : 0 < x) : 0 < mu x := by
  have := mu_mono (Set.mem_Ici.2 le_rfl) (Set.mem_Ici.2 hx.le) hx
  rwa [mu_zero] at this

theorem mu_le (x : ℝ) (hx : 0 ≤ x) : mu x ≤ x := by
  have h := log_le_sub_one_of_pos (show 0 < 1 + x by positivity)
  have : 0 ≤ x / (1 + x) := by positivity
  unfold mu
  linarith

theorem sq_deriv (x : ℝ) (hx : 0 ≤ x) : HasDerivAt (fun x : ℝ => x ^ 2 / (1 + x) ^ 2) (2 * x / (1 + x) ^ 3) x := by
  have h1 : 1 + x ≠ 0 := by positivity
  have hb : HasDerivAt (fun r : ℝ => 1 + r) 1 x := (hasDerivAt_id x).const_add 1
  refine (((hasDerivAt_id x).pow 2).div (hb.pow 2) (by simp only [Pi.pow_apply]; positivity)).congr_deriv ?_
  simp only [Pi.pow_apply, id]
  field_simp
  push_cast
  ring

/-- Three times the dimensionless mass exceeds x²/(1+x)². -/
theorem mu_gt (x : ℝ) (hx : 0 < x) : x ^ 2 / (1 + x) ^ 2 < 3 * mu x := by
  have h := strictMono_of (fun x => 3 * mu x - x ^ 2 / (1 + x) ^ 2) (fun x => x * (1 + 3 * x) / (1 + x) ^ 3)
    (fun x hx => by
      refine (((mu_deriv x hx).const_mul 3).sub (sq_deriv x hx)).congr_deriv ?_
      have : 1 + x ≠ 0 := by positivity
      field_simp
      ring) (fun x hx => by positivity) (Set.mem_Ici.2 le_rfl) (Set.mem_Ici.2 hx.le) hx
  simp only [mu_zero] at h
  norm_num at h
  linarith

theorem mu_cube_deriv (x : ℝ) (hx : 0 < x) : HasDerivAt (fun x => mu x / x ^ 3) ((x ^ 2 / (1 + x) ^ 2 - 3 * mu x) / x ^ 4) x := by
  have h1 : 1 + x ≠ 0 := by positivity
  refine ((mu_deriv x hx.le).div ((hasDerivAt_id x).pow 3) (by simp only [Pi.pow_apply, id]; positivity)).congr_deriv ?_
  simp only [Pi.pow_apply, id]
  field_simp
  push_cast
  ring

theorem mu_cube_anti : StrictAntiOn (fun x => mu x / x ^ 3) (Set.Ioi 0) := by
  apply strictAntiOn_of_deriv_neg (convex_Ioi 0)
  · exact fun x hx => (mu_cube_deriv x hx).continuousAt.continuousWithinAt
  · intro x hx
    rw [interior_Ioi] at hx
    rw [(mu_cube_deriv x hx).deriv]
    have := mu_gt x hx
    have hx4 : 0 < x ^ 4 := by have : 0 < x := hx; positivity
    exact div_neg_of_neg_of_pos (by linarith) hx4

theorem rhoMean_mu (m : Halo) (hc : 0 < m.rc) (r : ℝ) (hr : 0 < r) :
    m.rhoMean r = 3 * m.rho0 * 1e-9 * (mu (r / m.rc) / (r / m.rc) ^ 3) := by
  have := pi_pos
  unfold Halo.rhoMean
  rw [mass_mu]
  field_simp
  norm_num
  ring

/-! ## Specification and theorems -/

/-- A sound numerical inverse: it returns a positive solution when there is exactly one. -/
def Sound (inv : Inv) : Prop := ∀ f y x0, (∃! r, 0 < r ∧ f r = y) → 0 < inv f y x0 ∧ f (inv f y x0) = y

/-- A physical halo and cosmology. -/
def Halo.Good (m : Halo) : Prop := 0 < m.rho0 ∧ 0 < m.rc
def Cosmo.Good (k : Cosmo) (z : ℝ) : Prop := 0 < k.rhoC z ∧ 0 < k.deltavir z

theorem Cosmo.Good.rhov {k : Cosmo} {z : ℝ} (h : k.Good z) : 0 < k.rhov z := by
  have := h.1; have := h.2; unfold Cosmo.rhov; positivity

/-- The mass is that of the density profile within the radius. -/
theorem mass_is_mass (m : Halo) (hm : m.Good) (r : ℝ) (hr : 0 ≤ r) : m.mass r = massWithin (nfw m.rho0 m.rc) r := by
  rw [← nfw_mass (fun _ _ _ => 0) m.rho0 m.rc r hm.1.le hm.2 hr]
  simp [nfwIntegrate, Halo.mass]

/-- The mean density is the enclosed mass over the volume, with the radius taken in thousands of the unit of the profile: 1e-9 of the mean of the profile. -/
theorem rhoMean_is_mean (m : Halo) (hm : m.Good) (r : ℝ) (hr : 0 < r) :
    m.rhoMean r = 1e-9 * (massWithin (nfw m.rho0 m.rc) r / (4 / 3 * π * r ^ 3)) := by
  have := pi_pos
  rw [← mass_is_mass m hm r hr.le]
  unfold Halo.rhoMean
  field_simp
  norm_num
  ring

/-- The mean density falls strictly with radius. -/
theorem rhoMean_decreasing (m : Halo) (hm : m.Good) (r s : ℝ) (hr : 0 < r) (hs : r < s) : m.rhoMean s < m.rhoMean r := by
  have hrc := hm.2; have hr0 := hm.1
  have hs0 : 0 < s := hr.trans hs
  rw [rhoMean_mu m hrc r hr, rhoMean_mu m hrc s hs0]
  exact mul_lt_mul_of_pos_left (mu_cube_anti (Set.mem_Ioi.2 (div_pos hr hrc)) (Set.mem_Ioi.2 (div_pos hs0 hrc)) (by gcongr)) (by positivity)

/-- There is exactly one radius with a given mean density. -/
theorem virial_unique (m : Halo) (hm : m.Good) (rho : ℝ) (hrho : 0 < rho) : ∃! r, 0 < r ∧ m.rhoMean r = rho := by
  have hrc := hm.2; have hr0 := hm.1
  have huni : ∀ r s, 0 < r → 0 < s → m.rhoMean r = m.rhoMean s → r = s := by
    intro r s hr hs h
    rcases lt_trichotomy r s with h1 | h1 | h1
    · have := rhoMean_decreasing m hm r s hr h1; linarith
    · exact h1
    · have := rhoMean_decreasing m hm s r hs h1; linarith
  set K := 3 * m.rho0 * 1e-9 with hK
  have hKp : 0 < K := by positivity
  set y := rho / K with hy
  have hyp : 0 < y := div_pos hrho hKp
  -- large density at a small radius, small density at a large one
  have hlow : ∃ a, 0 < a ∧ a ≤ 1 ∧ y ≤ mu a / a ^ 3 := by
    refine ⟨min 1 (1 / (12 * y)), by positivity, min_le_left _ _, ?_⟩
    set a := min 1 (1 / (12 * y)) with ha
    have ha0 : 0 < a := by positivity
    have ha1 : a ≤ 1 := min_le_left _ _
    have ha2 : a ≤ 1 / (12 * y) := min_le_right _ _
    have h := mu_gt a ha0
    have h2 : a ^ 2 / 4 ≤ a ^ 2 / (1 + a) ^ 2 := by
      apply div_le_div_of_nonneg_left (by positivity) (by positivity)
      nlinarith
    rw [le_div_iff₀ (by positivity)]
    have h3 : a * (12 * y) ≤ 1 := by rwa [le_div_iff₀ (by positivity)] at ha2
    have h4 : y * a ^ 3 ≤ a ^ 2 / 12 := by nlinarith [sq_nonneg a, pow_pos ha0 2]
    linarith
  have hhigh : ∃ b, 1 ≤ b ∧ mu b / b ^ 3 ≤ y := by
    refine ⟨max 1 (1 / y), le_max_left _ _, ?_⟩
    set b := max 1 (1 / y) with hb
    have hb1 : 1 ≤ b := le_max_left _ _
    have hb2 : 1 / y ≤ b := le_max_right _ _
    have hb0 : 0 < b := by linarith
    rw [div_le_iff₀ (by positivity)]
    have h3 : 1 ≤ b * y := by rwa [div_le_iff₀ hyp] at hb2
    have := mu_le b hb0.le
    have h5 : b ^ 2 ≤ y * b ^ 3 := by nlinarith [pow_pos hb0 2]
    nlinarith
  obtain ⟨a, ha0, ha1, hay⟩ := hlow
  obtain ⟨b, hb1, hby⟩ := hhigh
  have hcont : ContinuousOn (fun x => mu x / x ^ 3) (Set.Icc a b) := fun x hx =>
    (mu_cube_deriv x (lt_of_lt_of_le ha0 hx.1)).continuousAt.continuousWithinAt
  obtain ⟨x, hx, hxy⟩ := intermediate_value_Icc' (show a ≤ b by linarith) hcont ⟨hby, hay⟩
  have hx0 : 0 < x := lt_of_lt_of_le ha0 hx.1
  refine ⟨x * m.rc, ⟨by positivity, ?_⟩, ?_⟩
  · rw [rhoMean_mu m hrc _ (by positivity), show x * m.rc / m.rc = x by field_simp]
    simp only at hxy
    rw [hxy, hy]
    field_simp
    exact hK.symm
  · intro s hs
    refine huni _ _ hs.1 (by positivity) ?_
    rw [hs.2, rhoMean_mu m hrc _ (by positivity), show x * m.rc / m.rc = x by field_simp]
    simp only at hxy
    rw [hxy, hy]
    field_simp
    exact hK.symm

/-- (Lemma.) The virial radius is the one radius at which the mean density is the virial density of the cosmology, whatever the parameters; the virial mass is the
mass inside it. -/
theorem getRv_rhov (k : Cosmo) (inv : Inv) (hi : Sound inv) (m : Halo) (hm : m.Good) (z : ℝ) (hk : k.Good z) :
    0 < m.getRv k inv z ∧ m.rhoMean (m.getRv k inv z) = k.rhov z ∧
    (∀ r, 0 < r → m.rhoMean r = k.rhov z → r = m.getRv k inv z) ∧
    m.getMv k inv z = massWithin (nfw m.rho0 m.rc) (m.getRv k inv z) := by
  have hu := virial_unique m hm _ hk.rhov
  obtain ⟨h1, h2⟩ := hi m.rhoMean (k.rhov z) m.rc hu
  refine ⟨h1, h2, fun r hr h => hu.unique ⟨hr, h⟩ ⟨h1, h2⟩, mass_is_mass m hm _ (le_of_lt h1)⟩

/-- The virial radius is the one radius at which the mean density is the virial density of the cosmology, whatever the parameters; the virial mass is the
mass inside it. -/
theorem getRv_spec (k : Cosmo) (inv : Inv) (hi : Sound inv) (m : Halo) (hm : m.Good) (z : ℝ) (hk : k.Good z) :
    0 < m.getRv k inv z ∧ m.rhoMean (m.getRv k inv z) = k.rhoC z * 1e-18 * k.deltavir z ∧
    (∀ r, 0 < r → m.rhoMean r = k.rhoC z * 1e-18 * k.deltavir z → r = m.getRv k inv z) ∧
    m.getMv k inv z = massWithin (nfw m.rho0 m.rc) (m.getRv k inv z) :=
  getRv_rhov k inv hi m hm z hk

theorem fix_good (saved : Option ℝ) (c R M : ℝ) (hc : 0 < c) (hR : 0 < R) (hM : 0 < M) : (Halo.fix saved c R M).Good := by
  have hp := pi_pos
  have : 0 < mu (R / (R / c)) := mu_pos _ (by positivity)
  refine ⟨?_, ?_⟩
  · simp only [Halo.fix, mass_mu]; positivity
  · simp only [Halo.fix]; positivity

theorem fix_mass (saved : Option ℝ) (c R M : ℝ) (hc : 0 < c) (hR : 0 < R) : (Halo.fix saved c R M).mass R = M := by
  have hp := pi_pos
  have hmu : mu c ≠ 0 := (mu_pos _ hc).ne'
  simp only [Halo.fix, mass_mu]
  rw [show R / (R / c) = c by field_simp]
  field_simp

theorem massOf_radiusOf (rhov M : ℝ) (hr : 0 < rhov) (hM : 0 < M) : 0 < radiusOf rhov M ∧ massOf rhov (radiusOf rhov M) = M := by
  have hp := pi_pos
  have h0 : 0 < 3 * M / (4 * π * rhov) := by positivity
  have hc : ((3 * M / (4 * π * rhov)) ^ (1 / 3 : ℝ)) ^ 3 = 3 * M / (4 * π * rhov) := by
    rw [← rpow_natCast, ← rpow_mul h0.le]; norm_num
  constructor
  · unfold radiusOf
    have := rpow_pos_of_pos h0 (1 / 3 : ℝ)
    positivity
  · unfold massOf radiusOf
    rw [show (1e-3 * (3 * M / (4 * π * rhov)) ^ (1 / 3 : ℝ) * 1e3) = (3 * M / (4 * π * rhov)) ^ (1 / 3 : ℝ) by ring, hc]
    field_simp

/-- Common part: after fixing the halo to a radius and mass at the virial density, the virial radius and mass are those. -/
theorem fix_virial (k : Cosmo) (inv : Inv) (hi : Sound inv) (saved : Option ℝ) (c R z : ℝ) (hc : 0 < c) (hR : 0 < R) (hk : k.Good z) :
    (Halo.fix saved c R (massOf (k.rhov z) R)).getRv k inv z = R ∧ (Halo.fix saved c R (massOf (k.rhov z) R)).getMv k inv z = massOf (k.rhov z) R ∧
    (Halo.fix none c R (massOf (k.rhov z) R)).getC k inv z = c := by
  have hp := pi_pos
  have hv := hk.rhov
  have hM : 0 < massOf (k.rhov z) R := by unfold massOf; positivity
  have key : ∀ saved, (Halo.fix saved c R (massOf (k.rhov z) R)).getRv k inv z = R := by
    intro saved
    have hg := fix_good saved c R _ hc hR hM
    refine ((getRv_rhov k inv hi _ hg z hk).2.2.1 R hR ?_).symm
    unfold Halo.rhoMean
    rw [fix_mass saved c R _ hc hR]
    unfold massOf
    field_simp
    norm_num
  refine ⟨key saved, ?_, ?_⟩
  · unfold Halo.getMv; rw [key saved, fix_mass saved c R _ hc hR]
  · unfold Halo.getC
    have : (Halo.fix none c R (massOf (k.rhov z) R)).savedC = none := rfl
    simp only [this]
    rw [key none]
    simp only [Halo.fix]
    field_simp

/-- `setC(c,Mvir=M,z=z)` on any halo: the virial mass at z is M, and `getC(z)` is c unless an earlier call saved a concentration. -/
theorem setC_mass (k : Cosmo) (inv : Inv) (hi : Sound inv) (m : Halo) (c M z : ℝ) (hc : 0 < c) (hM : 0 < M) (hk : k.Good z) :
    (m.setC k inv c none (some M) z).Good ∧ (m.setC k inv c none (some M) z).getMv k inv z = M ∧
    (m.setC k inv c none (some M) z).rc * c = (m.setC k inv c none (some M) z).getRv k inv z ∧
    (m.savedC = none → (m.setC k inv c none (some M) z).getC k inv z = c) ∧
    (∀ s, m.savedC = some s → (m.setC k inv c none (some M) z).getC k inv z = s) := by
  obtain ⟨hR, hMR⟩ := massOf_radiusOf (k.rhov z) M hk.rhov hM
  have h := fix_virial k inv hi m.savedC c (radiusOf (k.rhov z) M) z hc hR hk
  rw [hMR] at h
  refine ⟨fix_good _ _ _ _ hc hR hM, h.2.1, ?_, fun hs => ?_, fun s hs => ?_⟩
  · have : (m.setC k inv c none (some M) z).getRv k inv z = radiusOf (k.rhov z) M := h.1
    rw [this]
    simp only [Halo.setC, Halo.fix]
    field_simp
  · have h2 := h.2.2
    simp only [Halo.setC, hs]
    exact h2
  · simp only [Halo.setC, Halo.getC, Halo.fix, hs]

/-- `setC(c,Rvir=R,z=z)`: the virial radius at z is R and the scale radius R/c. -/
theorem setC_radius (k : Cosmo) (inv : Inv) (hi : Sound inv) (m : Halo) (c R z : ℝ) (hc : 0 < c) (hR : 0 < R) (hk : k.Good z) :
    (m.setC k inv c (some R) none z).getRv k inv z = R ∧ (m.setC k inv c (some R) none z).rc = R / c ∧
    (m.savedC = none → (m.setC k inv c (some R) none z).getC k inv z = c) := by
  have h := fix_virial k inv hi m.savedC c R z hc hR hk
  refine ⟨h.1, rfl, fun hs => ?_⟩
  have h2 := h.2.2
  simp only [Halo.setC, hs]
  exact h2

/-- `setC(c,R,M)`: the mass within R is M, the scale radius R/c, and `getC` answers c for every redshift. -/
theorem setC_both (k : Cosmo) (inv : Inv) (m : Halo) (c R M z : ℝ) (hc : 0 < c) (hR : 0 < R) (hM : 0 < M) :
    (m.setC k inv c (some R) (some M) z).Good ∧ massWithin (nfw (m.setC k inv c (some R) (some M) z).rho0 (m.setC k inv c (some R) (some M) z).rc) R = M ∧
    (m.setC k inv c (some R) (some M) z).rc = R / c ∧ ∀ z', (m.setC k inv c (some R) (some M) z).getC k inv z' = c := by
  have hg : (m.setC k inv c (some R) (some M) z).Good := fix_good _ _ _ _ hc hR hM
  refine ⟨hg, ?_, rfl, fun _ => rfl⟩
  rw [← mass_is_mass _ hg R hR.le]
  exact fix_mass _ _ _ _ hc hR

/-- `setC(c,z=z)`: the new virial mass at z is the old virial mass at redshift 0, so for z=0 the mass is kept. -/
theorem setC_neither (k : Cosmo) (inv : Inv) (hi : Sound inv) (m : Halo) (hm : m.Good) (c z : ℝ) (hc : 0 < c) (hk : k.Good z) (hk0 : k.Good 0) :
    (m.setC k inv c none none z).getMv k inv z = m.getMv k inv 0 ∧ (m.savedC = none → (m.setC k inv c none none z).getC k inv z = c) := by
  have hM : 0 < m.getMv k inv 0 := by
    have h := (getRv_rhov k inv hi m hm 0 hk0).1
    have hp := pi_pos
    have hrc := hm.2; have hr0 := hm.1
    have := mu_pos (m.getRv k inv 0 / m.rc) (by positivity)
    unfold Halo.getMv
    rw [mass_mu]; positivity
  have e : m.setC k inv c none none z = m.setC k inv c none (some (m.getMv k inv 0)) z := rfl
  rw [e]
  have h := setC_mass k inv hi m c _ z hc hM hk
  exact ⟨h.2.1, h.2.2.2.1⟩

/-- A saved concentration outlives the parameters it described: after a call with radius and mass, setting another concentration (or `rc` itself) leaves
`getC` at the old value, for every halo and cosmology. -/
theorem getC_stale_counterexample (k : Cosmo) (inv : Inv) (m : Halo) (c R M c' M' z z' : ℝ) :
    ((m.setC k inv c (some R) (some M) z).setC k inv c' none (some M') z').getC k inv z' = c ∧
    ∀ rc', ({ m.setC k inv c (some R) (some M) z with rc := rc' } : Halo).getC k inv z' = c := ⟨rfl, fun _ => rfl⟩

/-! ## Circular velocity -/

/-- The numerator of the derivative of mu(x)/x. -/
noncomputable def hh (x : ℝ) : ℝ := x ^ 2 / (1 + x) ^ 2 - mu x

theorem hh_deriv (x : ℝ) (hx : 0 ≤ x) : HasDerivAt hh (x * (1 - x) / (1 + x) ^ 3) x := by
  refine ((sq_deriv x hx).sub (mu_deriv x hx)).congr_deriv ?_
  have : 1 + x ≠ 0 := by positivity
  field_simp
  ring

theorem hh_mono : StrictMonoOn hh (Set.Icc 0 1) := by
  apply strictMonoOn_of_deriv_pos (convex_Icc 0 1)
  · exact fun x hx => (hh_deriv x hx.1).continuousAt.continuousWithinAt
  · intro x hx
    rw [interior_Icc] at hx
    rw [(hh_deriv x hx.1.le).deriv]
    have h1 := hx.1; have : 0 < 1 - x := by linarith [hx.2]
    positivity

theorem hh_anti : StrictAntiOn hh (Set.Ici 1) := by
  apply strictAntiOn_of_deriv_neg (convex_Ici 1)
  · exact fun x hx => (hh_deriv x (by have : (1 : ℝ) ≤ x := hx; linarith)).continuousAt.continuousWithinAt
  · intro x hx
    rw [interior_Ici] at hx
    have h1 : (1 : ℝ) < x := hx
    rw [(hh_deriv x (by linarith)).deriv]
    have : 0 < (1 + x) ^ 3 := by positivity
    exact div_neg_of_neg_of_pos (by nlinarith) this

theorem ratio_deriv (x : ℝ) (hx : 0 < x) : HasDerivAt (fun x => mu x / x) (hh x / x ^ 2) x := by
  refine ((mu_deriv x hx.le).div (hasDerivAt_id x) hx.ne').congr_deriv ?_
  unfold hh
  simp only [id]
  have : 1 + x ≠ 0 := by positivity
  field_simp

/-- log of 3.16258... between rationals. -/
theorem log_bounds (t : ℝ) (ht : t = 1 - 0.790645646766 ∨ t = 1 - 0.79064514677) :
    |log (1 - t) + ∑ i ∈ Finset.range 14, t ^ (i + 1) / (i + 1)| ≤ 1e-9 := by
  have h : |t| < 1 := by rcases ht with h | h <;> rw [h, abs_lt] <;> constructor <;> norm_num
  have := abs_log_sub_add_sum_range_le h 14
  rw [add_comm]
  refine this.trans ?_
  rcases ht with h | h <;> rw [h, abs_of_pos (by norm_num)] <;> norm_num

theorem hh_low : 0 < hh (2.16258058708) := by
  have h := log_bounds (1 - 0.79064514677) (Or.inr rfl)
  have hl : log (1 + 2.16258058708) = 2 * log 2 + log (1 - (1 - 0.79064514677)) := by
    rw [show (1 : ℝ) + 2.16258058708 = 2 ^ 2 * (1 - (1 - 0.79064514677)) by norm_num, log_mul (by norm_num) (by norm_num), log_pow]
    norm_num
  have h2 := log_two_lt_d9
  unfold hh mu
  rw [hl]
  norm_num [Finset.sum_range_succ, abs_le] at h ⊢
  linarith [h.1, h.2]

theorem hh_high : hh (2.162582587064) < 0 := by
  have h := log_bounds (1 - 0.790645646766) (Or.inl rfl)
  have hl : log (1 + 2.162582587064) = 2 * log 2 + log (1 - (1 - 0.790645646766)) := by
    rw [show (1 : ℝ) + 2.162582587064 = 2 ^ 2 * (1 - (1 - 0.790645646766)) by norm_num, log_mul (by norm_num) (by norm_num), log_pow]
    norm_num
  have h2 := log_two_gt_d9
  unfold hh mu
  rw [hl]
  norm_num [Finset.sum_range_succ, abs_le] at h ⊢
  linarith [h.1, h.2]

/-- There is one place where mu(x)/x is greatest; `_xmin` is within 1e-6 of it. -/
theorem argmax : ∃ xs : ℝ, 0 < xs ∧ |xs - xmin| ≤ 1e-6 ∧ (∀ x, 0 < x → x < xs → 0 < hh x) ∧ ∀ x, xs < x → hh x < 0 := by
  have hcont : ContinuousOn hh (Set.Icc 2.16258058708 2.162582587064) := fun x hx =>
    (hh_deriv x (by have := hx.1; norm_num at this ⊢; linarith)).continuousAt.continuousWithinAt
  obtain ⟨xs, hxs, h0⟩ := intermediate_value_Icc' (by norm_num) hcont ⟨hh_high.le, hh_low.le⟩
  have h1 := hxs.1; have h2 := hxs.2
  norm_num at h1 h2
  refine ⟨xs, by linarith, ?_, fun x hx hlt => ?_, fun x hlt => ?_⟩
  · unfold xmin
    rw [abs_le]; constructor <;> norm_num <;> linarith
  · rcases le_total x 1 with hx1 | hx1
    · have := hh_mono (Set.mem_Icc.2 ⟨le_rfl, zero_le_one⟩) (Set.mem_Icc.2 ⟨hx.le, hx1⟩) hx
      have e : hh 0 = 0 := by simp [hh, mu]
      linarith
    · have := hh_anti (Set.mem_Ici.2 hx1) (Set.mem_Ici.2 (by linarith : (1 : ℝ) ≤ xs)) hlt
      linarith
  · have := hh_anti (Set.mem_Ici.2 (by linarith : (1 : ℝ) ≤ xs)) (Set.mem_Ici.2 (by linarith : (1 : ℝ) ≤ x)) hlt
    linarith

theorem ratio_max (xs : ℝ) (hxs : 0 < xs) (hlo : ∀ x, 0 < x → x < xs → 0 < hh x) (hhi : ∀ x, xs < x → hh x < 0) (x : ℝ) (hx : 0 < x) (hne : x ≠ xs) :
    mu x / x < mu xs / xs := by
  rcases lt_or_gt_of_ne hne with h | h
  · have : StrictMonoOn (fun x => mu x / x) (Set.Ioc 0 xs) := by
      apply strictMonoOn_of_deriv_pos (convex_Ioc 0 xs)
      · exact fun x hx => (ratio_deriv x hx.1).continuousAt.continuousWithinAt
      · intro y hy
        rw [interior_Ioc] at hy
        rw [(ratio_deriv y hy.1).deriv]
        have := hlo y hy.1 hy.2
        have := hy.1
        positivity
    exact this ⟨hx, h.le⟩ ⟨hxs, le_rfl⟩ h
  · have : StrictAntiOn (fun x => mu x / x) (Set.Ici xs) := by
      apply strictAntiOn_of_deriv_neg (convex_Ici xs)
      · exact fun x hx => (ratio_deriv x (lt_of_lt_of_le hxs hx)).continuousAt.continuousWithinAt
      · intro y hy
        rw [interior_Ici] at hy
        have hy0 : 0 < y := lt_trans hxs hy
        rw [(ratio_deriv y hy0).deriv]
        exact div_neg_of_neg_of_pos (hhi y hy) (by positivity)
    exact this (Set.mem_Ici.2 le_rfl) (Set.mem_Ici.2 h.le) h

theorem getV_sq (G : ℝ) (hG : 0 < G) (m : Halo) (hm : m.Good) (r : ℝ) (hr : 0 < r) :
    0 < m.getV G r ∧ m.getV G r ^ 2 = G / 1000 * m.mass r / r ∧
    m.getV G r ^ 2 = G / 1000 * (4 * π * m.rho0 * m.rc ^ 2) * (mu (r / m.rc) / (r / m.rc)) := by
  have hp := pi_pos
  have hrc := hm.2; have hr0 := hm.1
  have hmu := mu_pos (r / m.rc) (by positivity)
  have hM : 0 < G / 1000 * m.mass r / r := by rw [mass_mu]; positivity
  have hsq : m.getV G r ^ 2 = G / 1000 * m.mass r / r := by
    unfold Halo.getV
    rw [← rpow_natCast, ← rpow_mul hM.le]; norm_num
  refine ⟨rpow_pos_of_pos hM _, hsq, ?_⟩
  rw [hsq, mass_mu]
  field_simp

/-- The circular velocity is that of the mass within the radius, v² r = G M(<r). -/
theorem getV_spec (G : ℝ) (hG : 0 < G) (m : Halo) (hm : m.Good) (r : ℝ) (hr : 0 < r) :
    m.getV G r ^ 2 * r = G / 1000 * massWithin (nfw m.rho0 m.rc) r := by
  rw [(getV_sq G hG m hm r hr).2.1, mass_is_mass m hm r hr.le]
  field_simp

/-- For every halo the circular velocity has exactly one maximum; `getVmax` returns a radius within 1e-6 scale radii of it, and a velocity whose square is
within one part in a million of the maximum. -/
theorem getVmax_spec (G : ℝ) (hG : 0 < G) (m : Halo) (hm : m.Good) :
    ∃ rs, 0 < rs ∧ (∀ r, 0 < r → r ≠ rs → m.getV G r < m.getV G rs) ∧ |(m.getVmax G).2 - rs| ≤ 1e-6 * m.rc ∧
      m.getV G (m.getVmax G).2 = (m.getVmax G).1 ∧ (m.getVmax G).1 ≤ m.getV G rs ∧ (1 - 1e-6) * m.getV G rs ^ 2 ≤ (m.getVmax G).1 ^ 2 := by
  obtain ⟨xs, hxs, hclose, hlo, hhi⟩ := argmax
  have hp := pi_pos
  have hrc := hm.2; have hr0 := hm.1
  have hmax : ∀ r, 0 < r → r ≠ xs * m.rc → m.getV G r < m.getV G (xs * m.rc) := by
    intro r hr hne
    have h1 := getV_sq G hG m hm r hr
    have h2 := getV_sq G hG m hm (xs * m.rc) (by positivity)
    refine lt_of_pow_lt_pow_left₀ 2 h2.1.le ?_
    rw [h1.2.2, h2.2.2, show xs * m.rc / m.rc = xs by field_simp]
    apply mul_lt_mul_of_pos_left _ (by positivity)
    exact ratio_max xs hxs hlo hhi _ (by positivity) (fun h => hne (by rw [← h]; field_simp))
  have hx0 : (2 : ℝ) < xmin := by unfold xmin; norm_num
  have hr : 0 < m.rc * xmin := by positivity
  refine ⟨xs * m.rc, by positivity, hmax, ?_, rfl, ?_, ?_⟩
  · show |m.rc * xmin - xs * m.rc| ≤ _
    rw [show m.rc * xmin - xs * m.rc = (xs - xmin) * (-m.rc) by ring, abs_mul, abs_neg, abs_of_pos hrc]
    gcongr
  · show m.getV G (m.rc * xmin) ≤ _
    rcases eq_or_ne (m.rc * xmin) (xs * m.rc) with h | h
    · rw [h]
    · exact (hmax _ hr h).le
  · show _ ≤ m.getV G (m.rc * xmin) ^ 2
    rw [(getV_sq G hG m hm _ hr).2.2, (getV_sq G hG m hm (xs * m.rc) (by positivity)).2.2, show xs * m.rc / m.rc = xs by field_simp,
      show m.rc * xmin / m.rc = xmin by field_simp]
    have key : (1 - 1e-6) * (mu xs / xs) ≤ mu xmin / xmin := by
      have hms := mu_pos xs hxs
      have h12 := abs_le.1 hclose
      have hx0' : 0 < xmin := by linarith
      rcases le_total xs xmin with h | h
      · have hmono : mu xs ≤ mu xmin := mu_mono.monotoneOn (Set.mem_Ici.2 hxs.le) (Set.mem_Ici.2 hx0'.le) h
        rw [le_div_iff₀ hx0']
        have h3 : (1 - 1e-6) * xmin ≤ xs := by
          have := h12.1; norm_num at this ⊢; linarith
        calc (1 - 1e-6) * (mu xs / xs) * xmin = ((1 - 1e-6) * xmin) * (mu xs / xs) := by ring
          _ ≤ xs * (mu xs / xs) := by gcongr
          _ = mu xs := by field_simp
          _ ≤ mu xmin := hmono
      · have hanti : mu xs / xs ^ 3 ≤ mu xmin / xmin ^ 3 := mu_cube_anti.antitoneOn (Set.mem_Ioi.2 hx0') (Set.mem_Ioi.2 hxs) h
        have h3 : (1 - 1e-6) * xs ^ 2 ≤ xmin ^ 2 := by
          have h5 : xs - 1e-6 ≤ xmin := by linarith [h12.2]
          have h6 : 2 < xs := by linarith
          norm_num at h5 ⊢
          nlinarith
        calc (1 - 1e-6) * (mu xs / xs) = ((1 - 1e-6) * xs ^ 2) * (mu xs / xs ^ 3) := by field_simp
          _ ≤ xmin ^ 2 * (mu xs / xs ^ 3) := by gcongr
          _ ≤ xmin ^ 2 * (mu xmin / xmin ^ 3) := by gcongr
          _ = mu xmin / xmin := by field_simp
    calc (1 - 1e-6) * (G / 1000 * (4 * π * m.rho0 * m.rc ^ 2) * (mu xs / xs))
        = (G / 1000 * (4 * π * m.rho0 * m.rc ^ 2)) * ((1 - 1e-6) * (mu xs / xs)) := by ring
      _ ≤ _ := by gcongr

/-- A halo made for a radius of maximum velocity has its maximum elsewhere: a tenth of a percent farther out, for every radius and whatever the minimiser
finds; and `getC` answers the concentration of the first guess. -/
theorem createVmaxRvmax_radius_counterexample (k : Cosmo) (inv : Inv) (H0 G vmax rvmax opt : ℝ) (hr : 0 < rvmax) :
    ((createVmaxRvmax k inv H0 vmax rvmax opt).getVmax G).2 = xmin / 2.16 * rvmax ∧
    1.001 * rvmax < ((createVmaxRvmax k inv H0 vmax rvmax opt).getVmax G).2 ∧
    ∀ z, (createVmaxRvmax k inv H0 vmax rvmax opt).getC k inv z = mvirToCvir H0 (vmaxToMvir k vmax 0) 0 := by
  have e : ((createVmaxRvmax k inv H0 vmax rvmax opt).getVmax G).2 = xmin / 2.16 * rvmax := by
    simp only [createVmaxRvmax, Halo.getVmax]; ring
  refine ⟨e, ?_, fun _ => rfl⟩
  rw [e]
  have : (1.001 : ℝ) < xmin / 2.16 := by unfold xmin; norm_num
  gcongr

/-! ## Scalings -/

theorem cube_root (x : ℝ) (hx : 0 ≤ x) : (x ^ (1 / 3 : ℝ)) ^ 3 = x := by
  rw [← rpow_natCast, ← rpow_mul hx]; norm_num

theorem root_cube (x : ℝ) (hx : 0 ≤ x) : (x ^ 3) ^ (1 / 3 : ℝ) = x := by
  rw [← rpow_natCast, ← rpow_mul hx]; norm_num

/-- Conditions on the cosmology and redshift for the scalings. -/
def Scales (k : Cosmo) (z : ℝ) : Prop := 0 < k.h ∧ 0 < k.omega ∧ 0 < k.deltavir z ∧ -1 < z

/-- Radius and mass: the scalings are inverse to each other. -/
theorem rvir_mvir (k : Cosmo) (z : ℝ) (hk : Scales k z) :
    (∀ M, 0 < M → rvirToMvir k (mvirToRvir k M z) z = M) ∧ ∀ R, 0 < R → mvirToRvir k (rvirToMvir k R z) z = R := by
  obtain ⟨h1, h2, h3, h4⟩ := hk
  have hz : 0 < 1 + z := by linarith
  set d := k.omega * k.deltavir z / 97.2 with hd
  have hd0 : 0 < d := by positivity
  have hneg : d ^ (-1 / 3 : ℝ) = (d ^ (1 / 3 : ℝ))⁻¹ := by rw [← rpow_neg hd0.le]; norm_num
  have hdr : 0 < d ^ (1 / 3 : ℝ) := rpow_pos_of_pos hd0 _
  have hd3 := cube_root d hd0.le
  constructor
  · intro M hM
    have hM3 := cube_root (M * k.h / 1e12) (by positivity)
    unfold rvirToMvir mvirToRvir
    rw [← hd, hneg]
    have e : 203.4 / k.h * (d ^ (1 / 3 : ℝ))⁻¹ * (M * k.h / 1e12) ^ (1 / 3 : ℝ) / (1 + z) * k.h * (1 + z) / 203.4 =
        (M * k.h / 1e12) ^ (1 / 3 : ℝ) / d ^ (1 / 3 : ℝ) := by field_simp
    rw [e, div_pow, hM3, hd3]
    field_simp
  · intro R hR
    unfold rvirToMvir mvirToRvir
    rw [← hd, hneg]
    have e : 1e12 / k.h * d * (R * k.h * (1 + z) / 203.4) ^ 3 * k.h / 1e12 = (d ^ (1 / 3 : ℝ) * (R * k.h * (1 + z) / 203.4)) ^ 3 := by
      rw [mul_pow, hd3]; field_simp
    rw [e, root_cube _ (by positivity)]
    field_simp

/-- Mass and velocity: inverse to each other. -/
theorem mvir_vvir (k : Cosmo) (z : ℝ) (hk : Scales k z) :
    (∀ M, 0 < M → vvirToMvir k (mvirToVvir k M z) z = M) ∧ ∀ V, 0 < V → mvirToVvir k (vvirToMvir k V z) z = V := by
  obtain ⟨h1, h2, h3, h4⟩ := hk
  have hz : 0 < 1 + z := by linarith
  set d := k.omega * k.deltavir z / 97.2 with hd
  have hd0 : 0 < d := by positivity
  have hneg : d ^ (-0.5 : ℝ) = ((d ^ (1 / 6 : ℝ)) ^ 3)⁻¹ := by
    rw [← rpow_natCast, ← rpow_mul hd0.le, ← rpow_neg hd0.le]; norm_num
  have hzneg : (1 + z) ^ (-1.5 : ℝ) = (((1 + z) ^ (0.5 : ℝ)) ^ 3)⁻¹ := by
    rw [← rpow_natCast, ← rpow_mul hz.le, ← rpow_neg hz.le]; norm_num
  have hdr : 0 < d ^ (1 / 6 : ℝ) := rpow_pos_of_pos hd0 _
  have hzr : 0 < (1 + z) ^ (0.5 : ℝ) := rpow_pos_of_pos hz _
  constructor
  · intro M hM
    have hM3 := cube_root (M * k.h / 1e12) (by positivity)
    unfold vvirToMvir mvirToVvir
    rw [← hd, hneg, hzneg]
    have e : 143.8 * d ^ (1 / 6 : ℝ) * (M * k.h / 1e12) ^ (1 / 3 : ℝ) * (1 + z) ^ (0.5 : ℝ) / 143.8 =
        d ^ (1 / 6 : ℝ) * (M * k.h / 1e12) ^ (1 / 3 : ℝ) * (1 + z) ^ (0.5 : ℝ) := by field_simp
    rw [e, mul_pow, mul_pow, hM3]
    field_simp
  · intro V hV
    unfold vvirToMvir mvirToVvir
    rw [← hd, hneg, hzneg]
    have e : ((d ^ (1 / 6 : ℝ)) ^ 3)⁻¹ * (((1 + z) ^ (0.5 : ℝ)) ^ 3)⁻¹ * 1e12 * (V / 143.8) ^ 3 / k.h * k.h / 1e12 =
        (V / 143.8 / (d ^ (1 / 6 : ℝ)) / (1 + z) ^ (0.5 : ℝ)) ^ 3 := by
      field_simp
    rw [e, root_cube _ (by positivity)]
    field_simp

/-- Virial and maximum velocity: inverse to each other. -/
theorem vvir_vmax (V : ℝ) (hV : 0 < V) : vmaxToVvir (vvirToVmax V) = V ∧ vvirToVmax (vmaxToVvir V) = V := by
  unfold vmaxToVvir vvirToVmax
  constructor
  · rw [← rpow_mul (by positivity), show (1 / 1.1 * 1.1 : ℝ) = 1 by norm_num, rpow_one]
    field_simp
  · rw [show (0.468 * V ^ (1.1 : ℝ) / 0.468 : ℝ) = V ^ (1.1 : ℝ) by field_simp, ← rpow_mul hV.le, show (1.1 * (1 / 1.1) : ℝ) = 1 by norm_num, rpow_one]

/-- Mass and maximum velocity: inverse to each other at every redshift. -/
theorem mvir_vmax (k : Cosmo) (z : ℝ) (hk : Scales k z) :
    (∀ M, 0 < M → vmaxToMvir k (mvirToVmax k M z) z = M) ∧ ∀ V, 0 < V → mvirToVmax k (vmaxToMvir k V z) z = V := by
  have hz : 0 < 1 + z := by linarith [hk.2.2.2]
  have ⟨h1, h2, h3, h4⟩ := hk
  constructor
  · intro M hM
    unfold vmaxToMvir mvirToVmax
    have hV : 0 < mvirToVvir k M z := by
      unfold mvirToVvir
      have := rpow_pos_of_pos (show 0 < k.omega * k.deltavir z / 97.2 by positivity) (1 / 6 : ℝ)
      have := rpow_pos_of_pos (show 0 < M * k.h / 1e12 by positivity) (1 / 3 : ℝ)
      have := rpow_pos_of_pos hz (0.5 : ℝ)
      positivity
    rw [(vvir_vmax _ hV).1, (mvir_vvir k z hk).1 M hM]
  · intro V hV
    unfold vmaxToMvir mvirToVmax
    have hV2 : 0 < vmaxToVvir V := by
      unfold vmaxToVvir
      have := rpow_pos_of_pos hV (1.1 : ℝ)
      positivity
    rw [(mvir_vvir k z hk).2 _ hV2, (vvir_vmax V hV).2]

/-- The radius of a maximum velocity uses the mass at redshift 0: it is the composition of the scalings only if the two masses agree. -/
theorem vmax_rvir_redshift (k : Cosmo) (V z : ℝ) (hk : Scales k z) (hk0 : Scales k 0) (hV : 0 < V) :
    vmaxToRvir k V z = mvirToRvir k (vmaxToMvir k V z) z ↔ k.deltavir 0 = k.deltavir z * (1 + z) ^ 3 := by
  have hz : 0 < 1 + z := by linarith [hk.2.2.2]
  have ⟨h1, h2, h3, h4⟩ := hk
  have h30 := hk0.2.2.1
  have hV2 : 0 < vmaxToVvir V := by
    unfold vmaxToVvir
    have := rpow_pos_of_pos hV (1.1 : ℝ)
    positivity
  have hpos : ∀ y, 0 < k.deltavir y → 0 < 1 + y → 0 < vmaxToMvir k V y := by
    intro y hy hy1
    unfold vmaxToMvir vvirToMvir
    have := rpow_pos_of_pos (show 0 < k.omega * k.deltavir y / 97.2 by positivity) (-0.5 : ℝ)
    have := rpow_pos_of_pos hy1 (-1.5 : ℝ)
    positivity
  have step1 : vmaxToRvir k V z = mvirToRvir k (vmaxToMvir k V z) z ↔ vmaxToMvir k V 0 = vmaxToMvir k V z := by
    unfold vmaxToRvir
    constructor
    · intro h
      have := congrArg (fun R => rvirToMvir k R z) h
      rwa [(rvir_mvir k z hk).1 _ (hpos 0 h30 (by norm_num)), (rvir_mvir k z hk).1 _ (hpos z h3 hz)] at this
    · intro h; rw [h]
  have hform : ∀ y, 0 < k.deltavir y → 0 < 1 + y →
      vmaxToMvir k V y = ((k.omega / 97.2) * (k.deltavir y * (1 + y) ^ 3)) ^ (-0.5 : ℝ) * (1e12 * (vmaxToVvir V / 143.8) ^ 3 / k.h) := by
    intro y hy hy1
    unfold vmaxToMvir vvirToMvir
    have e : (k.omega / 97.2) * (k.deltavir y * (1 + y) ^ 3) = (k.omega * k.deltavir y / 97.2) * (1 + y) ^ 3 := by ring
    rw [e, mul_rpow (by positivity) (by positivity), ← rpow_natCast (1 + y) 3, ← rpow_mul hy1.le, show ((3 : ℕ) : ℝ) * -0.5 = -1.5 by norm_num]
    ring
  rw [step1, hform 0 h30 (by norm_num), hform z h3 hz]
  have hC : (1e12 * (vmaxToVvir V / 143.8) ^ 3 / k.h) ≠ 0 := by positivity
  rw [mul_left_inj' hC]
  constructor
  · intro h
    have h5 := (rpow_left_inj (by positivity) (by positivity) (show (-0.5 : ℝ) ≠ 0 by norm_num)).1 h
    have h6 : k.omega / 97.2 ≠ 0 := by positivity
    have := mul_left_cancel₀ h6 h5
    norm_num at this
    exact this
  · intro h
    rw [h]; norm_num

/-- A positive concentration scaling: at least 4, and falling with mass. -/
theorem mvirToCvir_spec (H0 z : ℝ) (hH : 0 < H0) (hz : -1 < z) (M M' : ℝ) (hM : 0 < M) (h : M ≤ M') :
    4 ≤ mvirToCvir H0 M z ∧ mvirToCvir H0 M' z ≤ mvirToCvir H0 M z := by
  have hz' : 0 < 1 + z := by linarith
  have hmono : 9.6 * (M' * (H0 / 72) / 1e13) ^ (-0.13 : ℝ) * (1 + z) ^ (-1 : ℤ) ≤ 9.6 * (M * (H0 / 72) / 1e13) ^ (-0.13 : ℝ) * (1 + z) ^ (-1 : ℤ) := by
    have : (M' * (H0 / 72) / 1e13) ^ (-0.13 : ℝ) ≤ (M * (H0 / 72) / 1e13) ^ (-0.13 : ℝ) :=
      rpow_le_rpow_of_nonpos (by positivity) (by gcongr) (by norm_num)
    gcongr
  simp only [mvirToCvir]
  constructor
  · split_ifs with h1
    · exact h1.le
    · exact le_rfl
  · split_ifs with h1 h2 h2
    · exact hmono
    · linarith
    · exact h2.le
    · exact le_rfl

/-- `create_Mvir(M,z)`: M is the mass within the radius of the scaling; `create_Rvir(R,z)` gives the same halo for that radius; the concentration read back is that of the scaling. -/
theorem create_spec (k : Cosmo) (inv : Inv) (H0 M z : ℝ) (hH : 0 < H0) (hM : 0 < M) (hk : Scales k z) :
    massWithin (nfw (createMvir k inv H0 M z).rho0 (createMvir k inv H0 M z).rc) (mvirToRvir k M z) = M ∧
    (∀ z', (createMvir k inv H0 M z).getC k inv z' = mvirToCvir H0 M z) ∧
    createRvir k inv H0 (mvirToRvir k M z) z = createMvir k inv H0 M z := by
  have ⟨h1, h2, h3, h4⟩ := hk
  have hz : 0 < 1 + z := by linarith
  have hc : 0 < mvirToCvir H0 M z := by
    have := (mvirToCvir_spec H0 z hH h4 M M hM le_rfl).1; linarith
  have hR : 0 < mvirToRvir k M z := by
    unfold mvirToRvir
    have := rpow_pos_of_pos (show 0 < k.omega * k.deltavir z / 97.2 by positivity) (-1 / 3 : ℝ)
    have := rpow_pos_of_pos (show 0 < M * k.h / 1e12 by positivity) (1 / 3 : ℝ)
    positivity
  refine ⟨(setC_both k inv _ _ _ M 0 hc hR hM).2.1, fun _ => rfl, ?_⟩
  unfold createRvir createMvir
  rw [(rvir_mvir k z hk).1 M hM]

/-- `Cvir_to_Mvir`, and with it `create_Cvir`, always fails. -/
theorem cvir_fails_counterexample (k : Cosmo) (inv : Inv) (C z : ℝ) : cvirToMvir C z = .error .name ∧ createCvir k inv C z = .error .name := ⟨rfl, rfl⟩

/-- Example: a physical cosmology, a halo of concentration 10 and mass 1e12. -/
example (inv : Inv) (hi : Sound inv) : (⟨fun _ => 1.4e11, fun _ => 337, 0.7, 0.3⟩ : Cosmo).Good 0 ∧ (Halo.mk 1 1 none).Good ∧
    ((Halo.mk 1 1 none).setC ⟨fun _ => 1.4e11, fun _ => 337, 0.7, 0.3⟩ inv 10 none (some 1e12) 0).getC ⟨fun _ => 1.4e11, fun _ => 337, 0.7, 0.3⟩ inv 0 = 10 := by
  have hk : (⟨fun _ => 1.4e11, fun _ => 337, 0.7, 0.3⟩ : Cosmo).Good 0 := by constructor <;> norm_num
  exact ⟨hk, by constructor <;> norm_num, (setC_mass _ inv hi _ 10 1e12 0 (by norm_num) (by norm_num) hk).2.2.2.1 rfl⟩

/-- Example: a sound inverse exists. -/
example : ∃ inv : Inv, Sound inv := by
  classical
  have : ∀ (f : ℝ → ℝ) (y x0 : ℝ), ∃ r, (∃! r, 0 < r ∧ f r = y) → 0 < r ∧ f r = y := by
    intro f y x0
    by_cases h : ∃! r, 0 < r ∧ f r = y
    · obtain ⟨r, hr, _⟩ := h; exact ⟨r, fun _ => hr⟩
    · exact ⟨0, fun h' => absurd h' h⟩
  choose inv hinv using this
  exact ⟨inv, hinv⟩

end Verif.Nfw
