import Verif.Schechter
import Mathlib.Analysis.Complex.ExponentialBounds

/-!
# Sersic and de Vaucouleurs profiles (astropysics/models.py 1361-1510) (C115)
-/

namespace Verif.Sersic

open Real Filter Topology MeasureTheory Verif.Profiles Verif.Schechter

/-! ## Model -/

/-- The class attributes `_exactbn` and `_bncache`, models.py 1395-1396. -/
structure Cls where
  exact : Bool
  cache : List (ℝ × ℝ)

/-- `bn_exact` (`gammaincinv(2n,0.5)`) is a parameter. -/
abbrev BnExact := ℝ → ℝ

/-- `bn_estimate`, models.py 1448-1462. -/
noncomputable def bnEstimate (n : ℝ) : ℝ :=
  if 0.36 < n then 2 * n + ((((-2194697 / 30690717750 * (1 / n) + 131 / 1148175) * (1 / n) + 46 / 25515) * (1 / n) + 4 / 405) * (1 / n) + -1 / 3)
  else (((13.43 * n - 19.67) * n + 10.95) * n - 0.8902) * n + 0.01945

/-- What is computed when the value is not cached. -/
noncomputable def bnOf (ex : BnExact) (exact : Bool) (n : ℝ) : ℝ := if exact then ex n else bnEstimate n

open Classical in
/-- Lookup in the cache. -/
noncomputable def find (n : ℝ) : List (ℝ × ℝ) → Option ℝ
  | [] => none
  | (k, v) :: t => if k = n then some v else find n t

/-- `getBn()` for index n, models.py 1397-1417: the value and the class afterwards. -/
noncomputable def Cls.getBn (ex : BnExact) (k : Cls) (n : ℝ) : ℝ × Cls :=
  match find n k.cache with
  | some b => (b, k)
  | none => (bnOf ex k.exact n, { k with cache := (n, bnOf ex k.exact n) :: k.cache })

/-- `exactBn(val)`, models.py 1419-1434. -/
def Cls.exactBn (k : Cls) : Option Bool → Bool × Cls
  | none => (k.exact, k)
  | some v => (v, ⟨v, []⟩)

/-- A user's operations on any models of the class. -/
inductive Op where
  | bn (n : ℝ)
  | exact (v : Option Bool)

noncomputable def Cls.step (ex : BnExact) (k : Cls) : Op → Cls
  | .bn n => (k.getBn ex n).2
  | .exact v => (k.exactBn v).2

/-- The class as imported, models.py 1395-1396. -/
def Cls.init : Cls := ⟨true, []⟩

/-- The profile `f(r,Ae,re,n)` with b = `getBn()`, models.py 1379-1382: b belongs to the index of the object, n is the argument. -/
noncomputable def sersicWith (b r Ae re n : ℝ) : ℝ := Ae * exp (-b * ((r / re) ^ (1 / n) - 1))

/-- An object: its parameters. -/
structure Obj where
  Ae : ℝ
  re : ℝ
  n : ℝ

/-- Calling the object, `self(r)`. -/
noncomputable def Obj.call (b : ℝ → ℝ) (o : Obj) (r : ℝ) : ℝ := sersicWith (b o.n) r o.Ae o.re o.n

/-- `A0` and its setter, models.py 1388-1392. -/
noncomputable def Obj.getA0 (b : ℝ → ℝ) (o : Obj) : ℝ := sersicWith (b o.n) 0 o.Ae o.re o.n
noncomputable def Obj.setA0 (b : ℝ → ℝ) (o : Obj) (v : ℝ) : Obj := { o with Ae := o.Ae * (v / sersicWith (b o.n) 0 o.Ae o.re o.n) }

/-- `sbfit` passes fluxes and `sbplot` plots surface brightnesses, models.py 1471, 1493. -/
noncomputable def sbToFlux (zpt sb : ℝ) : ℝ := 10 ^ ((zpt - sb) / 2.5)
noncomputable def fluxToSb (zpt f : ℝ) : ℝ := zpt - 2.5 * (log f / log 10)

/-- `DeVaucouleursModel.f`, models.py 1507-1508: `getBn` reads `self.n`, which an object has only if n is one of its parameters; those of this class are Ae and re. -/
inductive Err where
  | attribute
  deriving DecidableEq
noncomputable def deVaucouleurs (b : ℝ → ℝ) (selfN : Option ℝ) (r Ae re : ℝ) : Except Err ℝ :=
  match selfN with
  | none => .error .attribute
  | some n => .ok (sersicWith (b n) r Ae re 4)

/-! ## The cache -/

/-- The choice an operation makes, if any. -/
def Op.choice : Op → Option Bool
  | .exact v => v
  | .bn _ => none

/-- Every cached value is the one that would be computed now. -/
def Cls.Fresh (ex : BnExact) (k : Cls) : Prop := ∀ n b, find n k.cache = some b → b = bnOf ex k.exact n

theorem step_fresh (ex : BnExact) (k : Cls) (o : Op) (h : k.Fresh ex) : (k.step ex o).Fresh ex := by
  cases o with
  | bn n =>
    simp only [Cls.step, Cls.getBn]
    cases hf : find n k.cache with
    | some b => exact h
    | none =>
      intro m b hm
      simp only [find] at hm
      split_ifs at hm with he
      · subst he; cases hm; rfl
      · exact h m b hm
  | exact v =>
    cases v with
    | none => exact h
    | some v => intro m b hm; simp [Cls.step, Cls.exactBn, find] at hm

/-- After any sequence of operations the coefficient returned is the one of the method chosen last (the exact one at the start): the cache never shows. -/
theorem cache_transparent (ex : BnExact) (ops : List Op) (n : ℝ) :
    ((ops.foldl (Cls.step ex) Cls.init).getBn ex n).1 =
      bnOf ex (((ops.filterMap Op.choice).getLast?).getD true) n := by
  have key : ∀ (ops : List Op) (k : Cls), k.Fresh ex → (ops.foldl (Cls.step ex) k).Fresh ex ∧
      (ops.foldl (Cls.step ex) k).exact = ((ops.filterMap Op.choice).getLast?).getD k.exact := by
    intro ops
    induction ops with
    | nil => intro k h; exact ⟨h, rfl⟩
    | cons o ops ih =>
      intro k h
      have hs := step_fresh ex k o h
      obtain ⟨h1, h2⟩ := ih _ hs
      refine ⟨h1, ?_⟩
      rw [List.foldl_cons, h2]
      cases o with
      | bn n =>
        have : (k.step ex (.bn n)).exact = k.exact := by
          simp only [Cls.step, Cls.getBn]
          cases find n k.cache <;> rfl
        rw [this]; rfl
      | exact v =>
        cases v with
        | none => rfl
        | some v =>
          have : Op.choice (.exact (some v)) = some v := rfl
          simp only [List.filterMap_cons, this, List.getLast?_cons, Option.getD_some]
          rfl
  obtain ⟨h1, h2⟩ := key ops Cls.init (fun n b h => by simp [Cls.init, find] at h)
  unfold Cls.getBn
  cases hf : find n (ops.foldl (Cls.step ex) Cls.init).cache with
  | some b => rw [h1 n b hf, h2]; rfl
  | none => simp only; rw [h2]; rfl

/-! ## The profile -/

/-- The value at the effective radius is Ae, whatever the index and coefficient. -/
theorem at_re (b Ae re n : ℝ) (hre : re ≠ 0) : sersicWith b re Ae re n = Ae := by
  simp [sersicWith, div_self hre]

/-- The central value set is the central value read, and the shape does not change. -/
theorem setA0_spec (b : ℝ → ℝ) (o : Obj) (v : ℝ) (hA : o.Ae ≠ 0) (hn : o.n ≠ 0) :
    (o.setA0 b v).getA0 b = v ∧ (o.setA0 b v).re = o.re ∧ (o.setA0 b v).n = o.n ∧ ∀ r, (o.setA0 b v).call b r * o.getA0 b = v * o.call b r := by
  have h0 : sersicWith (b o.n) 0 o.Ae o.re o.n = o.Ae * exp (b o.n) := by
    unfold sersicWith; rw [zero_div, zero_rpow (one_div_ne_zero hn)]; congr 2; ring
  have he := (exp_pos (b o.n)).ne'
  refine ⟨?_, rfl, rfl, fun r => ?_⟩
  · simp only [Obj.setA0, Obj.getA0]
    rw [h0]
    have : ∀ A, sersicWith (b o.n) 0 A o.re o.n = A * exp (b o.n) := fun A => by
      unfold sersicWith; rw [zero_div, zero_rpow (one_div_ne_zero hn)]; congr 2; ring
    rw [this]
    field_simp
  · simp only [Obj.setA0, Obj.getA0, Obj.call]
    rw [h0]
    unfold sersicWith
    field_simp

/-- It is the Einasto profile with other parameters. -/
theorem sersic_einasto (b Ae re n r : ℝ) (hb : 0 < b) (hre : 0 < re) (hn : 0 < n) (hr : 0 ≤ r) :
    sersicWith b r Ae re n = einasto (Ae * exp (b - 2 * n)) (re * (2 * n / b) ^ n) (1 / n) r := by
  unfold sersicWith einasto
  have e : (r / (re * (2 * n / b) ^ n)) ^ (1 / n) = (r / re) ^ (1 / n) * (b / (2 * n)) := by
    rw [← div_div, div_rpow (by positivity) (by positivity), ← rpow_mul (by positivity), mul_one_div_cancel hn.ne', rpow_one]
    field_simp
  rw [e, mul_assoc, ← exp_add]
  congr 2
  field_simp
  ring

/-- The light within a radius: 2 pi n re² Ae e^b b^(-2n) times the incomplete gamma function of 2n at b (R/re)^(1/n). -/
theorem sersic_light (b Ae re n R : ℝ) (hb : 0 < b) (hA : 0 ≤ Ae) (hre : 0 < re) (hn : 0 < n) (hR : 0 ≤ R) :
    lightWithin (fun r => sersicWith b r Ae re n) R =
      2 * π * n * re ^ 2 * Ae * exp b * b ^ (-(2 * n)) * lowerGamma (2 * n) (b * (R / re) ^ (1 / n)) := by
  have hp := pi_pos
  have h2n : 0 < 2 * n := by positivity
  set K := 2 * π * n * re ^ 2 * Ae * exp b * b ^ (-(2 * n)) with hK
  have hinv : 0 < 1 / n := by positivity
  refine integral_of_deriv _ (fun R => K * lowerGamma (2 * n) (b * (R / re) ^ (1 / n))) R hR ?_ ?_ ?_ ?_
  · beta_reduce; rw [zero_div, zero_rpow hinv.ne', mul_zero, lowerGamma_zero, mul_zero]
  · apply ContinuousOn.mul continuousOn_const
    have hc := lowerGamma_continuousOn (2 * n) h2n (b * (R / re) ^ (1 / n)) (by positivity)
    refine hc.comp (f := fun R => b * (R / re) ^ (1 / n)) ?_ ?_
    · apply ContinuousOn.mul continuousOn_const
      apply ContinuousOn.rpow_const (by fun_prop)
      intro x _; right; exact hinv.le
    · intro x hx
      have hx0 := hx.1
      refine ⟨by positivity, ?_⟩
      have : (x / re) ^ (1 / n) ≤ (R / re) ^ (1 / n) := rpow_le_rpow (by positivity) (by have := hx.2; gcongr) hinv.le
      exact mul_le_mul_of_nonneg_left this hb.le
  · intro x hx
    have hx1 : 0 < x / re := by positivity
    have hq : HasDerivAt (fun r : ℝ => r / re) (1 / re) x := (hasDerivAt_id x).div_const re
    have hy : HasDerivAt (fun r : ℝ => b * (r / re) ^ (1 / n)) _ x := (hq.rpow_const (p := 1 / n) (Or.inl hx1.ne')).const_mul b
    have hY : 0 < b * (x / re) ^ (1 / n) := by have := rpow_pos_of_pos hx1 (1 / n); positivity
    have hd := ((lowerGamma_deriv (2 * n) _ h2n hY).comp x hy).const_mul K
    refine hd.congr_deriv ?_
    have e1 : (b * (x / re) ^ (1 / n)) ^ (2 * n - 1) = b ^ (2 * n - 1) * (x / re) ^ (2 - 1 / n) := by
      rw [mul_rpow hb.le (rpow_nonneg hx1.le _), ← rpow_mul hx1.le]
      congr 2
      field_simp
    have e2 : (x / re) ^ (2 - 1 / n) * (x / re) ^ (1 / n - 1) = x / re := by
      rw [← rpow_add hx1]; norm_num
    have e3 : b ^ (-(2 * n)) * (b ^ (2 * n - 1) * b) = 1 := by
      rw [← rpow_add_one hb.ne', ← rpow_add hb]; norm_num
    rw [e1, hK]
    unfold sersicWith
    beta_reduce
    have e4 : exp (-b * ((x / re) ^ (1 / n) - 1)) = exp (-(b * (x / re) ^ (1 / n))) * exp b := by
      rw [← exp_add]; congr 1; ring
    rw [e4]
    have : 2 * π * n * re ^ 2 * Ae * exp b * b ^ (-(2 * n)) *
        (exp (-(b * (x / re) ^ (1 / n))) * (b ^ (2 * n - 1) * (x / re) ^ (2 - 1 / n)) * (b * (1 / re * (1 / n) * (x / re) ^ (1 / n - 1)))) =
        2 * π * n * re ^ 2 * Ae * exp b * exp (-(b * (x / re) ^ (1 / n))) * (b ^ (-(2 * n)) * (b ^ (2 * n - 1) * b)) *
          ((x / re) ^ (2 - 1 / n) * (x / re) ^ (1 / n - 1)) * (1 / re * (1 / n)) := by ring
    rw [this, e2, e3]
    field_simp
  · intro x hx
    unfold sersicWith
    positivity

/-- The total light. -/
theorem sersic_total (b Ae re n : ℝ) (hb : 0 < b) (hA : 0 ≤ Ae) (hre : 0 < re) (hn : 0 < n) :
    Tendsto (lightWithin fun r => sersicWith b r Ae re n) atTop (𝓝 (2 * π * n * re ^ 2 * Ae * exp b * b ^ (-(2 * n)) * Gamma (2 * n))) := by
  have h2n : 0 < 2 * n := by positivity
  have hy : Tendsto (fun R : ℝ => b * (R / re) ^ (1 / n)) atTop atTop :=
    ((tendsto_rpow_atTop (by positivity : 0 < 1 / n)).comp (tendsto_id.atTop_div_const hre)).const_mul_atTop hb
  have h := ((lowerGamma_tendsto (2 * n) h2n).comp hy).const_mul (2 * π * n * re ^ 2 * Ae * exp b * b ^ (-(2 * n)))
  refine h.congr' ?_
  filter_upwards [eventually_ge_atTop 0] with R hR
  rw [sersic_light b Ae re n R hb hA hre hn hR]; rfl

/-- Half of the total light is within re exactly if the coefficient is the solution of gammainc(2n,b) = 1/2. -/
theorem half_light (b Ae re n : ℝ) (hb : 0 < b) (hA : 0 < Ae) (hre : 0 < re) (hn : 0 < n) :
    (∀ T, Tendsto (lightWithin fun r => sersicWith b r Ae re n) atTop (𝓝 T) → lightWithin (fun r => sersicWith b r Ae re n) re = T / 2) ↔
      gammainc (2 * n) b = 0.5 := by
  have hp := pi_pos
  have h2n : 0 < 2 * n := by positivity
  have hg := Gamma_pos_of_pos h2n
  have hbp := rpow_pos_of_pos hb (-(2 * n))
  have ht := sersic_total b Ae re n hb hA.le hre hn
  have hl := sersic_light b Ae re n re hb hA.le hre hn hre.le
  rw [div_self hre.ne', one_rpow, mul_one] at hl
  set K := 2 * π * n * re ^ 2 * Ae * exp b * b ^ (-(2 * n)) with hK
  have hKp : 0 < K := by positivity
  unfold gammainc
  constructor
  · intro h
    have := h _ ht
    rw [hl] at this
    rw [div_eq_iff hg.ne']
    have h3 : K * lowerGamma (2 * n) b = K * (0.5 * Gamma (2 * n)) := by rw [this]; ring
    exact mul_left_cancel₀ hKp.ne' h3
  · intro h T hT
    rw [tendsto_nhds_unique hT ht, hl]
    rw [div_eq_iff hg.ne'] at h
    rw [h]; ring

/-- That equation has exactly one positive solution for every index, so `gammaincinv` is well defined. -/
theorem exact_bn_unique (n : ℝ) (hn : 0 < n) : ∃! b, 0 < b ∧ gammainc (2 * n) b = 0.5 := by
  have h2n : 0 < 2 * n := by positivity
  have hg := Gamma_pos_of_pos h2n
  have hlim := lowerGamma_tendsto (2 * n) h2n
  have hev : ∀ᶠ x in atTop, Gamma (2 * n) / 2 < lowerGamma (2 * n) x := hlim.eventually_const_lt (by linarith)
  obtain ⟨X, hX, hX0⟩ := (hev.and (eventually_gt_atTop 0)).exists
  obtain ⟨b, hb, he⟩ := intermediate_value_Icc hX0.le (lowerGamma_continuousOn (2 * n) h2n X hX0.le)
    (show Gamma (2 * n) / 2 ∈ Set.Icc (lowerGamma (2 * n) 0) (lowerGamma (2 * n) X) by rw [lowerGamma_zero]; exact ⟨by positivity, hX.le⟩)
  have hb0 : 0 < b := by
    rcases hb.1.lt_or_eq with h | h
    · exact h
    · rw [← h, lowerGamma_zero] at he; linarith
  refine ⟨b, ⟨hb0, ?_⟩, ?_⟩
  · unfold gammainc; rw [he]; field_simp; norm_num
  · rintro c ⟨hc0, hc⟩
    unfold gammainc at hc
    rw [div_eq_iff hg.ne'] at hc
    rcases lt_trichotomy c b with h | h | h
    · have := lowerGamma_mono (2 * n) h2n c b hc0.le h; norm_num at hc; linarith
    · exact h
    · have := lowerGamma_mono (2 * n) h2n b c hb0.le h; norm_num at hc; linarith

/-- With the exact coefficient (the default) and any history, an object of the class encloses half its light within re. -/
theorem default_half_light (ex : BnExact) (hex : ∀ n, 0 < n → 0 < ex n ∧ gammainc (2 * n) (ex n) = 0.5) (ops : List Op)
    (hops : ∀ v, Op.exact (some v) ∈ ops → v = true) (o : Obj) (hA : 0 < o.Ae) (hre : 0 < o.re) (hn : 0 < o.n) (T : ℝ)
    (hT : Tendsto (lightWithin (o.call fun n => ((ops.foldl (Cls.step ex) Cls.init).getBn ex n).1)) atTop (𝓝 T)) :
    lightWithin (o.call fun n => ((ops.foldl (Cls.step ex) Cls.init).getBn ex n).1) o.re = T / 2 := by
  have hb : ∀ n, ((ops.foldl (Cls.step ex) Cls.init).getBn ex n).1 = ex n := by
    intro n
    rw [cache_transparent]
    have : ((ops.filterMap Op.choice).getLast?).getD true = true := by
      rcases h : (ops.filterMap Op.choice).getLast? with _ | v
      · simp
      · have hm := List.mem_of_getLast? h
        rw [List.mem_filterMap] at hm
        obtain ⟨o, ho, hv⟩ := hm
        cases o with
        | bn n => simp [Op.choice] at hv
        | exact w => simp only [Op.choice] at hv; subst hv; exact hops v ho
    rw [this]; rfl
  have e : (o.call fun n => ((ops.foldl (Cls.step ex) Cls.init).getBn ex n).1) = fun r => sersicWith (ex o.n) r o.Ae o.re o.n := by
    funext r; simp only [Obj.call, hb]
  rw [e] at hT ⊢
  exact (half_light (ex o.n) o.Ae o.re o.n (hex _ hn).1 hA hre hn).2 (hex _ hn).2 T hT

/-- The estimate at index 1/2, where the exact coefficient is log 2, is off by less than 3e-4. -/
theorem estimate_half : gammainc (2 * (1 / 2)) (log 2) = 0.5 ∧ |bnEstimate (1 / 2) - log 2| < 3e-4 := by
  constructor
  · unfold gammainc lowerGamma
    have : ∫ t in (0 : ℝ)..log 2, exp (-t) * t ^ ((2 * (1 / 2) : ℝ) - 1) = 1 / 2 := by
      have e : (fun t : ℝ => exp (-t) * t ^ ((2 * (1 / 2) : ℝ) - 1)) = fun t => exp (-t) := by
        funext t; norm_num
      rw [e]
      have hd : ∀ x ∈ Set.uIcc 0 (log 2), HasDerivAt (fun t : ℝ => -exp (-t)) (exp (-x)) x := fun x _ => by
        have := ((hasDerivAt_id x).neg.exp).neg
        refine this.congr_deriv ?_
        simp
      rw [intervalIntegral.integral_eq_sub_of_hasDerivAt hd (by apply Continuous.intervalIntegrable; fun_prop), exp_neg, exp_log (by norm_num)]
      norm_num
    rw [this]
    norm_num
  · have h1 := log_two_gt_d9
    have h2 := log_two_lt_d9
    unfold bnEstimate
    rw [if_pos (by norm_num), abs_lt]
    constructor <;> norm_num <;> linarith

/-- The coefficient in a direct call `f(r,Ae,re,n)` is that of the object's own index: away from re the value is wrong unless the coefficients agree. -/
theorem foreign_index (b b' Ae re n r : ℝ) (hA : Ae ≠ 0) (hre : 0 < re) (hr : 0 < r) (hne : r ≠ re) (hn : 0 < n) :
    sersicWith b r Ae re n = sersicWith b' r Ae re n ↔ b = b' := by
  constructor
  · intro h
    unfold sersicWith at h
    have h2 := exp_injective (mul_left_cancel₀ hA h)
    have hx : (r / re) ^ (1 / n) - 1 ≠ 0 := by
      intro h0
      have h1 : (r / re) ^ (1 / n) = 1 := by linarith
      have := congrArg (fun y => y ^ n) h1
      rw [← rpow_mul (by positivity), one_div_mul_cancel hn.ne', rpow_one, one_rpow] at this
      rw [div_eq_one_iff_eq hre.ne'] at this
      exact hne this
    have := mul_right_cancel₀ hx h2
    linarith
  · intro h; rw [h]

/-- Magnitudes: fitting and plotting use inverse conversions. -/
theorem sb_roundtrip (zpt sb f : ℝ) (hf : 0 < f) : fluxToSb zpt (sbToFlux zpt sb) = sb ∧ sbToFlux zpt (fluxToSb zpt f) = f := by
  have h10 : 0 < log 10 := log_pos (by norm_num)
  constructor
  · unfold fluxToSb sbToFlux
    rw [log_rpow (by norm_num)]
    field_simp
    ring
  · unfold fluxToSb sbToFlux
    rw [rpow_def_of_pos (by norm_num)]
    rw [show log 10 * ((zpt - (zpt - 2.5 * (log f / log 10))) / 2.5) = log f by field_simp; ring, exp_log hf]

/-- A de Vaucouleurs model has no parameter n, so its value can never be computed. -/
theorem deVaucouleurs_fails (b : ℝ → ℝ) (r Ae re : ℝ) : deVaucouleurs b none r Ae re = .error .attribute := rfl

/-- Example: index 1/2, coefficient log 2. -/
example : ∀ T, Tendsto (lightWithin fun r => sersicWith (log 2) r 3 2 (1 / 2)) atTop (𝓝 T) → lightWithin (fun r => sersicWith (log 2) r 3 2 (1 / 2)) 2 = T / 2 :=
  (half_light (log 2) 3 2 (1 / 2) (log_pos (by norm_num)) (by norm_num) (by norm_num) (by norm_num)).2 estimate_half.1

end Verif.Sersic
