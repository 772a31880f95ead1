import Verif.CosmoDist
import Mathlib.Analysis.Real.Pi.Bounds

/-!
# The virial overdensity (astropysics/constants.py 353-372) (C208)

Over the real numbers; the densities are those of `CosmoDist`.
-/

namespace Verif.DeltaVir

open Real Verif.CosmoDist

inductive Err
  | notImplemented
  deriving DecidableEq

/-- `deltavir(z)`, constants.py 353-372; `f` is the constant factor `3/(8 pi G)` of the critical density. -/
noncomputable def deltavir (p : Cosmo) (f z : ℝ) : Except Err ℝ :=
  open Classical in
  if p.K ≠ 0 then
    if p.L = 0 then
      let x := p.omegaMz f z - 1
      .ok (18 * π ^ 2 + 60 * x - 32 * x ^ 2)
    else .error .notImplemented
  else
    let x := p.omegaMz f z - 1
    .ok (18 * π ^ 2 + 82 * x - 39 * x ^ 2)

/-! ## Specification -/

/-- Matter and a cosmological constant that fill a flat universe. -/
structure Flat (p : Cosmo) : Prop where
  H0 : 0 < p.H0
  R : p.R = 0
  M : 0 < p.M
  L : 0 ≤ p.L
  sum : p.M + p.L = 1

/-- Matter alone, less than critical. -/
structure Open (p : Cosmo) : Prop where
  H0 : 0 < p.H0
  R : p.R = 0
  M : 0 < p.M
  less : p.M < 1
  L : p.L = 0

theorem Flat.K {p : Cosmo} (h : Flat p) : p.K = 0 := by
  unfold Cosmo.K; rw [h.R]; linarith [h.sum]

theorem Open.K {p : Cosmo} (h : Open p) : p.K = 1 - p.M := by
  unfold Cosmo.K; rw [h.R, h.L]; ring

theorem Flat.good {p : Cosmo} (h : Flat p) : Good p := by
  refine ⟨h.H0, fun a ha _ => ?_⟩
  unfold Cosmo.E
  rw [h.R, h.K]
  have := mul_pos h.M ha
  have := mul_nonneg h.L (by positivity : 0 ≤ a ^ 4)
  linarith

theorem Open.good {p : Cosmo} (h : Open p) : Good p := by
  refine ⟨h.H0, fun a ha _ => ?_⟩
  unfold Cosmo.E
  rw [h.R, h.K, h.L]
  have := mul_pos h.M ha
  have := mul_pos (sub_pos.2 h.less) (by positivity : 0 < a ^ 2)
  linarith

theorem omegaMz_eq (p : Cosmo) (hp : Good p) (f : ℝ) (hf : 0 < f) (z : ℝ) (hz : 0 ≤ z) :
    p.omegaMz f z = p.M * (1 + z) ^ 3 / (p.R * (1 + z) ^ 4 + p.M * (1 + z) ^ 3 + p.L + p.K * (1 + z) ^ 2) := by
  have hH0 := hp.H0
  have hz' := H_pos p hp z hz
  have hsq := H_sq p hp z hz
  have hne : p.R * (1 + z) ^ 4 + p.M * (1 + z) ^ 3 + p.L + p.K * (1 + z) ^ 2 ≠ 0 := by
    intro h
    rw [h, mul_zero] at hsq
    have := mul_pos hz' hz'
    linarith
  unfold Cosmo.omegaMz Cosmo.rhoC
  rw [hsq, H_zero]
  simp only [one_div, inv_inv]
  field_simp

/-- C208: the matter density of a flat universe at a redshift. -/
theorem flat_omega (p : Cosmo) (h : Flat p) (f : ℝ) (hf : 0 < f) (z : ℝ) (hz : 0 ≤ z) :
    p.omegaMz f z = p.M * (1 + z) ^ 3 / (p.M * (1 + z) ^ 3 + p.L) := by
  rw [omegaMz_eq p h.good f hf z hz, h.R, h.K]
  congr 1; ring

theorem open_omega (p : Cosmo) (h : Open p) (f : ℝ) (hf : 0 < f) (z : ℝ) (hz : 0 ≤ z) :
    p.omegaMz f z = p.M * (1 + z) / (p.M * (1 + z) + (1 - p.M)) := by
  rw [omegaMz_eq p h.good f hf z hz, h.R, h.K, h.L]
  have h1 : (1 + z) ^ 2 ≠ 0 := by positivity
  have h2 : p.M * (1 + z) + (1 - p.M) ≠ 0 := by
    have := mul_pos h.M (by linarith : 0 < 1 + z)
    have := h.less
    have : 0 < p.M * (1 + z) + (1 - p.M) := by linarith
    exact this.ne'
  rw [show (0 : ℝ) * (1 + z) ^ 4 + p.M * (1 + z) ^ 3 + 0 + (1 - p.M) * (1 + z) ^ 2 = (p.M * (1 + z) + (1 - p.M)) * (1 + z) ^ 2 by ring,
    show p.M * (1 + z) ^ 3 = p.M * (1 + z) * (1 + z) ^ 2 by ring]
  rw [mul_div_mul_right _ _ h1]

/-- C208: it fails exactly for curved universes with a cosmological constant. -/
theorem fails_iff (p : Cosmo) (f z : ℝ) : deltavir p f z = .error .notImplemented ↔ p.M + p.L + p.R ≠ 1 ∧ p.L ≠ 0 := by
  have hK : p.K ≠ 0 ↔ p.M + p.L + p.R ≠ 1 := by
    unfold Cosmo.K
    exact not_congr ⟨fun h => by linarith, fun h => by linarith⟩
  unfold deltavir
  rw [← hK]
  split_ifs with h1 h2 <;> simp_all

/-- C208: Bryan and Norman's fit for a flat universe, in terms of the matter density at the redshift. -/
theorem flat_value (p : Cosmo) (h : Flat p) (f : ℝ) (hf : 0 < f) (z : ℝ) (hz : 0 ≤ z) :
    ∃ om, om = p.M * (1 + z) ^ 3 / (p.M * (1 + z) ^ 3 + p.L) ∧ deltavir p f z = .ok (18 * π ^ 2 + 82 * (om - 1) - 39 * (om - 1) ^ 2) := by
  refine ⟨_, rfl, ?_⟩
  unfold deltavir
  rw [if_neg (by simp [h.K]), flat_omega p h f hf z hz]

theorem open_value (p : Cosmo) (h : Open p) (f : ℝ) (hf : 0 < f) (z : ℝ) (hz : 0 ≤ z) :
    ∃ om, om = p.M * (1 + z) / (p.M * (1 + z) + (1 - p.M)) ∧ deltavir p f z = .ok (18 * π ^ 2 + 60 * (om - 1) - 32 * (om - 1) ^ 2) := by
  refine ⟨_, rfl, ?_⟩
  unfold deltavir
  rw [if_pos (by rw [h.K]; linarith [h.less]), if_pos h.L, open_omega p h f hf z hz]

theorem frac_mono (a b c : ℝ) (ha : 0 < a) (hab : a ≤ b) (hc : 0 ≤ c) : 0 < a / (a + c) ∧ a / (a + c) ≤ b / (b + c) ∧ b / (b + c) ≤ 1 := by
  refine ⟨by positivity, ?_, ?_⟩
  · rw [div_le_div_iff₀ (by linarith) (by linarith)]
    nlinarith
  · rw [div_le_one (by linarith)]; linarith

theorem pi_big : 18 * π ^ 2 > 177 := by nlinarith [pi_gt_d2]

theorem quad (s q x y : ℝ) (hs : 0 ≤ s) (hq : 0 ≤ q) (hxy : x ≤ y) (hy : y ≤ 1) : s * (x - 1) - q * (x - 1) ^ 2 ≤ s * (y - 1) - q * (y - 1) ^ 2 := by
  have h1 : 0 ≤ s * (y - x) := mul_nonneg hs (by linarith)
  have h2 : 0 ≤ q * ((y - x) * ((1 - y) + (1 - x))) := mul_nonneg hq (mul_nonneg (by linarith) (by linarith))
  nlinarith

/-- C208: in flat and in open universes the overdensity is positive (above 56), never above 18 π², and does not fall with the redshift. -/
theorem bounds (p : Cosmo) (h : Flat p ∨ Open p) (f : ℝ) (hf : 0 < f) (z w : ℝ) (hz : 0 ≤ z) (hzw : z ≤ w) :
    ∃ d e, deltavir p f z = .ok d ∧ deltavir p f w = .ok e ∧ 56 < d ∧ d ≤ e ∧ e ≤ 18 * π ^ 2 := by
  have hpi := pi_big
  have h1 : (1 : ℝ) + z ≤ 1 + w := by linarith
  have h0 : (0 : ℝ) < 1 + z := by linarith
  rcases h with h | h
  · obtain ⟨o1, e1, d1⟩ := flat_value p h f hf z hz
    obtain ⟨o2, e2, d2⟩ := flat_value p h f hf w (by linarith)
    have hM := h.M
    have hL := h.L
    obtain ⟨q1, q2, q3⟩ := frac_mono (p.M * (1 + z) ^ 3) (p.M * (1 + w) ^ 3) p.L (by positivity)
      (mul_le_mul_of_nonneg_left (pow_le_pow_left₀ h0.le h1 3) hM.le) hL
    rw [← e1] at q1 q2; rw [← e2] at q2 q3
    refine ⟨_, _, d1, d2, ?_, ?_, ?_⟩
    · nlinarith
    · linarith [quad 82 39 o1 o2 (by norm_num) (by norm_num) q2 q3]
    · nlinarith [sq_nonneg (o2 - 1)]
  · obtain ⟨o1, e1, d1⟩ := open_value p h f hf z hz
    obtain ⟨o2, e2, d2⟩ := open_value p h f hf w (by linarith)
    have hM := h.M
    have hL := h.less
    obtain ⟨q1, q2, q3⟩ := frac_mono (p.M * (1 + z)) (p.M * (1 + w)) (1 - p.M) (by positivity) (mul_le_mul_of_nonneg_left h1 hM.le) (by linarith)
    rw [← e1] at q1 q2; rw [← e2] at q2 q3
    refine ⟨_, _, d1, d2, ?_, ?_, ?_⟩
    · nlinarith
    · linarith [quad 60 32 o1 o2 (by norm_num) (by norm_num) q2 q3]
    · nlinarith [sq_nonneg (o2 - 1)]

/-- C208: with matter alone and a flat universe it is 18 π² at every redshift. -/
theorem einstein_de_sitter (p : Cosmo) (h : Flat p) (hL : p.L = 0) (f : ℝ) (hf : 0 < f) (z : ℝ) (hz : 0 ≤ z) : deltavir p f z = .ok (18 * π ^ 2) := by
  obtain ⟨o, e, d⟩ := flat_value p h f hf z hz
  have hM := h.M
  rw [hL, add_zero, div_self (by positivity)] at e
  rw [d, e]; congr 1; ring

/-- C208: at high redshift it comes as near to 18 π² as wanted. -/
theorem high_redshift (p : Cosmo) (h : Flat p ∨ Open p) (f : ℝ) (hf : 0 < f) (ε : ℝ) (hε : 0 < ε) :
    ∃ z₀, 0 ≤ z₀ ∧ ∀ z, z₀ ≤ z → ∃ d, deltavir p f z = .ok d ∧ 18 * π ^ 2 - ε < d := by
  have hM : 0 < p.M := by rcases h with h | h <;> exact h.M
  refine ⟨121 / (ε * p.M) + 1 / p.M, by positivity, fun z hz => ?_⟩
  have hz0 : 0 ≤ z := le_trans (by positivity) hz
  have hb : 121 < ε * (p.M * (1 + z)) := by
    have h1 : 121 / (ε * p.M) < 1 + z := by
      have : 0 < 1 / p.M := by positivity
      linarith
    rw [div_lt_iff₀ (by positivity)] at h1
    nlinarith
  have key : ∀ (a c s q : ℝ), 0 < a → p.M * (1 + z) ≤ a → 0 ≤ c → c ≤ 1 → 0 ≤ s → 0 ≤ q → s + q ≤ 121 →
      -ε < s * (a / (a + c) - 1) - q * (a / (a + c) - 1) ^ 2 := by
    intro a c s q ha hle hc hc1 hs hq hsq
    have hac : 0 < a + c := by linarith
    have hx : a / (a + c) - 1 = -(c / (a + c)) := by field_simp; ring
    rw [hx]
    set y := c / (a + c) with hy
    have hy0 : 0 ≤ y := by positivity
    have hy1 : y ≤ 1 := by rw [hy, div_le_one hac]; linarith
    have hye : 121 * y < ε := by
      rw [hy, ← mul_div_assoc, div_lt_iff₀ hac]
      nlinarith
    nlinarith [mul_nonneg hq (mul_nonneg hy0 (sub_nonneg.2 hy1)), mul_nonneg (sub_nonneg.2 hsq) hy0]
  rcases h with h | h
  · obtain ⟨o, e, d⟩ := flat_value p h f hf z hz0
    refine ⟨_, d, ?_⟩
    have := key (p.M * (1 + z) ^ 3) p.L 82 39 (by positivity) (by
      apply mul_le_mul_of_nonneg_left _ hM.le
      calc (1 + z) = (1 + z) ^ 1 := by ring
        _ ≤ (1 + z) ^ 3 := pow_le_pow_right₀ (by linarith) (by norm_num)) h.L (by linarith [h.sum, h.M]) (by norm_num) (by norm_num) (by norm_num)
    rw [← e] at this
    linarith
  · obtain ⟨o, e, d⟩ := open_value p h f hf z hz0
    refine ⟨_, d, ?_⟩
    have := key (p.M * (1 + z)) (1 - p.M) 60 32 (by positivity) le_rfl (by linarith [h.less]) (by linarith [h.M]) (by norm_num) (by norm_num) (by norm_num)
    rw [← e] at this
    linarith

/-- The packaged WMAP7 cosmology is flat, the open one of `CosmoDist` is open. -/
example : Flat wmap7 ∧ Open openCosmo :=
  ⟨⟨by norm_num [wmap7], rfl, by norm_num [wmap7], by norm_num [wmap7], by norm_num [wmap7]⟩,
   ⟨by norm_num [openCosmo], rfl, by norm_num [openCosmo], by norm_num [openCosmo], rfl⟩⟩

example : deltavir ⟨70, 0, 0.3, 0.6⟩ 1 0 = .error .notImplemented := by
  rw [fails_iff]; norm_num

end Verif.DeltaVir
