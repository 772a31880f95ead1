import Verif.Extinction

/-!
# Extinction from line ratios (astropysics/obstools.py, `extinction_from_flux_ratio`, 2523-2584) (C233)

Exact real arithmetic.  scipy's `fmin` is any function; what is assumed of it is a hypothesis of each theorem.
-/

namespace Verif.FluxRatio
open Verif.Extinction

/-- `frexpect`: the name of a decrement (the table of 2547-2558 is that of 2035-2046), or the expected ratio and the two wavelengths. -/
inductive Expect where
  | name (n : String)
  | ratio (fr0 l1 l2 : ℝ)

/-- obstools.py 2559-2562. -/
noncomputable def expected : Expect → Except Err (ℝ × ℝ × ℝ)
  | .name n => match balmer n with
    | some t => .ok t
    | none => .error .key
  | .ratio a b c => .ok (a, b, c)

/-- `fres` (obstools.py 2566), for laws `r1`, `r2` at the two wavelengths. -/
noncomputable def fres (r1 r2 Rv Y x : ℝ) : ℝ := |Y - (r2 * Rv * x - r1 * Rv * x)|

/-- `A2mA1` (obstools.py 2564). -/
noncomputable def colourExcess (fr0 frobs : ℝ) : ℝ := -2.5 * Real.logb 10 (fr0 / frobs)

/-- E(B-V) of each observed ratio (obstools.py 2559-2571); outside the law's range `ValueError`. -/
noncomputable def ebmv (fmin : (ℝ → ℝ) → ℝ → ℝ) (frobs : List ℝ) (ex : Expect) (Rv : ℝ) : Except Err (List ℝ) :=
  match expected ex with
  | .error e => .error e
  | .ok (fr0, l1, l2) =>
    match ccm Rv l2, ccm Rv l1 with
    | some r2, some r1 => .ok (frobs.map fun o => fmin (fun x => fres r1 r2 Rv (colourExcess fr0 o) x) 0)
    | _, _ => .error .value

/-- `extinction_from_flux_ratio` (obstools.py 2523-2584), of a non-empty `frobs`; `out` of 0 or an empty name counts as none. -/
noncomputable def fromFluxRatio (fmin : (ℝ → ℝ) → ℝ → ℝ) (bandwl : String → Option ℝ) (frobs : List ℝ) (ex : Expect) (out : Option Band) (Rv : ℝ) :
    Except Err (List ℝ) :=
  match ebmv fmin frobs ex Rv with
  | .error e => .error e
  | .ok es => match out with
    | none => .ok es
    | some b => match wavelength bandwl b with
      | .error e => .error e
      | .ok l => if l = 0 then .ok es else
        match ccm Rv l with
        | none => .error .value
        | some r => .ok (es.map fun x => r * Rv * x)

/-! ## Theorems -/

/-- A minimiser that finds a least value if there is one. -/
def Finds (fmin : (ℝ → ℝ) → ℝ → ℝ) : Prop := ∀ (f : ℝ → ℝ) (s : ℝ), (∃ x, ∀ y, f x ≤ f y) → ∀ y, f (fmin f s) ≤ f y

/-- The model's residual is what the code computes with `extinction_correction`. -/
theorem residual (l1 l2 r1 r2 Rv Y x : ℝ) (h1 : ccm Rv l1 = some r1) (h2 : ccm Rv l2 = some r2) : ∃ A1 A2,
    extinctionCorrection none l1 x Rv = some A1 ∧ extinctionCorrection none l2 x Rv = some A2 ∧ fres r1 r2 Rv Y x = |Y - (A2 - A1)| :=
  ⟨r1 * Rv * x, r2 * Rv * x, by simp [extinctionCorrection, h1], by simp [extinctionCorrection, h2], rfl⟩

/-- The only minimiser. -/
theorem minimiser (r1 r2 Rv Y x : ℝ) (hr : r1 ≠ r2) (hR : Rv ≠ 0) : (∀ y, fres r1 r2 Rv Y x ≤ fres r1 r2 Rv Y y) ↔ x = Y / (Rv * (r2 - r1)) := by
  have hd : Rv * (r2 - r1) ≠ 0 := mul_ne_zero hR (sub_ne_zero.2 (Ne.symm hr))
  have z : fres r1 r2 Rv Y (Y / (Rv * (r2 - r1))) = 0 := by
    have : Y - (r2 * Rv * (Y / (Rv * (r2 - r1))) - r1 * Rv * (Y / (Rv * (r2 - r1)))) = 0 := by
      have : r2 * Rv * (Y / (Rv * (r2 - r1))) - r1 * Rv * (Y / (Rv * (r2 - r1))) = (Rv * (r2 - r1)) * (Y / (Rv * (r2 - r1))) := by ring
      rw [this, mul_div_cancel₀ _ hd, sub_self]
    unfold fres; rw [this, abs_zero]
  constructor
  · intro h
    have h0 := h (Y / (Rv * (r2 - r1)))
    rw [z] at h0
    have h1 : Y - (r2 * Rv * x - r1 * Rv * x) = 0 := abs_eq_zero.1 (le_antisymm h0 (abs_nonneg _))
    rw [eq_div_iff hd]
    linarith
  · rintro rfl y
    rw [z]; exact abs_nonneg _

/-- **C233.** The E(B-V) found is the one with which the correction of the two lines gives the expected ratio, and the only one; for the usual
order of the law it is positive exactly if the observed ratio is greater than the expected one. -/
theorem ratio_restored (fmin : (ℝ → ℝ) → ℝ → ℝ) (hf : Finds fmin) (bandwl : String → Option ℝ) (frobs : List ℝ) (ex : Expect) (Rv fr0 l1 l2 r1 r2 : ℝ)
    (he : expected ex = .ok (fr0, l1, l2)) (h1 : ccm Rv l1 = some r1) (h2 : ccm Rv l2 = some r2) (hr : r1 ≠ r2) (hR : 0 < Rv) (h0 : 0 < fr0)
    (ho : ∀ o ∈ frobs, 0 < o) :
    ∃ g : ℝ → ℝ, fromFluxRatio fmin bandwl frobs ex none Rv = .ok (frobs.map g) ∧
      ∀ o ∈ frobs, (∀ F2, 0 < F2 → ∀ x, (∃ c1 c2, extinctionCorrection (some (o * F2)) l1 x Rv = some c1 ∧ extinctionCorrection (some F2) l2 x Rv = some c2 ∧
        c1 / c2 = fr0) ↔ x = g o) ∧ (r1 < r2 → (0 < g o ↔ fr0 < o)) := by
  have hd : Rv * (r2 - r1) ≠ 0 := mul_ne_zero hR.ne' (sub_ne_zero.2 (Ne.symm hr))
  refine ⟨fun o => colourExcess fr0 o / (Rv * (r2 - r1)), ?_, ?_⟩
  · have : ∀ o, fmin (fun x => fres r1 r2 Rv (colourExcess fr0 o) x) 0 = colourExcess fr0 o / (Rv * (r2 - r1)) := by
      intro o
      exact (minimiser r1 r2 Rv _ _ hr hR.ne').1 (hf _ 0 ⟨_, (minimiser r1 r2 Rv _ _ hr hR.ne').2 rfl⟩)
    simp only [fromFluxRatio, ebmv, he, h1, h2, this]
  · intro o hoo
    have hop := ho o hoo
    have hlog : Real.logb 10 (fr0 / o) = Real.logb 10 fr0 - Real.logb 10 o := Real.logb_div h0.ne' hop.ne'
    have hce : colourExcess fr0 o = 2.5 * (Real.logb 10 o - Real.logb 10 fr0) := by unfold colourExcess; rw [hlog]; ring
    constructor
    · intro F2 hF x
      have e1 := (deprecated_spec l1 x Rv r1 (o * F2) h1 (mul_pos hop hF)).2
      have e2 := (deprecated_spec l2 x Rv r2 F2 h2 hF).2
      have key : (o * F2 * (10 : ℝ) ^ (r1 * Rv * x / 2.5)) / (F2 * (10 : ℝ) ^ (r2 * Rv * x / 2.5)) = o * (10 : ℝ) ^ ((r1 * Rv * x - r2 * Rv * x) / 2.5) := by
        rw [sub_div, Real.rpow_sub (by norm_num)]
        have := (Real.rpow_pos_of_pos (by norm_num : (0:ℝ) < 10) (r2 * Rv * x / 2.5)).ne'
        field_simp
      have iff1 : (o * (10 : ℝ) ^ ((r1 * Rv * x - r2 * Rv * x) / 2.5) = fr0) ↔ x = colourExcess fr0 o / (Rv * (r2 - r1)) := by
        have l1' : Real.logb 10 (o * (10 : ℝ) ^ ((r1 * Rv * x - r2 * Rv * x) / 2.5)) = Real.logb 10 o + (r1 * Rv * x - r2 * Rv * x) / 2.5 := by
          rw [Real.logb_mul hop.ne' (Real.rpow_pos_of_pos (by norm_num) _).ne', Real.logb_rpow (by norm_num) (by norm_num)]
        have step : (o * (10 : ℝ) ^ ((r1 * Rv * x - r2 * Rv * x) / 2.5) = fr0) ↔ Real.logb 10 o + (r1 * Rv * x - r2 * Rv * x) / 2.5 = Real.logb 10 fr0 := by
          constructor
          · intro h; rw [← l1', h]
          · intro h
            refine Real.logb_injOn_pos (by norm_num : (1:ℝ) < 10) (mul_pos hop (Real.rpow_pos_of_pos (by norm_num) _)) h0 ?_
            rw [l1', h]
        rw [step, eq_div_iff hd, hce]
        have e : x * (Rv * (r2 - r1)) = -(r1 * Rv * x - r2 * Rv * x) := by ring
        rw [e]
        generalize r1 * Rv * x - r2 * Rv * x = t
        have e25 : t / 2.5 = 0.4 * t := by rw [div_eq_iff (by norm_num)]; ring
        rw [e25]
        constructor <;> intro h <;> linarith
      constructor
      · rintro ⟨c1, c2, g1, g2, g3⟩
        rw [e1] at g1; rw [e2] at g2
        cases g1; cases g2
        rw [key] at g3
        exact iff1.1 g3
      · intro hx
        exact ⟨_, _, e1, e2, by rw [key]; exact iff1.2 hx⟩
    · intro hlt
      have hp : 0 < Rv * (r2 - r1) := mul_pos hR (by linarith)
      show 0 < colourExcess fr0 o / (Rv * (r2 - r1)) ↔ fr0 < o
      rw [div_pos_iff_of_pos_right hp, hce]
      have := Real.logb_lt_logb_iff (by norm_num : (1:ℝ) < 10) h0 hop
      rw [← this]
      constructor <;> intro h <;> linarith

/-- **C233.** The search stops within a tolerance: an E(B-V) that is off by at most `d` gives the expected ratio to within a factor of `10^(d |k| / 2.5)`. -/
theorem tolerance (Rv l1 l2 r1 r2 o fr0 x d F2 c1 c2 : ℝ) (h1 : ccm Rv l1 = some r1) (h2 : ccm Rv l2 = some r2) (hr : r1 ≠ r2) (hR : 0 < Rv) (h0 : 0 < fr0) (ho : 0 < o)
    (hF : 0 < F2) (hx : |x - colourExcess fr0 o / (Rv * (r2 - r1))| ≤ d)
    (e1 : extinctionCorrection (some (o * F2)) l1 x Rv = some c1) (e2 : extinctionCorrection (some F2) l2 x Rv = some c2) :
    0 < c1 / c2 ∧ |Real.logb 10 (c1 / c2) - Real.logb 10 fr0| ≤ Rv * |r2 - r1| * d / 2.5 := by
  have hd : Rv * (r2 - r1) ≠ 0 := mul_ne_zero hR.ne' (sub_ne_zero.2 (Ne.symm hr))
  have d25 : ∀ t : ℝ, t / 2.5 = 2 / 5 * t := fun t => by rw [div_eq_iff (by norm_num)]; ring
  rw [(deprecated_spec l1 x Rv r1 (o * F2) h1 (mul_pos ho hF)).2] at e1
  rw [(deprecated_spec l2 x Rv r2 F2 h2 hF).2] at e2
  cases e1; cases e2
  have p1 := Real.rpow_pos_of_pos (by norm_num : (0:ℝ) < 10) (r1 * Rv * x / 2.5)
  have p2 := Real.rpow_pos_of_pos (by norm_num : (0:ℝ) < 10) (r2 * Rv * x / 2.5)
  refine ⟨by positivity, ?_⟩
  have hlog : Real.logb 10 (fr0 / o) = Real.logb 10 fr0 - Real.logb 10 o := Real.logb_div h0.ne' ho.ne'
  have hce : colourExcess fr0 o = 2.5 * (Real.logb 10 o - Real.logb 10 fr0) := by unfold colourExcess; rw [hlog]; ring
  rw [Real.logb_div (by positivity) (by positivity), Real.logb_mul (by positivity) p1.ne', Real.logb_mul hF.ne' p2.ne', Real.logb_mul ho.ne' hF.ne',
    Real.logb_rpow (by norm_num) (by norm_num), Real.logb_rpow (by norm_num) (by norm_num)]
  have hx2 : x = colourExcess fr0 o / (Rv * (r2 - r1)) + (x - colourExcess fr0 o / (Rv * (r2 - r1))) := by ring
  generalize x - colourExcess fr0 o / (Rv * (r2 - r1)) = t at *
  have hm : Rv * (r2 - r1) * x = colourExcess fr0 o + Rv * (r2 - r1) * t := by
    rw [hx2, mul_add, mul_div_cancel₀ _ hd]
  have : Real.logb 10 o + Real.logb 10 F2 + r1 * Rv * x / 2.5 - (Real.logb 10 F2 + r2 * Rv * x / 2.5) - Real.logb 10 fr0 = -(Rv * (r2 - r1) * t / 2.5) := by
    have h3 : r1 * Rv * x / 2.5 - r2 * Rv * x / 2.5 = -((colourExcess fr0 o + Rv * (r2 - r1) * t) / 2.5) := by rw [← hm]; ring
    rw [hce] at h3
    simp only [d25] at h3 ⊢
    norm_num at h3 ⊢
    linarith
  rw [this, abs_neg, abs_div, abs_mul, abs_mul, abs_of_pos hR, abs_of_pos (by norm_num : (0:ℝ) < 2.5)]
  have : Rv * |r2 - r1| * |t| ≤ Rv * |r2 - r1| * d := mul_le_mul_of_nonneg_left hx (by positivity)
  rw [d25, d25]
  linarith

/-- **C233.** With a wavelength or band asked for, the extinction there: the law times `Rv` times the E(B-V). -/
theorem at_wavelength (fmin : (ℝ → ℝ) → ℝ → ℝ) (bandwl : String → Option ℝ) (frobs : List ℝ) (ex : Expect) (b : Band) (Rv l r : ℝ) (es : List ℝ)
    (h : fromFluxRatio fmin bandwl frobs ex none Rv = .ok es) (hb : wavelength bandwl b = .ok l) (hl : l ≠ 0) (hr : ccm Rv l = some r) :
    fromFluxRatio fmin bandwl frobs ex (some b) Rv = .ok (es.map fun x => r * Rv * x) ∧ ∀ x ∈ es, extinctionCorrection none l x Rv = some (r * Rv * x) := by
  refine ⟨?_, fun x _ => by simp [extinctionCorrection, hr]⟩
  unfold fromFluxRatio at h ⊢
  cases hE : ebmv fmin frobs ex Rv with
  | error e => rw [hE] at h; cases h
  | ok es' => rw [hE] at h; cases h; simp [hb, hl, hr]

/-- **C233.** A wavelength of 0 counts as none; one outside the law is a ValueError. -/
theorem no_wavelength (fmin : (ℝ → ℝ) → ℝ → ℝ) (bandwl : String → Option ℝ) (frobs : List ℝ) (ex : Expect) (b : Band) (Rv l : ℝ) (es : List ℝ)
    (h : fromFluxRatio fmin bandwl frobs ex none Rv = .ok es) (hb : wavelength bandwl b = .ok l) :
    (l = 0 → fromFluxRatio fmin bandwl frobs ex (some b) Rv = .ok es) ∧
    (l ≠ 0 → ccm Rv l = none → fromFluxRatio fmin bandwl frobs ex (some b) Rv = .error .value) := by
  unfold fromFluxRatio at h ⊢
  cases hE : ebmv fmin frobs ex Rv with
  | error e => rw [hE] at h; cases h
  | ok es' =>
    rw [hE] at h; cases h
    refine ⟨fun hl => ?_, fun hl hr => ?_⟩
    · simp [hb, hl]
    · simp [hb, hl, hr]

/-- **C233.** If the law is the same at both wavelengths, nothing can be said: every E(B-V) leaves the same residual. -/
theorem no_information (r Rv Y x y : ℝ) : fres r r Rv Y x = fres r r Rv Y y := by unfold fres; simp

/-- **C233.** It fails exactly for names that are no decrements (KeyError), wavelengths outside the law (ValueError), and unknown bands (KeyError). -/
theorem fails (fmin : (ℝ → ℝ) → ℝ → ℝ) (bandwl : String → Option ℝ) (frobs : List ℝ) (Rv : ℝ) :
    (∀ n, balmer n = none → ∀ out, fromFluxRatio fmin bandwl frobs (.name n) out Rv = .error .key) ∧
    (∀ fr0 l1 l2, (ccm Rv l1 = none ∨ ccm Rv l2 = none) → ∀ out, fromFluxRatio fmin bandwl frobs (.ratio fr0 l1 l2) out Rv = .error .value) ∧
    (∀ n fr0 l1 l2, balmer n = some (fr0, l1, l2) → (ccm Rv l1).isSome ∧ (ccm Rv l2).isSome ∧ ∃ es, fromFluxRatio fmin bandwl frobs (.name n) none Rv = .ok es ∧
      es.length = frobs.length ∧ (∀ m, bandwl m = none → fromFluxRatio fmin bandwl frobs (.name n) (some (.name m)) Rv = .error .key)) := by
  refine ⟨?_, ?_, ?_⟩
  · intro n hn out
    simp [fromFluxRatio, ebmv, expected, hn]
  · intro fr0 l1 l2 h out
    rcases h with h | h
    · cases h2 : ccm Rv l2 <;> simp [fromFluxRatio, ebmv, expected, h, h2]
    · simp [fromFluxRatio, ebmv, expected, h]
  · intro n fr0 l1 l2 h
    have hs : ∀ l : ℝ, lines "Ha" = some l ∨ lines "Hb" = some l ∨ lines "Hg" = some l ∨ lines "Hd" = some l ∨ lines "He" = some l → (ccm Rv l).isSome := by
      intro l hl
      rw [Option.isSome_iff_ne_none, Ne, ccm_range]
      simp only [lines, Option.some.injEq] at hl
      rcases hl with rfl | rfl | rfl | rfl | rfl <;> norm_num
    have both : (ccm Rv l1).isSome ∧ (ccm Rv l2).isSome := by
      unfold balmer at h
      split at h <;> simp only [Option.some.injEq, Prod.mk.injEq, reduceCtorEq] at h <;> obtain ⟨-, rfl, rfl⟩ := h <;>
        exact ⟨hs _ (by simp [lines]), hs _ (by simp [lines])⟩
    obtain ⟨r1, h1⟩ := Option.isSome_iff_exists.1 both.1
    obtain ⟨r2, h2⟩ := Option.isSome_iff_exists.1 both.2
    refine ⟨both.1, both.2, frobs.map fun o => fmin (fun x => fres r1 r2 Rv (colourExcess fr0 o) x) 0, ?_, ?_, ?_⟩
    · simp [fromFluxRatio, ebmv, expected, h, h1, h2]
    · simp
    · intro m hm
      simp [fromFluxRatio, ebmv, expected, h, h1, h2, wavelength, hm]

/-- At the Balmer lines the law grows towards the blue for the default `Rv`. -/
theorem line_order : ∃ a b c d e : ℝ, (ccm 3.1 6562.82 = some a ∧ ccm 3.1 4861.33 = some b ∧ ccm 3.1 4340.46 = some c ∧ ccm 3.1 4101.74 = some d ∧
    ccm 3.1 3970.07 = some e) ∧ a < b ∧ b < c ∧ c < d ∧ d < e := by
  have h : ∀ l : ℝ, 0 < l → 1.1 * l ≤ 1e4 → 1e4 < 3.3 * l → ccm 3.1 l = some ((0.32999 * (1e4 / l - 1.82) ^ 7 - 0.7753 * (1e4 / l - 1.82) ^ 6 + 0.01979 * (1e4 / l - 1.82) ^ 5 +
      0.72085 * (1e4 / l - 1.82) ^ 4 - 0.02427 * (1e4 / l - 1.82) ^ 3 - 0.50447 * (1e4 / l - 1.82) ^ 2 + 0.17699 * (1e4 / l - 1.82) + 1) +
      (-2.09002 * (1e4 / l - 1.82) ^ 7 + 5.3026 * (1e4 / l - 1.82) ^ 6 - 0.62251 * (1e4 / l - 1.82) ^ 5 - 5.38434 * (1e4 / l - 1.82) ^ 4 +
      1.07233 * (1e4 / l - 1.82) ^ 3 + 2.28305 * (1e4 / l - 1.82) ^ 2 + 1.41338 * (1e4 / l - 1.82)) / 3.1) := by
    intro l hl h1 h2
    have g1 : 1.1 ≤ 1e4 / l := by rw [le_div_iff₀ hl]; exact h1
    have g2 : 1e4 / l < 3.3 := by rw [div_lt_iff₀ hl]; exact h2
    unfold ccm ccmAB
    rw [if_neg (by rintro (h | h) <;> linarith), if_neg (by linarith), if_neg (by linarith), if_neg (by linarith), if_pos g1]
    rfl
  refine ⟨_, _, _, _, _, ⟨h _ (by norm_num) (by norm_num) (by norm_num), h _ (by norm_num) (by norm_num) (by norm_num), h _ (by norm_num) (by norm_num) (by norm_num),
    h _ (by norm_num) (by norm_num) (by norm_num), h _ (by norm_num) (by norm_num) (by norm_num)⟩, ?_, ?_, ?_, ?_⟩ <;> norm_num

/-- **C233.** With the default `Rv` every decrement gives an E(B-V) that is positive exactly if the observed ratio is greater than the expected one. -/
theorem balmer_positive (fmin : (ℝ → ℝ) → ℝ → ℝ) (hf : Finds fmin) (bandwl : String → Option ℝ) (frobs : List ℝ) (n : String) (fr0 l1 l2 : ℝ)
    (hn : balmer n = some (fr0, l1, l2)) (ho : ∀ o ∈ frobs, 0 < o) :
    ∃ g : ℝ → ℝ, fromFluxRatio fmin bandwl frobs (.name n) none 3.1 = .ok (frobs.map g) ∧ ∀ o ∈ frobs, (0 < g o ↔ fr0 < o) := by
  obtain ⟨a, b, c, d, e, ⟨ha, hb, hc, hd, he⟩, h1, h2, h3, h4⟩ := line_order
  have main : ∀ fr0 l1 l2 r1 r2, balmer n = some (fr0, l1, l2) → ccm 3.1 l1 = some r1 → ccm 3.1 l2 = some r2 → r1 < r2 → 0 < fr0 →
      ∃ g : ℝ → ℝ, fromFluxRatio fmin bandwl frobs (.name n) none 3.1 = .ok (frobs.map g) ∧ ∀ o ∈ frobs, (0 < g o ↔ fr0 < o) := by
    intro fr0 l1 l2 r1 r2 hn g1 g2 hlt h0
    obtain ⟨g, hg, hs⟩ := ratio_restored fmin hf bandwl frobs (.name n) 3.1 fr0 l1 l2 r1 r2 (by simp [expected, hn]) g1 g2 hlt.ne (by norm_num) h0 ho
    exact ⟨g, hg, fun o hoo => (hs o hoo).2 hlt⟩
  have hn' := hn
  unfold balmer at hn
  split at hn <;> simp only [Option.some.injEq, Prod.mk.injEq, reduceCtorEq] at hn <;> obtain ⟨rfl, rfl, rfl⟩ := hn
  · exact main _ _ _ a b hn' ha hb h1 (by norm_num)
  · exact main _ _ _ a c hn' ha hc (by linarith) (by norm_num)
  · exact main _ _ _ a d hn' ha hd (by linarith) (by norm_num)
  · exact main _ _ _ a e hn' ha he (by linarith) (by norm_num)
  · exact main _ _ _ b c hn' hb hc h2 (by norm_num)
  · exact main _ _ _ b d hn' hb hd (by linarith) (by norm_num)
  · exact main _ _ _ b e hn' hb he (by linarith) (by norm_num)
  · exact main _ _ _ c d hn' hc hd h3 (by norm_num)
  · exact main _ _ _ c e hn' hc he (by linarith) (by norm_num)
  · exact main _ _ _ d e hn' hd he h4 (by norm_num)

/-! ## Concrete cases -/

/-- A function that finds the minimum exists. -/
noncomputable def best (f : ℝ → ℝ) (s : ℝ) : ℝ := open Classical in if h : ∃ x, ∀ y, f x ≤ f y then h.choose else s

theorem best_finds : Finds best := by
  intro f s h y
  unfold best
  rw [dif_pos h]
  exact h.choose_spec y

example : ∃ x, fromFluxRatio best (fun _ => none) [4] (.name "Hab") none 3.1 = .ok [x] ∧ 0 < x := by
  obtain ⟨g, hg, hs⟩ := balmer_positive best best_finds (fun _ => none) [4] "Hab" 2.86 6562.82 4861.33 rfl (by simp)
  exact ⟨g 4, hg, (hs 4 (by simp)).2 (by norm_num)⟩

/-- The hypotheses of `ratio_restored` and `tolerance`. -/
example : ∃ r1 r2, ccm 3.1 6562.82 = some r1 ∧ ccm 3.1 4861.33 = some r2 ∧ r1 ≠ r2 := by
  obtain ⟨a, b, _, _, _, ⟨ha, hb, _⟩, h, _⟩ := line_order
  exact ⟨a, b, ha, hb, h.ne⟩

end Verif.FluxRatio
