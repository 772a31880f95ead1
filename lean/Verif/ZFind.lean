import Mathlib.LinearAlgebra.Matrix.NonsingularInverse
import Mathlib.Data.Real.Basic
import Mathlib.Algebra.Order.BigOperators.Ring.Finset
import Mathlib.Tactic.Linarith
import Mathlib.Tactic.Ring
import Mathlib.Tactic.FieldSimp
import Mathlib.Tactic.NormNum

/-!
# Redshifts by template fitting (astropysics/spec.py 1967-2146) (C173, C174)

`zfind` after the spectra are brought to one axis (resampling is C151), and `lag_to_z`.  Real arithmetic (`none` is nan); lags are integers, `verbose` is False;
`numpy.linalg.pinv` is a parameter with the equations of Moore and Penrose, `numpy.linalg.inv` raises exactly for a singular matrix.
-/

namespace Verif.ZFind

noncomputable section

/-! ## Model of lag_to_z -/

/-- `np.mean`: nan for nothing. -/
def npMean (l : List ℝ) : Option ℝ := if l = [] then none else some (l.sum / l.length)

/-- `np.roll(x,-l)/x-1`, spec.py 2130. -/
def ratios (x : List ℝ) (l : ℤ) : List ℝ :=
  (List.range x.length).map fun (i : ℕ) => x.getD (((i : ℤ) + l) % x.length).toNat 0 / x.getD i 0 - 1

/-- The elements kept, spec.py 2132-2142: `z[:-l]` for `l >= 0` (nothing at all for 0), `z[-l:]` for a negative lag. -/
def kept (z : List ℝ) (l : ℤ) : List ℝ :=
  if 0 ≤ l then (if l = 0 then [] else z.take (z.length - l.toNat)) else z.drop (-l).toNat

/-- Whether element `i` of `n` is replaced: `z[-l:]` for `l >= 0` (everything for 0), `z[:-l]` for a negative lag. -/
def replaced (n : ℕ) (l : ℤ) (i : ℕ) : Bool :=
  if 0 ≤ l then (if l = 0 then true else decide (n - l.toNat ≤ i)) else decide (i < (-l).toNat)

/-- One row of `lag_to_z`, spec.py 2109-2146. -/
def lagToZ (x : List ℝ) (avgbad : Bool) (l : ℤ) : List (Option ℝ) :=
  let z := ratios x l
  let fill := if avgbad then npMean (kept z l) else some 0
  (List.range z.length).map fun i => if replaced z.length l i then fill else some (z.getD i 0)

/-- `np.mean` of a row that may have nan. -/
def meanRow (r : List (Option ℝ)) : Option ℝ := if r.all Option.isSome then npMean (r.filterMap id) else none

/-! ## Model of zfind -/

/-- The order in which the lags are done, spec.py 2033-2053: negative ones, 0 once, positive ones. -/
def order (lags : List ℤ) : List ℤ :=
  lags.filter (fun l => decide (l < 0)) ++ (if (0 : ℤ) ∈ lags then [0] else []) ++ lags.filter (fun l => decide (0 < l))

/-- `tm`, spec.py 2023-2027, pixel `i` of template `j`: with as many templates as pixels the array is not transposed. -/
def tmat (n : ℕ) (templates : List (List ℝ)) (i j : ℕ) : ℝ :=
  if templates.length = n then (templates.getD i []).getD j 0 else (templates.getD j []).getD i 0

/-- The slices of spec.py 2041-2051 as first rows: `tm[-l:]` with `y[:l]` for a negative lag, `tm[:-l]` with `y[l:]` for a positive one; `n - |l|` rows. -/
def tstart (l : ℤ) : ℕ := (-l).toNat
def ystart (l : ℤ) : ℕ := l.toNat
def rows (n : ℕ) (l : ℤ) : ℕ := n - l.natAbs

open Matrix

/-- The pseudo-inverses. -/
abbrev Pinv := ∀ r k : ℕ, Matrix (Fin r) (Fin k) ℝ → Matrix (Fin k) (Fin r) ℝ

/-- The coefficients for one lag, spec.py 2062-2075. -/
def fit (pinv : Pinv) {r k : ℕ} (useweights : Bool) (A : Matrix (Fin r) (Fin k) ℝ) (v w : Fin r → ℝ) : Fin k → ℝ :=
  if useweights then
    (if (Aᵀ * diagonal w * A).det = 0 then pinv r k A *ᵥ v else (Aᵀ * diagonal w * A)⁻¹ *ᵥ ((Aᵀ * diagonal w) *ᵥ v))
  else pinv r k A *ᵥ v

/-- What a spectrum and its templates are: fluxes and inverse variances of `n` pixels, `k` templates. -/
structure Problem where
  n : ℕ
  flux : ℕ → ℝ
  ivar : ℕ → ℝ
  templates : List (List ℝ)

variable (P : Problem)

/-- `A`, `v` and `w` for a lag, spec.py 2064-2066. -/
def Problem.A (l : ℤ) : Matrix (Fin (rows P.n l)) (Fin P.templates.length) ℝ := fun i j => tmat P.n P.templates (tstart l + i) j
def Problem.v (l : ℤ) : Fin (rows P.n l) → ℝ := fun i => P.flux (ystart l + i)
def Problem.w (l : ℤ) : Fin (rows P.n l) → ℝ := fun i => P.ivar (ystart l + i)

/-- `useweights`, spec.py 2059. -/
def Problem.useweights : Bool := (List.range P.n).any fun i => P.ivar i - P.ivar 0 ≠ 0

def Problem.coeff (pinv : Pinv) (l : ℤ) : Fin P.templates.length → ℝ := fit pinv P.useweights (P.A l) (P.v l) (P.w l)

/-- `fitspec`, spec.py 2077. -/
def Problem.fitted (pinv : Pinv) (l : ℤ) : Fin (rows P.n l) → ℝ := P.A l *ᵥ P.coeff pinv l

/-- `dsq/dofs`, spec.py 2079-2085. -/
def Problem.rchi2 (pinv : Pinv) (l : ℤ) : ℝ :=
  (∑ i, (P.v l i - P.fitted pinv l i) * (P.v l i - P.fitted pinv l i)) /
    ((((List.range P.n).filter fun i => decide (P.ivar i ≠ 0)).length : ℝ) - (l.natAbs : ℝ))

/-- `besti`, spec.py 2087-2091: all indices with the least value. -/
def best (rs : List ℝ) : List ℕ := (List.range rs.length).filter fun i => decide (∀ r ∈ rs, rs.getD i 0 ≤ r)

/-- What `zfind` returns: `besti`, `lags`, `zs`, `rchi2s`. -/
structure Out where
  besti : List ℕ
  lags : List ℤ
  zs : List (Option ℝ)
  rchi2s : List ℝ

/-- `zfind`, spec.py 2030-2107. -/
def Problem.zfind (pinv : Pinv) (x : List ℝ) (lags : List ℤ) : Out :=
  let ls := order lags
  let rs := ls.map (P.rchi2 pinv)
  ⟨best rs, ls, ls.map fun l => meanRow (lagToZ x true l), rs⟩

/-! ## C173: lags to redshifts -/

theorem ratios_length (x : List ℝ) (l : ℤ) : (ratios x l).length = x.length := by simp [ratios]

theorem ratios_get (x : List ℝ) (l : ℤ) (i : ℕ) (hi : i < x.length) (h0 : 0 ≤ (i : ℤ) + l) (h1 : (i : ℤ) + l < x.length) :
    (ratios x l).getD i 0 = x.getD ((i : ℤ) + l).toNat 0 / x.getD i 0 - 1 := by
  rw [ratios, List.getD_eq_getElem?_getD, List.getElem?_map, List.getElem?_range hi]
  simp only [Option.map_some, Option.getD_some]
  rw [Int.emod_eq_of_lt h0 h1]

/-- The redshifts that can be measured for a lag: those of pixels `i` for which there is a pixel `i + l`, in order. -/
def measured (x : List ℝ) (l : ℤ) : List ℝ :=
  ((List.range x.length).filter fun (i : ℕ) => decide (0 ≤ (i : ℤ) + l ∧ (i : ℤ) + l < x.length)).map fun (i : ℕ) =>
    x.getD ((i : ℤ) + l).toNat 0 / x.getD i 0 - 1

theorem filter_lt (n m : ℕ) (h : m ≤ n) : (List.range n).filter (fun i => decide (i < m)) = List.range m := by
  obtain ⟨d, rfl⟩ := Nat.exists_eq_add_of_le h
  rw [List.range_add, List.filter_append, List.filter_eq_self.2 (by simp), List.filter_eq_nil_iff.2 (by simp), List.append_nil]

theorem filter_ge (n m : ℕ) (h : m ≤ n) : (List.range n).filter (fun i => decide (m ≤ i)) = (List.range n).drop m := by
  obtain ⟨d, rfl⟩ := Nat.exists_eq_add_of_le h
  rw [List.range_add, List.filter_append, List.filter_eq_nil_iff.2 (by simp), List.filter_eq_self.2 (by simp), List.nil_append,
    List.drop_append_of_le_length (by simp), List.drop_of_length_le (by simp), List.nil_append]

theorem kept_measured (x : List ℝ) (l : ℤ) (h0 : l ≠ 0) (hl : l.natAbs < x.length) : kept (ratios x l) l = measured x l := by
  unfold kept measured
  have hval : ∀ i, i < x.length → 0 ≤ (i : ℤ) + l → (i : ℤ) + l < x.length →
      x.getD (((i : ℤ) + l) % x.length).toNat 0 / x.getD i 0 - 1 = x.getD ((i : ℤ) + l).toNat 0 / x.getD i 0 - 1 := by
    intro i _ a b
    rw [Int.emod_eq_of_lt a b]
  by_cases hp : 0 ≤ l
  · rw [if_pos hp, if_neg h0, ratios_length, ratios, ← List.map_take, List.take_range]
    have e : (List.range x.length).filter (fun (i : ℕ) => decide (0 ≤ (i : ℤ) + l ∧ (i : ℤ) + l < x.length)) = List.range (x.length - l.toNat) := by
      rw [← filter_lt x.length (x.length - l.toNat) (by omega)]
      refine List.filter_congr (fun i hi => ?_)
      rw [List.mem_range] at hi
      simp only [decide_eq_decide]
      omega
    rw [e, min_eq_left (by omega)]
    refine List.map_congr_left (fun i hi => ?_)
    rw [List.mem_range] at hi
    exact hval i (by omega) (by omega) (by omega)
  · rw [if_neg hp, ratios, ← List.map_drop]
    have e : (List.range x.length).filter (fun (i : ℕ) => decide (0 ≤ (i : ℤ) + l ∧ (i : ℤ) + l < x.length)) = (List.range x.length).drop (-l).toNat := by
      rw [← filter_ge x.length (-l).toNat (by omega)]
      refine List.filter_congr (fun i hi => ?_)
      rw [List.mem_range] at hi
      simp only [decide_eq_decide]
      omega
    rw [e]
    refine List.map_congr_left (fun i hi => ?_)
    rw [← e] at hi
    simp only [List.mem_filter, List.mem_range, decide_eq_true_eq] at hi
    exact hval i hi.1 hi.2.1 hi.2.2

/-- C173.  For a lag other than 0 and shorter than the axis, every pixel that has a partner gets the redshift between the two, the others the mean of these, or 0
without `avgbad`. -/
theorem lag_exact (x : List ℝ) (avgbad : Bool) (l : ℤ) (h0 : l ≠ 0) (hl : l.natAbs < x.length) :
    (lagToZ x avgbad l).length = x.length ∧
    ∀ i, i < x.length →
      (0 ≤ (i : ℤ) + l ∧ (i : ℤ) + l < x.length → (lagToZ x avgbad l)[i]? = some (some (x.getD ((i : ℤ) + l).toNat 0 / x.getD i 0 - 1))) ∧
      (¬ (0 ≤ (i : ℤ) + l ∧ (i : ℤ) + l < x.length) →
        (lagToZ x avgbad l)[i]? = some (if avgbad then some ((measured x l).sum / (measured x l).length) else some 0)) := by
  refine ⟨by simp [lagToZ, ratios_length], ?_⟩
  intro i hi
  have hne : measured x l ≠ [] := by
    intro e
    have : (if 0 ≤ l then 0 else (-l).toNat) ∈ (List.range x.length).filter fun (i : ℕ) => decide (0 ≤ (i : ℤ) + l ∧ (i : ℤ) + l < x.length) := by
      rw [List.mem_filter, List.mem_range, decide_eq_true_eq]
      split <;> omega
    unfold measured at e
    rw [List.map_eq_nil_iff] at e
    rw [e] at this
    simp at this
  have hr : (lagToZ x avgbad l)[i]? = some (if replaced x.length l i then (if avgbad then npMean (kept (ratios x l) l) else some 0) else some ((ratios x l).getD i 0)) := by
    simp only [lagToZ, ratios_length, List.getElem?_map, List.getElem?_range hi, Option.map_some]
  rw [hr, kept_measured x l h0 hl, npMean, if_neg hne]
  have hrep : replaced x.length l i = !decide (0 ≤ (i : ℤ) + l ∧ (i : ℤ) + l < x.length) := by
    unfold replaced
    by_cases hp : 0 ≤ l
    · rw [if_pos hp, if_neg h0, ← decide_not, decide_eq_decide]; omega
    · rw [if_neg hp, ← decide_not, decide_eq_decide]; omega
  constructor
  · intro hb
    rw [hrep, decide_eq_true hb]
    simp only [Bool.not_true, Bool.false_eq_true, if_false]
    rw [ratios_get x l i hi hb.1 hb.2]
  · intro hb
    rw [hrep, decide_eq_false hb]
    simp

theorem sum_const_map {α : Type} (c : ℝ) (l : List α) : (l.map fun _ => c).sum = l.length * c := by
  rw [List.map_const', List.sum_replicate, nsmul_eq_mul]

/-- C173.  On a logarithmic axis (factor `q` from pixel to pixel) every pixel gets the same redshift, `1 + z = q^l`. -/
theorem lag_logarithmic (a q : ℝ) (ha : a ≠ 0) (hq : q ≠ 0) (n : ℕ) (l : ℤ) (h0 : l ≠ 0) (hl : l.natAbs < n) :
    lagToZ ((List.range n).map fun i => a * q ^ i) true l = List.replicate n (some (q ^ l - 1)) := by
  set x := (List.range n).map fun i => a * q ^ i with hx
  have hn : x.length = n := by simp [hx]
  have hg : ∀ i, i < n → x.getD i 0 = a * q ^ i := by
    intro i hi
    simp [hx, List.getD_eq_getElem?_getD, hi]
  clear_value x
  have hv : ∀ i : ℕ, i < n → 0 ≤ (i : ℤ) + l → (i : ℤ) + l < n → x.getD ((i : ℤ) + l).toNat 0 / x.getD i 0 - 1 = q ^ l - 1 := by
    intro i hi h1 h2
    rw [hg i hi, hg _ (by omega)]
    have e : q ^ ((i : ℤ) + l).toNat = q ^ i * q ^ l := by
      rw [← zpow_natCast q (((i : ℤ) + l).toNat), Int.toNat_of_nonneg h1, zpow_add₀ hq, zpow_natCast]
    rw [e]
    have := pow_ne_zero i hq
    field_simp
  have hm : measured x l = (((List.range x.length).filter fun (i : ℕ) => decide (0 ≤ (i : ℤ) + l ∧ (i : ℤ) + l < x.length))).map fun _ => q ^ l - 1 := by
    unfold measured
    refine List.map_congr_left (fun i hi => ?_)
    simp only [List.mem_filter, List.mem_range, decide_eq_true_eq, hn] at hi
    exact hv i hi.1 hi.2.1 hi.2.2
  obtain ⟨h1, h2⟩ := lag_exact x true l h0 (by rw [hn]; exact hl)
  refine List.ext_getElem? (fun i => ?_)
  by_cases hi : i < n
  · obtain ⟨k1, k2⟩ := h2 i (by rw [hn]; exact hi)
    rw [List.getElem?_replicate, if_pos hi]
    by_cases hb : 0 ≤ (i : ℤ) + l ∧ (i : ℤ) + l < x.length
    · rw [k1 hb, hv i hi hb.1 (by rw [← hn]; exact_mod_cast hb.2)]
    · rw [k2 hb, if_pos rfl, hm, sum_const_map, List.length_map]
      have hne : ((List.range x.length).filter fun (i : ℕ) => decide (0 ≤ (i : ℤ) + l ∧ (i : ℤ) + l < x.length)) ≠ [] := by
        intro e
        have : (if 0 ≤ l then 0 else (-l).toNat) ∈ (List.range x.length).filter fun (i : ℕ) => decide (0 ≤ (i : ℤ) + l ∧ (i : ℤ) + l < x.length) := by
          rw [List.mem_filter, List.mem_range, decide_eq_true_eq, hn]
          split <;> omega
        rw [e] at this
        simp at this
      have : (((List.range x.length).filter fun (i : ℕ) => decide (0 ≤ (i : ℤ) + l ∧ (i : ℤ) + l < x.length)).length : ℝ) ≠ 0 := by
        rw [Nat.cast_ne_zero]
        exact fun h => hne (List.length_eq_zero_iff.1 h)
      rw [mul_div_cancel_left₀ _ this]
  · rw [List.getElem?_eq_none (by rw [h1, hn]; omega), List.getElem?_eq_none (by simp; omega)]

/-- C173.  The lag 0 has no redshift at all: every pixel is nan, or 0 without `avgbad`; likewise for lags as long as the axis. -/
theorem lag_zero (x : List ℝ) (l : ℤ) (h : l = 0 ∨ x.length ≤ l.natAbs) :
    lagToZ x true l = List.replicate x.length none ∧ lagToZ x false l = List.replicate x.length (some 0) := by
  have hk : kept (ratios x l) l = [] := by
    unfold kept
    by_cases hp : 0 ≤ l
    · rw [if_pos hp]
      by_cases h0 : l = 0
      · rw [if_pos h0]
      · rw [if_neg h0, ratios_length, List.take_eq_nil_iff]; left; omega
    · rw [if_neg hp, List.drop_eq_nil_iff, ratios_length]; omega
  have hr : ∀ i, i < x.length → replaced x.length l i = true := by
    intro i hi
    unfold replaced
    by_cases hp : 0 ≤ l
    · rw [if_pos hp]
      by_cases h0 : l = 0
      · rw [if_pos h0]
      · rw [if_neg h0, decide_eq_true_eq]; omega
    · rw [if_neg hp, decide_eq_true_eq]; omega
  have key : ∀ b, lagToZ x b l = List.replicate x.length (if b then none else some 0) := by
    intro b
    refine List.ext_getElem? (fun i => ?_)
    by_cases hi : i < x.length
    · simp only [lagToZ, ratios_length, List.getElem?_map, List.getElem?_range hi, Option.map_some, hr i hi, if_true, hk, npMean,
        List.getElem?_replicate, if_pos hi]
    · rw [List.getElem?_eq_none (by simp [lagToZ, ratios_length]; omega), List.getElem?_eq_none (by simp; omega)]
  exact ⟨by simpa using key true, by simpa using key false⟩

/-! ## C174: fits -/

theorem order_mem (lags : List ℤ) (l : ℤ) : l ∈ order lags ↔ l ∈ lags := by
  unfold order
  rw [List.mem_append, List.mem_append, List.mem_filter, List.mem_filter]
  simp only [decide_eq_true_eq]
  constructor
  · rintro ((h | h) | h)
    · exact h.1
    · split at h
      · rw [List.mem_singleton] at h; rw [h]; assumption
      · simp at h
    · exact h.1
  · intro h
    rcases lt_trichotomy l 0 with hl | hl | hl
    · exact .inl (.inl ⟨h, hl⟩)
    · left; right; rw [← hl, if_pos h]; simp
    · exact .inr ⟨h, hl⟩

/-- Residuals with weights. -/
def wsum {r : ℕ} (w v f : Fin r → ℝ) : ℝ := ∑ i, w i * (v i - f i) ^ 2

/-- The normal equations give the least weighted sum of squares. -/
theorem least {r k : ℕ} (A : Matrix (Fin r) (Fin k) ℝ) (v w : Fin r → ℝ) (c : Fin k → ℝ) (hw : ∀ i, 0 ≤ w i)
    (hN : (Aᵀ * diagonal w) *ᵥ (v - A *ᵥ c) = 0) (c' : Fin k → ℝ) : wsum w v (A *ᵥ c) ≤ wsum w v (A *ᵥ c') := by
  have hcross : ∑ i, w i * (v i - (A *ᵥ c) i) * (A *ᵥ (c - c')) i = 0 := by
    have : (c - c') ⬝ᵥ ((Aᵀ * diagonal w) *ᵥ (v - A *ᵥ c)) = 0 := by rw [hN, dotProduct_zero]
    rw [← mulVec_mulVec, dotProduct_mulVec, vecMul_transpose] at this
    rw [← this]
    refine Finset.sum_congr rfl (fun i _ => ?_)
    rw [mulVec_diagonal]
    simp only [Pi.sub_apply]
    ring
  have hexp : wsum w v (A *ᵥ c') = wsum w v (A *ᵥ c) + 2 * (∑ i, w i * (v i - (A *ᵥ c) i) * (A *ᵥ (c - c')) i) + ∑ i, w i * ((A *ᵥ (c - c')) i) ^ 2 := by
    unfold wsum
    rw [Finset.mul_sum, ← Finset.sum_add_distrib, ← Finset.sum_add_distrib]
    refine Finset.sum_congr rfl (fun i _ => ?_)
    have : (A *ᵥ (c - c')) i = (A *ᵥ c) i - (A *ᵥ c') i := by rw [mulVec_sub]; rfl
    rw [this]; ring
  rw [hexp, hcross]
  have : 0 ≤ ∑ i, w i * ((A *ᵥ (c - c')) i) ^ 2 := Finset.sum_nonneg (fun i _ => mul_nonneg (hw i) (sq_nonneg _))
  linarith

/-- What is asked of `numpy.linalg.pinv` (two of the four equations of Moore and Penrose). -/
def IsPinv (pinv : Pinv) : Prop := ∀ r k (A : Matrix (Fin r) (Fin k) ℝ), A * pinv r k A * A = A ∧ (A * pinv r k A)ᵀ = A * pinv r k A

theorem pinv_normal {pinv : Pinv} (hp : IsPinv pinv) {r k : ℕ} (A : Matrix (Fin r) (Fin k) ℝ) (v : Fin r → ℝ) : Aᵀ *ᵥ (v - A *ᵥ (pinv r k A *ᵥ v)) = 0 := by
  obtain ⟨h1, h2⟩ := hp r k A
  have : Aᵀ * (A * pinv r k A) = Aᵀ := by
    conv_lhs => rw [← h2, ← Matrix.transpose_mul, h1]
  rw [mulVec_sub, mulVec_mulVec, mulVec_mulVec, Matrix.mul_assoc, this, sub_self]

/-- C174.  The coefficients: with weights the sum of the squared residuals times the inverse variances is least among all combinations of the templates (unless the
normal matrix is singular), without weights, or in that case, the plain sum of squares. -/
theorem fit_least {pinv : Pinv} (hp : IsPinv pinv) {r k : ℕ} (useweights : Bool) (A : Matrix (Fin r) (Fin k) ℝ) (v w : Fin r → ℝ) (hw : ∀ i, 0 ≤ w i) :
    (useweights = true → (Aᵀ * diagonal w * A).det ≠ 0 → ∀ c, wsum w v (A *ᵥ fit pinv useweights A v w) ≤ wsum w v (A *ᵥ c)) ∧
    (useweights = false ∨ (Aᵀ * diagonal w * A).det = 0 → ∀ c, wsum 1 v (A *ᵥ fit pinv useweights A v w) ≤ wsum 1 v (A *ᵥ c)) := by
  constructor
  · intro hu hd c
    refine least A v w _ hw ?_ c
    unfold fit
    rw [if_pos hu, if_neg hd, mulVec_sub, mulVec_mulVec, mulVec_mulVec, Matrix.mul_nonsing_inv _ (isUnit_iff_ne_zero.2 hd), one_mulVec, sub_self]
  · intro h c
    have hf : fit pinv useweights A v w = pinv r k A *ᵥ v := by
      unfold fit
      rcases h with h | h
      · simp [h]
      · simp [h]
    rw [hf]
    refine least A v 1 _ (fun i => zero_le_one) ?_ c
    rw [show diagonal (1 : Fin r → ℝ) = (1 : Matrix (Fin r) (Fin r) ℝ) from diagonal_one, Matrix.mul_one]
    exact pinv_normal hp A v

/-- C174.  For lag `l`, pixel `i` of the templates is compared with pixel `i + l` of the spectrum, for all `i` for which both exist; with as many templates as pixels
the templates are taken for pixels. -/
theorem pairs_exact (l : ℤ) (hl : l.natAbs ≤ P.n) (hk : P.templates.length ≠ P.n) (s t : ℕ) (ht : t < P.n) (hs : s < P.n) (h : (s : ℤ) = t + l) :
    ∃ i : Fin (rows P.n l), P.v l i = P.flux s ∧ P.w l i = P.ivar s ∧ ∀ j, P.A l i j = (P.templates.getD j []).getD t 0 := by
  refine ⟨⟨t - tstart l, ?_⟩, ?_, ?_, ?_⟩
  · unfold tstart rows; omega
  · unfold Problem.v ystart tstart; simp only; congr 1; omega
  · unfold Problem.w ystart tstart; simp only; congr 1; omega
  · intro j
    unfold Problem.A tmat
    rw [if_neg hk]
    congr 2
    simp only [tstart]; omega

/-- C174.  Conversely every row of a fit is such a pair. -/
theorem pairs_only (l : ℤ) (hl : l.natAbs ≤ P.n) (hk : P.templates.length ≠ P.n) (i : Fin (rows P.n l)) :
    ∃ s t : ℕ, s < P.n ∧ t < P.n ∧ (s : ℤ) = t + l ∧ P.v l i = P.flux s ∧ P.w l i = P.ivar s ∧ ∀ j, P.A l i j = (P.templates.getD j []).getD t 0 := by
  obtain ⟨i, hi⟩ := i
  unfold rows at hi
  refine ⟨ystart l + i, tstart l + i, ?_, ?_, ?_, rfl, rfl, ?_⟩
  · unfold ystart; omega
  · unfold tstart; omega
  · unfold ystart tstart; omega
  · intro j
    unfold Problem.A tmat
    rw [if_neg hk]

theorem square_templates (l : ℤ) (hk : P.templates.length = P.n) (i : Fin (rows P.n l)) (j) :
    P.A l i j = (P.templates.getD (tstart l + i) []).getD j 0 := by
  unfold Problem.A tmat
  rw [if_pos hk]

theorem best_exact (rs : List ℝ) (hne : rs ≠ []) : best rs ≠ [] ∧ ∀ i, i ∈ best rs ↔ ∃ r, rs[i]? = some r ∧ ∀ r' ∈ rs, r ≤ r' := by
  have hm : ∀ i, i ∈ best rs ↔ ∃ r, rs[i]? = some r ∧ ∀ r' ∈ rs, r ≤ r' := by
    intro i
    unfold best
    rw [List.mem_filter, List.mem_range, decide_eq_true_eq]
    constructor
    · rintro ⟨hi, h⟩
      refine ⟨rs[i], List.getElem?_eq_getElem hi, ?_⟩
      rwa [List.getD_eq_getElem?_getD, List.getElem?_eq_getElem hi] at h
    · rintro ⟨r, hr, h⟩
      obtain ⟨hi, e⟩ := List.getElem?_eq_some_iff.1 hr
      refine ⟨hi, ?_⟩
      rw [List.getD_eq_getElem?_getD, hr]
      exact h
  refine ⟨?_, hm⟩
  obtain ⟨m, hmem, hle⟩ : ∃ m ∈ rs, ∀ r ∈ rs, m ≤ r := by
    clear hm
    induction rs with
    | nil => exact absurd rfl hne
    | cons a l ih =>
      by_cases hl : l = []
      · exact ⟨a, by simp, by simp [hl]⟩
      · obtain ⟨m, h1, h2⟩ := ih hl
        rcases le_total a m with h | h
        · exact ⟨a, by simp, fun r hr => by
            rcases List.mem_cons.1 hr with rfl | hr
            · exact le_refl _
            · exact h.trans (h2 r hr)⟩
        · exact ⟨m, List.mem_cons_of_mem _ h1, fun r hr => by
            rcases List.mem_cons.1 hr with rfl | hr
            · exact h
            · exact h2 r hr⟩
  obtain ⟨i, hi, e⟩ := List.mem_iff_getElem.1 hmem
  exact List.ne_nil_of_mem ((hm i).2 ⟨m, by rw [List.getElem?_eq_getElem hi, e], hle⟩)

/-- C174.  What is returned: every lag asked for (the negative ones first, then 0, then the positive ones, each group in its order), beside it the *unweighted* sum of
squared residuals of its fit over the number of pixels with an inverse variance less the lag, and the indices of the smallest of these. -/
theorem zfind_exact (pinv : Pinv) (x : List ℝ) (lags : List ℤ) (hne : lags ≠ []) :
    (∀ l, l ∈ (P.zfind pinv x lags).lags ↔ l ∈ lags) ∧
    (P.zfind pinv x lags).lags.Pairwise (fun a b => a ≤ 0 ∨ 0 < b) ∧
    (P.zfind pinv x lags).rchi2s = (P.zfind pinv x lags).lags.map (fun l => wsum 1 (P.v l) (P.fitted pinv l) /
      ((((List.range P.n).filter fun i => decide (P.ivar i ≠ 0)).length : ℝ) - (l.natAbs : ℝ))) ∧
    (P.zfind pinv x lags).besti ≠ [] ∧
    (∀ i, i ∈ (P.zfind pinv x lags).besti ↔ ∃ r, (P.zfind pinv x lags).rchi2s[i]? = some r ∧ ∀ r' ∈ (P.zfind pinv x lags).rchi2s, r ≤ r') := by
  have hne' : order lags ≠ [] := by
    obtain ⟨l, hl⟩ := List.exists_mem_of_ne_nil lags hne
    exact List.ne_nil_of_mem ((order_mem lags l).2 hl)
  have hb := best_exact ((order lags).map (P.rchi2 pinv)) (by simpa using hne')
  refine ⟨order_mem lags, ?_, ?_, hb.1, hb.2⟩
  · simp only [Problem.zfind, order]
    rw [List.pairwise_append, List.pairwise_append]
    refine ⟨⟨?_, by split <;> simp, ?_⟩, ?_, ?_⟩
    · exact List.Pairwise.imp_of_mem (R := fun _ _ => True) (fun ha _ _ => by
        left; have := (List.mem_filter.1 ha).2; rw [decide_eq_true_eq] at this; omega) (List.pairwise_of_forall (fun _ _ => trivial))
    · intro a ha b _
      left; have := (List.mem_filter.1 ha).2; rw [decide_eq_true_eq] at this; omega
    · exact List.Pairwise.imp_of_mem (R := fun _ _ => True) (fun _ hb _ => by
        right; have := (List.mem_filter.1 hb).2; rw [decide_eq_true_eq] at this; omega) (List.pairwise_of_forall (fun _ _ => trivial))
    · intro a _ b hb
      right; have := (List.mem_filter.1 hb).2; rw [decide_eq_true_eq] at this; omega
  · simp only [Problem.zfind]
    refine List.map_congr_left (fun l _ => ?_)
    unfold Problem.rchi2 wsum
    congr 1
    refine Finset.sum_congr rfl (fun i _ => ?_)
    simp only [Pi.one_apply]; ring

theorem filterMap_some (m : ℕ) (c : ℝ) : (List.replicate m (some c)).filterMap id = List.replicate m c := by
  induction m with
  | zero => rfl
  | succ m ih => simp [List.replicate_succ, ih]

/-- C174.  The redshifts on a logarithmic axis of factor `q`: `q^l - 1` for every lag but 0, whose redshift is nan. -/
theorem zfind_redshifts (pinv : Pinv) (a q : ℝ) (ha : a ≠ 0) (hq : q ≠ 0) (n : ℕ) (hn : 0 < n) (lags : List ℤ) (hl : ∀ l ∈ lags, l.natAbs < n) :
    (P.zfind pinv ((List.range n).map fun i => a * q ^ i) lags).zs =
      (P.zfind pinv ((List.range n).map fun i => a * q ^ i) lags).lags.map (fun l => if l = 0 then none else some (q ^ l - 1)) := by
  simp only [Problem.zfind]
  refine List.map_congr_left (fun l hml => ?_)
  have hb := hl l ((order_mem lags l).1 hml)
  have hr : List.replicate n (some (q ^ l - 1)) ≠ [] := by simp; omega
  by_cases h0 : l = 0
  · rw [if_pos h0, (lag_zero _ l (.inl h0)).1]
    unfold meanRow
    rw [if_neg]
    simp only [List.length_map, List.length_range, List.all_eq_true, List.mem_replicate]
    intro h
    have := h none ⟨by omega, rfl⟩
    simp at this
  · rw [if_neg h0, lag_logarithmic a q ha hq n l h0 hb]
    unfold meanRow
    rw [if_pos (by simp), filterMap_some, npMean, if_neg (by simp; omega), List.sum_replicate, List.length_replicate, nsmul_eq_mul,
      mul_div_cancel_left₀ _ (by exact_mod_cast hn.ne')]

/-- Three pixels, the last without weight, and one constant template. -/
def badPixel (y : ℝ) : Problem := ⟨3, fun i => if i = 2 then y else 0, fun i => if i = 2 then 0 else 1, [[1, 1, 1]]⟩

/-- C174.  A pixel of inverse variance 0 has no influence on the coefficients but decides over the goodness of fit. -/
theorem bad_pixel_counts (pinv : Pinv) (y : ℝ) : (badPixel y).coeff pinv 0 = 0 ∧ (badPixel y).rchi2 pinv 0 = y ^ 2 / 2 := by
  have hu : (badPixel y).useweights = true := by
    simp only [Problem.useweights, badPixel, List.any_eq_true, List.mem_range, decide_eq_true_eq]
    exact ⟨2, by norm_num, by norm_num⟩
  have hc : (badPixel y).coeff pinv 0 = 0 := by
    unfold Problem.coeff fit
    rw [hu, if_pos rfl]
    have hv : (((badPixel y).A 0)ᵀ * diagonal ((badPixel y).w 0)) *ᵥ (badPixel y).v 0 = 0 := by
      rw [← mulVec_mulVec]
      have : diagonal ((badPixel y).w 0) *ᵥ (badPixel y).v 0 = 0 := by
        funext i
        rw [mulVec_diagonal]
        unfold Problem.w Problem.v badPixel
        change _ = (0 : ℝ)
        simp only
        split <;> simp
      rw [this, mulVec_zero]
    have hd : (((badPixel y).A 0)ᵀ * diagonal ((badPixel y).w 0) * (badPixel y).A 0).det ≠ 0 := by
      have e : (((badPixel y).A 0)ᵀ * diagonal ((badPixel y).w 0) * (badPixel y).A 0) = fun _ _ => (2 : ℝ) := by
        funext i j
        rw [Matrix.mul_apply]
        have hA : ∀ (a : Fin 3) (b : Fin 1), (badPixel y).A 0 a b = 1 := by
          intro a b
          have ha := a.isLt
          unfold Problem.A tmat badPixel tstart
          fin_cases a <;> fin_cases b <;> simp
        have hW : ∀ a : Fin 3, (((badPixel y).A 0)ᵀ * diagonal ((badPixel y).w 0)) i a = if (a : ℕ) = 2 then 0 else 1 := by
          intro a
          refine (Matrix.mul_diagonal _ _ _ _).trans ?_
          refine (congrArg (· * _) (hA a i)).trans ?_
          rw [one_mul]
          unfold Problem.w badPixel ystart
          simp
        show ∑ a : Fin 3, (((badPixel y).A 0)ᵀ * diagonal ((badPixel y).w 0)) i a * (badPixel y).A 0 a j = 2
        have hs : ∀ a : Fin 3, (((badPixel y).A 0)ᵀ * diagonal ((badPixel y).w 0)) i a * (badPixel y).A 0 a j = if (a : ℕ) = 2 then 0 else 1 := by
          intro a
          rw [hW a]
          exact (congrArg (_ * ·) (hA a j)).trans (mul_one _)
        rw [Finset.sum_congr rfl (fun a _ => hs a), Fin.sum_univ_three]
        norm_num
      rw [e]
      have : Matrix.det (fun _ _ => (2 : ℝ) : Matrix (Fin 1) (Fin 1) ℝ) = 2 := Matrix.det_fin_one _
      intro h
      exact two_ne_zero (this.symm.trans h)
    rw [if_neg hd, hv, mulVec_zero]
  refine ⟨hc, ?_⟩
  unfold Problem.rchi2 Problem.fitted
  rw [hc, mulVec_zero]
  have h1 : ((List.range (badPixel y).n).filter fun i => decide ((badPixel y).ivar i ≠ 0)).length = 2 := by
    simp [badPixel, List.range_succ, List.filter_cons]
  rw [h1]
  show (∑ i : Fin 3, ((badPixel y).v 0 i - (0 : Fin 3 → ℝ) i) * ((badPixel y).v 0 i - (0 : Fin 3 → ℝ) i)) / _ = _
  rw [Fin.sum_univ_three]
  simp [Problem.v, badPixel, ystart]
  ring

example : order [2, 0, -1, 1, -3] = [-1, -3, 0, 2, 1] := by decide

example : (badPixel 4).templates.length ≠ (badPixel 4).n := by simp [badPixel]

end

end Verif.ZFind
