import Mathlib.LinearAlgebra.Matrix.NonsingularInverse
import Mathlib.LinearAlgebra.Matrix.Trace
import Mathlib.Analysis.SpecialFunctions.Pow.Real
import Mathlib.Analysis.Real.Sqrt
import Mathlib.Algebra.BigOperators.Field
import Mathlib.Tactic.Linarith
import Mathlib.Tactic.Ring
import Mathlib.Tactic.FieldSimp

/-!
# Principal component analysis (astropysics/utils/stats.py 277-510) (C93)

`n` data points in `p` dimensions, exact real arithmetic.  `np.linalg.eig` is a parameter: the eigenvalues `lam` and the matrix `V` with the
eigenvectors as columns, already sorted.
-/

namespace Verif.StatsPca

open Matrix

variable {n p : Nat}

/-- Array with one row per data point (`self.A`, stats.py 306). -/
abbrev Data (n p : Nat) := Matrix (Fin n) (Fin p) ℝ

/-- `np.mean(A,axis=0)`. -/
noncomputable def mean (A : Data n p) (j : Fin p) : ℝ := (∑ i, A i j) / n

/-- `M = A-np.mean(A,axis=0)`, stats.py 288. -/
noncomputable def centred (A : Data n p) : Data n p := fun i j => A i j - mean A j

/-- `np.std(X,axis=0)`. -/
noncomputable def std (X : Data n p) (j : Fin p) : ℝ := Real.sqrt ((∑ i, (X i j - mean X j) ^ 2) / n)

/-- `N = M/np.std(M,axis=0)`, stats.py 289 (meaningful if no column is constant). -/
noncomputable def normed (A : Data n p) : Data n p := fun i j => centred A i j / std (centred A) j

/-- `np.cov(self.N.T)`, stats.py 320-327: numpy subtracts the mean of every variable and divides by `n-1`. -/
noncomputable def covariance (A : Data n p) : Matrix (Fin p) (Fin p) ℝ :=
  fun j k => (∑ i, (normed A i j - mean (normed A) j) * (normed A i k - mean (normed A) k)) / (n - 1)

/-- `getEnergies`, stats.py 354-360. -/
noncomputable def energies (lam : Fin p → ℝ) (k : Fin p) : ℝ := lam k / ∑ j, lam j

inductive Err
  | value | attribute
deriving DecidableEq, Repr

/-- How many components `project` keeps: everything, the first `q` (`q ≤ p`), or by energy. -/
inductive Keep (p : Nat)
  | all
  | first (q : Nat)
  | enthresh (e : ℝ)
  | cumen (e : ℝ)

/-- `proj = np.matrix(self.getEigenvectors()).T*vals`, transposed (stats.py 463-464); `vals` with one row per data point. -/
def scores (V : Matrix (Fin p) (Fin p) ℝ) (vals : Data n p) : Data n p := (Vᵀ * valsᵀ)ᵀ

/-- `project(vals,enthresh,nPCs,cumen)`, stats.py 431-464: an `n` x `q` array.  The two energy thresholds call `self.energies()`, which does
not exist. -/
def project (V : Matrix (Fin p) (Fin p) ℝ) (vals : Data n p) : Keep p → Except Err ((q : Nat) × Data n q)
  | .all => .ok ⟨p, scores V vals⟩
  | .first q => if h : q ≤ p then .ok ⟨q, fun i k => scores V vals i (Fin.castLE h k)⟩ else .ok ⟨p, scores V vals⟩
  | .enthresh _ => .error .attribute
  | .cumen _ => .error .attribute

/-- `zs[:,:q]=A`, stats.py 481-482. -/
def padded {q : Nat} (P : Data n q) : Data n p := fun i k => if h : k.1 < q then P i ⟨k.1, h⟩ else 0

/-- `deproject(A,normed)`, stats.py 466-490: a `p` x `n` array. -/
noncomputable def deproject (V : Matrix (Fin p) (Fin p) ℝ) (A : Data n p) {m q : Nat} (P : Data m q) (norm : Bool) :
    Except Err (Matrix (Fin p) (Fin m) ℝ) :=
  if p < q then .error .value
  else
    let proj := (Vᵀ)⁻¹ * (padded (p := p) P)ᵀ
    if norm then .ok proj
    else .ok (Matrix.of fun j i => proj j i * std (centred A) j + mean A j)

/-- `zpcs[:,pc]=pcs[:,pc]`, stats.py 505-507: the scores of the chosen components, all others zero. -/
noncomputable def onlyPC (V : Matrix (Fin p) (Fin p) ℝ) (A : Data n p) (pc : Fin p → Bool) : Data n p :=
  Matrix.of fun i k => if pc k then (scores V (normed A)) i k else 0

/-- `subtractPC(pc)`, stats.py 492-510, with `pc` as the set of columns; the data themselves. -/
noncomputable def subtractPC (V : Matrix (Fin p) (Fin p) ℝ) (A : Data n p) (pc : Fin p → Bool) : Except Err (Data n p) :=
  match deproject V A (onlyPC V A pc) false with
  | .error e => .error e
  | .ok upc => .ok (Matrix.of fun i j => (A i j - upc j i) * std (centred A) j + mean A j)

/-- `sigclip(sigs)` with a scalar, stats.py 408-424: `sigs*np.ones(p)` is multiplied by `np.std(self.N,axis=1)`, an array of length `n`.  The
result is the mask, for more than one data point. -/
noncomputable def sigclip (N : Data n p) (sig : ℝ) : Except Err (Fin n → Prop) :=
  let rowStd : Fin n → ℝ := fun i => std Nᵀ i
  if h : n = p then .ok (fun i => ∀ j : Fin p, |N i j| < sig * rowStd (Fin.cast h.symm j))
  else if _h : p = 1 then .ok (fun i => ∀ k : Fin n, ∀ j : Fin p, |N i j| < sig * rowStd k)
  else .error .value

/-! ## Properties -/

theorem mean_centred (A : Data n p) (j : Fin p) : mean (centred A) j = 0 := by
  unfold mean centred
  rw [Finset.sum_sub_distrib]
  simp only [Finset.sum_const, Finset.card_univ, Fintype.card_fin, nsmul_eq_mul]
  by_cases hn : (n : ℝ) = 0
  · rw [hn]; simp
  · unfold mean
    rw [mul_div_cancel₀ _ hn, sub_self, zero_div]

theorem mean_normed (A : Data n p) (j : Fin p) : mean (normed A) j = 0 := by
  have := mean_centred A j
  unfold mean at this ⊢
  unfold normed
  rw [← Finset.sum_div, div_right_comm, this, zero_div]

/-- C93: the data are normalised: every component has mean zero and variance one. -/
theorem normalised (A : Data n p) (j : Fin p) (hs : std (centred A) j ≠ 0) :
    ∑ i, normed A i j = 0 ∧ ∑ i, normed A i j ^ 2 = n := by
  have hn : (n : ℝ) ≠ 0 := by
    intro h
    apply hs
    unfold std
    rw [h]; simp
  constructor
  · have := mean_normed A j
    unfold mean at this
    rw [div_eq_zero_iff] at this
    exact this.resolve_right hn
  · unfold normed
    simp only [div_pow]
    rw [← Finset.sum_div]
    have hsq : std (centred A) j ^ 2 = (∑ i, centred A i j ^ 2) / n := by
      unfold std
      rw [Real.sq_sqrt]
      · simp only [mean_centred, sub_zero]
      · apply div_nonneg _ (Nat.cast_nonneg n)
        exact Finset.sum_nonneg (fun i _ => sq_nonneg _)
    rw [hsq]
    have hne : (∑ i, centred A i j ^ 2) ≠ 0 := by
      intro h
      apply hs
      unfold std
      simp only [mean_centred, sub_zero, h]
      simp
    field_simp

/-- The covariance matrix in terms of the normalised data. -/
theorem covariance_eq (A : Data n p) : ((n : ℝ) - 1) • covariance A = (normed A)ᵀ * normed A ∨ (n : ℝ) = 1 := by
  by_cases h : (n : ℝ) = 1
  · exact .inr h
  · left
    have h' : (n : ℝ) - 1 ≠ 0 := sub_ne_zero.2 h
    ext j k
    simp only [Matrix.smul_apply, smul_eq_mul, covariance, mean_normed, sub_zero, Matrix.mul_apply, Matrix.transpose_apply]
    field_simp

theorem deproject_full (V : Matrix (Fin p) (Fin p) ℝ) (A : Data n p) {m : Nat} (Z : Data m p) :
    deproject V A Z false = .ok (Matrix.of fun j i => ((Vᵀ)⁻¹ * Zᵀ) j i * std (centred A) j + mean A j) := by
  have hpad : padded (p := p) Z = Z := by
    ext i k; simp [padded]
  unfold deproject
  simp only [lt_irrefl, if_false, hpad, Bool.false_eq_true]

/-- C93: keeping all components and going back gives the data, normalised or not. -/
theorem roundtrip (V : Matrix (Fin p) (Fin p) ℝ) (hV : IsUnit V.det) (A : Data n p) (hs : ∀ j, std (centred A) j ≠ 0) :
    ∃ q P, project V (normed A) .all = .ok ⟨q, P⟩ ∧ deproject V A P true = .ok (normed A)ᵀ ∧ deproject V A P false = .ok Aᵀ := by
  have hV' : IsUnit (Vᵀ).det := by rwa [Matrix.det_transpose]
  have hpad : (padded (p := p) (scores V (normed A))) = scores V (normed A) := by
    ext i k
    simp [padded]
  refine ⟨p, scores V (normed A), rfl, ?_, ?_⟩
  · unfold deproject
    simp only [lt_irrefl, if_false, hpad, if_true]
    simp only [scores, Matrix.transpose_transpose]
    rw [Matrix.nonsing_inv_mul_cancel_left _ _ hV']
  · have e : (Vᵀ)⁻¹ * (scores V (normed A))ᵀ = (normed A)ᵀ := by
      simp only [scores, Matrix.transpose_transpose]
      rw [Matrix.nonsing_inv_mul_cancel_left _ _ hV']
    rw [deproject_full, e]
    congr 1
    ext j i
    rw [Matrix.of_apply]
    simp only [Matrix.transpose_apply, normed, centred]
    have := hs j
    rw [div_mul_cancel₀]
    · ring
    · exact this

/-- C93: the scores of the first `q` components survive the trip to data space and back, for any scores `P` (so that projecting and going
back repeatedly changes nothing after the first time). -/
theorem truncated_roundtrip (V : Matrix (Fin p) (Fin p) ℝ) (hV : IsUnit V.det) (A : Data n p) {m q : Nat} (hq : q ≤ p) (P : Data m q) :
    ∃ X, deproject V A P true = .ok X ∧ project V Xᵀ (.first q) = .ok ⟨q, P⟩ := by
  have hV' : IsUnit (Vᵀ).det := by rwa [Matrix.det_transpose]
  refine ⟨(Vᵀ)⁻¹ * (padded (p := p) P)ᵀ, ?_, ?_⟩
  · unfold deproject
    simp [not_lt.2 hq]
  · unfold project
    simp only [hq, dif_pos, scores, Matrix.transpose_transpose, Matrix.mul_nonsing_inv_cancel_left _ _ hV']
    congr 2
    ext i k
    simp [padded]

/-- C93: with orthonormal eigenvectors the scores are uncorrelated, with the eigenvalues as variances. -/
theorem scores_uncorrelated (V : Matrix (Fin p) (Fin p) ℝ) (lam : Fin p → ℝ) (A : Data n p) (hn : (n : ℝ) ≠ 1)
    (hV : Vᵀ * V = 1) (heig : covariance A * V = V * diagonal lam) (k l : Fin p) :
    ∑ i, scores V (normed A) i k * scores V (normed A) i l = if k = l then (n - 1) * lam k else 0 := by
  have hc := (covariance_eq A).resolve_right hn
  have e : (scores V (normed A))ᵀ * scores V (normed A) = ((n : ℝ) - 1) • diagonal lam := by
    unfold scores
    rw [Matrix.transpose_transpose, Matrix.transpose_mul, Matrix.transpose_transpose, Matrix.transpose_transpose, Matrix.mul_assoc,
      ← Matrix.mul_assoc _ (normed A), ← hc, Matrix.smul_mul, heig, Matrix.mul_smul, ← Matrix.mul_assoc, hV, Matrix.one_mul]
  have := congrFun (congrFun e k) l
  simp only [Matrix.mul_apply, Matrix.transpose_apply, Matrix.smul_apply, smul_eq_mul, Matrix.diagonal_apply] at this
  rw [this]
  split <;> simp

/-- C93: the eigenvalues add up to `p n/(n-1)`, the total variance, and are nonnegative; the energies are a partition of one. -/
theorem energies_sum (V : Matrix (Fin p) (Fin p) ℝ) (lam : Fin p → ℝ) (A : Data n p) (hp : 0 < p) (hn : 2 ≤ n)
    (hs : ∀ j, std (centred A) j ≠ 0) (hV : Vᵀ * V = 1) (heig : covariance A * V = V * diagonal lam) :
    ∑ k, lam k = p * n / (n - 1) ∧ (∀ k, 0 ≤ lam k) ∧ ∑ k, energies lam k = 1 ∧ ∀ k, 0 ≤ energies lam k := by
  have hn2 : (2 : ℝ) ≤ n := by exact_mod_cast hn
  have hn1 : (n : ℝ) ≠ 1 := by linarith
  have hn0 : (0 : ℝ) < n - 1 := by linarith
  have hc := (covariance_eq A).resolve_right hn1
  have htr : Matrix.trace (covariance A) = ∑ k, lam k := by
    have h1 : Matrix.trace (Vᵀ * (covariance A * V)) = Matrix.trace (covariance A) := by
      rw [← Matrix.mul_assoc, Matrix.trace_mul_comm, ← Matrix.mul_assoc]
      have : V * Vᵀ = 1 := mul_eq_one_comm.1 hV
      rw [this, Matrix.one_mul]
    rw [← h1, heig, ← Matrix.mul_assoc, hV, Matrix.one_mul, Matrix.trace_diagonal]
  have htr2 : ((n : ℝ) - 1) * Matrix.trace (covariance A) = p * n := by
    rw [← smul_eq_mul, ← Matrix.trace_smul, hc]
    simp only [Matrix.trace, Matrix.diag_apply, Matrix.mul_apply, Matrix.transpose_apply]
    have : ∀ j : Fin p, ∑ i, normed A i j * normed A i j = n := by
      intro j
      rw [← (normalised A j (hs j)).2]
      exact Finset.sum_congr rfl (fun i _ => by ring)
    simp only [this]
    simp
  have hsum : ∑ k, lam k = p * n / (n - 1) := by
    rw [← htr, eq_div_iff hn0.ne']; linarith
  have hnn : ∀ k, 0 ≤ lam k := by
    intro k
    have := scores_uncorrelated V lam A hn1 hV heig k k
    simp only [if_true] at this
    have h2 : 0 ≤ ∑ i, scores V (normed A) i k * scores V (normed A) i k := Finset.sum_nonneg (fun i _ => mul_self_nonneg _)
    rw [this] at h2
    exact nonneg_of_mul_nonneg_right h2 hn0
  have hpos : 0 < ∑ k, lam k := by
    rw [hsum]
    have : (0 : ℝ) < p := by exact_mod_cast hp
    positivity
  refine ⟨hsum, hnn, ?_, fun k => div_nonneg (hnn k) hpos.le⟩
  unfold energies
  rw [← Finset.sum_div, div_self hpos.ne']

/-- C93: what is lost by keeping only the first `q` components: the squared distance between the data and their reconstruction is the sum
of the squared scores left out, that is `(n-1)` times the sum of the smaller eigenvalues. -/
theorem reconstruction_error (V : Matrix (Fin p) (Fin p) ℝ) (lam : Fin p → ℝ) (A : Data n p) (hn : (n : ℝ) ≠ 1) (q : Nat) (hq : q ≤ p)
    (hV : Vᵀ * V = 1) (heig : covariance A * V = V * diagonal lam) :
    ∃ P X, project V (normed A) (.first q) = .ok ⟨q, P⟩ ∧ deproject V A P true = .ok X ∧
      ∑ i, ∑ j, (normed A i j - X j i) ^ 2 = (n - 1) * ∑ k, if q ≤ k.1 then lam k else 0 := by
  have hVV : V * Vᵀ = 1 := mul_eq_one_comm.1 hV
  have hinv : (Vᵀ)⁻¹ = V := Matrix.inv_eq_right_inv hV
  refine ⟨fun i k => scores V (normed A) i (Fin.castLE hq k), _, by simp [project, hq], by simp [deproject, not_lt.2 hq]; rfl, ?_⟩
  rw [hinv]
  set S := scores V (normed A) with hS
  -- the reconstruction error in score space
  let R : Data n p := fun i k => if q ≤ k.1 then S i k else 0
  have hpad : (padded (p := p) fun i (k : Fin q) => S i (Fin.castLE hq k)) = S - R := by
    ext i k
    rw [Matrix.sub_apply]
    simp only [padded, R]
    by_cases h : k.1 < q
    · simp [h, not_le.2 h, Fin.castLE]
    · simp [h, not_lt.1 h]
  have hN : normed A = S * Vᵀ := by
    rw [hS]
    unfold scores
    rw [Matrix.transpose_mul, Matrix.transpose_transpose, Matrix.transpose_transpose, Matrix.mul_assoc, hVV, Matrix.mul_one]
  have hdiff : ∀ i j, normed A i j - (V * (padded (p := p) fun i (k : Fin q) => S i (Fin.castLE hq k))ᵀ) j i = (R * Vᵀ) i j := by
    intro i j
    rw [hpad]
    have : (V * (S - R)ᵀ) j i = ((S - R) * Vᵀ) i j := by
      rw [← Matrix.transpose_apply (V * (S - R)ᵀ), Matrix.transpose_mul, Matrix.transpose_transpose]
    rw [this, Matrix.sub_mul, ← hN]
    simp
  simp only [hdiff]
  have hnorm : ∀ i, ∑ j, (R * Vᵀ) i j ^ 2 = ∑ k, R i k ^ 2 := by
    intro i
    have h1 : (R * Vᵀ * (R * Vᵀ)ᵀ) i i = (R * Rᵀ) i i := by
      rw [Matrix.transpose_mul, Matrix.transpose_transpose, Matrix.mul_assoc, ← Matrix.mul_assoc Vᵀ, hV, Matrix.one_mul]
    rw [Matrix.mul_apply, Matrix.mul_apply] at h1
    simpa only [Matrix.transpose_apply, ← pow_two] using h1
  simp only [hnorm]
  rw [Finset.sum_comm, Finset.mul_sum]
  apply Finset.sum_congr rfl
  intro k _
  by_cases h : q ≤ k.1
  · simp only [R, h, if_true]
    have := scores_uncorrelated V lam A hn hV heig k k
    simp only [if_true] at this
    rw [← this]
    exact Finset.sum_congr rfl (fun i _ => by rw [pow_two])
  · simp [R, h]

/-- C93 fails for the energy thresholds: `project(enthresh=...)` and `project(cumen=...)` always raise AttributeError. -/
theorem energy_thresholds_fail (V : Matrix (Fin p) (Fin p) ℝ) (vals : Data n p) (e : ℝ) :
    project V vals (.enthresh e) = .error .attribute ∧ project V vals (.cumen e) = .error .attribute := ⟨rfl, rfl⟩

/-- More scores than components are rejected. -/
theorem deproject_error_iff (V : Matrix (Fin p) (Fin p) ℝ) (A : Data n p) {m q : Nat} (P : Data m q) (norm : Bool) :
    deproject V A P norm = .error .value ↔ p < q := by
  unfold deproject
  constructor
  · intro h
    by_contra hc
    simp only [hc, if_false] at h
    split at h <;> simp at h
  · intro h; simp [h]

/-- C93 fails for `subtractPC`: the data without the components `pc` would be `A - comp * std`, with `comp` the part of the normalised data
along these components; the difference to the mean is multiplied by the standard deviation once more.  The result is right
exactly if every component has standard deviation one or nothing left. -/
theorem subtractPC_iff (V : Matrix (Fin p) (Fin p) ℝ) (A : Data n p) (pc : Fin p → Bool) (comp : Data n p)
    (hcomp : compᵀ = (Vᵀ)⁻¹ * (diagonal (fun k => if pc k then (1 : ℝ) else 0) * (Vᵀ * (normed A)ᵀ))) :
    ∃ B, subtractPC V A pc = .ok B ∧
      ((∀ i j, B i j = A i j - comp i j * std (centred A) j) ↔
        ∀ i j, std (centred A) j = 1 ∨ centred A i j = comp i j * std (centred A) j) := by
  have honly : (onlyPC V A pc)ᵀ = diagonal (fun k => if pc k then (1 : ℝ) else 0) * (Vᵀ * (normed A)ᵀ) := by
    ext k i
    rw [Matrix.diagonal_mul, Matrix.transpose_apply, onlyPC, Matrix.of_apply, scores, Matrix.transpose_apply]
    split_ifs <;> simp
  rw [← honly] at hcomp
  have key : subtractPC V A pc =
      .ok (Matrix.of fun i j => (A i j - (comp i j * std (centred A) j + mean A j)) * std (centred A) j + mean A j) := by
    unfold subtractPC
    rw [deproject_full, ← hcomp]
    rfl
  refine ⟨_, key, forall_congr' fun i => forall_congr' fun j => ?_⟩
  rw [Matrix.of_apply]
  have hce : centred A i j = A i j - mean A j := rfl
  rw [hce]
  generalize std (centred A) j = sd
  constructor
  · intro h
    have : (sd - 1) * (A i j - mean A j - comp i j * sd) = 0 := by linarith
    rcases mul_eq_zero.1 this with h1 | h1
    · left; linarith
    · right; linarith
  · rintro (h | h)
    · rw [h]; ring
    · have h' : A i j = mean A j + comp i j * sd := by linarith
      rw [h']; ring

/-- C93 fails for `sigclip`: with `n` data points in `p` dimensions it raises ValueError unless `n = p` or `p = 1`; with `p = 1` it removes
every data point. -/
theorem sigclip_fails (N : Data n p) (sig : ℝ) (h : n ≠ p) :
    (p ≠ 1 → sigclip N sig = .error .value) ∧ (p = 1 → ∃ m, sigclip N sig = .ok m ∧ ∀ i, ¬ m i) := by
  constructor
  · intro hp
    simp [sigclip, h, hp]
  · intro hp
    refine ⟨fun i => ∀ k : Fin n, ∀ j : Fin p, |N i j| < sig * std Nᵀ k, by unfold sigclip; simp only; rw [dif_neg h, dif_pos hp], ?_⟩
    intro i hm
    have h1 := hm i ⟨0, by omega⟩
    have : std Nᵀ i = 0 := by
      subst hp
      unfold std mean
      simp
    rw [this, mul_zero] at h1
    exact absurd h1 (not_lt.2 (abs_nonneg _))

/-- ... and for `n = p` it compares each value with the scatter of a different data point. -/
theorem sigclip_square (N : Data n n) (sig : ℝ) :
    ∃ m, sigclip N sig = .ok m ∧ ∀ i, m i ↔ ∀ j, |N i j| < sig * std Nᵀ j := by
  refine ⟨_, by simp only [sigclip, dif_pos]; rfl, fun i => ?_⟩
  simp

/-! ## An instance -/

/-- Two points on a line: the normalised data are (1,1) and (-1,-1); eigenvectors along the diagonals, eigenvalues 4 and 0. -/
def twoPoints : Data 2 2 := !![3, 7; 1, 1]

theorem twoPoints_std : std (centred twoPoints) 0 = 1 ∧ std (centred twoPoints) 1 = 3 := by
  constructor
  · have : (∑ i, (centred twoPoints i 0 - mean (centred twoPoints) 0) ^ 2) / ((2 : ℕ) : ℝ) = 1 ^ 2 := by
      rw [mean_centred]
      simp [Fin.sum_univ_two, centred, mean, twoPoints]; norm_num
    unfold std
    rw [this]
    exact Real.sqrt_sq (by norm_num)
  · have : (∑ i, (centred twoPoints i 1 - mean (centred twoPoints) 1) ^ 2) / ((2 : ℕ) : ℝ) = 3 ^ 2 := by
      rw [mean_centred]
      simp [Fin.sum_univ_two, centred, mean, twoPoints]; norm_num
    unfold std
    rw [this]
    exact Real.sqrt_sq (by norm_num)

theorem twoPoints_normed : normed twoPoints = !![1, 1; -1, -1] := by
  ext i j
  fin_cases i <;> fin_cases j <;> simp only [normed, twoPoints_std.1, twoPoints_std.2, Fin.zero_eta, Fin.mk_one, Fin.isValue] <;>
    simp [centred, mean, twoPoints, Fin.sum_univ_two] <;> norm_num

noncomputable def diagV : Matrix (Fin 2) (Fin 2) ℝ := !![1 / Real.sqrt 2, -1 / Real.sqrt 2; 1 / Real.sqrt 2, 1 / Real.sqrt 2]

theorem diagV_orthonormal : diagVᵀ * diagV = 1 := by
  have h : Real.sqrt 2 * Real.sqrt 2 = 2 := Real.mul_self_sqrt (by norm_num)
  have h2 : Real.sqrt 2 ≠ 0 := by positivity
  ext i j
  fin_cases i <;> fin_cases j <;> simp [diagV, Matrix.mul_apply, Fin.sum_univ_two] <;> field_simp <;> nlinarith

theorem twoPoints_eig : covariance twoPoints * diagV = diagV * diagonal ![4, 0] := by
  have h2 : Real.sqrt 2 ≠ 0 := by positivity
  have hc : covariance twoPoints = !![2, 2; 2, 2] := by
    ext i j
    unfold covariance
    simp only [mean_normed, sub_zero]
    rw [twoPoints_normed]
    fin_cases i <;> fin_cases j <;> simp [Fin.sum_univ_two] <;> norm_num
  rw [hc]
  ext i j
  fin_cases i <;> fin_cases j <;> simp [diagV, Matrix.mul_apply, Fin.sum_univ_two] <;> field_simp <;> norm_num

example : ∑ k, energies ![4, 0] k = 1 :=
  (energies_sum diagV ![4, 0] twoPoints (by norm_num) (by norm_num)
    (by intro j; fin_cases j <;> simp [twoPoints_std.1, twoPoints_std.2]) diagV_orthonormal twoPoints_eig).2.2.1

example : ∃ P X, project diagV (normed twoPoints) (.first 1) = .ok ⟨1, P⟩ ∧ deproject diagV twoPoints P true = .ok X ∧
    ∑ i, ∑ j, (normed twoPoints i j - X j i) ^ 2 = 0 := by
  obtain ⟨P, X, h1, h2, h3⟩ := reconstruction_error diagV ![4, 0] twoPoints (by norm_num) 1 (by norm_num) diagV_orthonormal twoPoints_eig
  exact ⟨P, X, h1, h2, by rw [h3]; simp [Fin.sum_univ_two]⟩

end Verif.StatsPca
