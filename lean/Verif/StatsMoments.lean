import Mathlib.Data.Real.Basic
import Mathlib.Analysis.Real.Sqrt
import Mathlib.Algebra.BigOperators.Pi
import Mathlib.Algebra.BigOperators.Ring.Finset
import Mathlib.Algebra.BigOperators.Fin
import Mathlib.Algebra.BigOperators.Field
import Mathlib.Tactic.Linarith
import Mathlib.Tactic.FieldSimp
import Mathlib.Tactic.FinCases
import Mathlib.Tactic.NormNum

/-!
# Moments of n-dimensional arrays (astropysics/utils/stats.py 62-143) (C94)

Arrays of real numbers of any number `d > 0` of dimensions and any shape; orders are natural numbers.  `axes.reshape` and broadcasting
are the evaluation of each axis at its own index.  `0/0` (a normalisation by a vanishing sum, numpy: nan) is 0 in Lean; the theorems
about normalised moments assume a nonzero sum.
-/

namespace Verif.StatsMoments

/-- An array of shape `shp`. -/
abbrev Arr {d : Nat} (shp : Fin d → Nat) := (∀ i, Fin (shp i)) → ℝ

inductive Err
  | value
deriving DecidableEq, Repr

/-- The order of the moment: a scalar or a sequence. -/
inductive Order
  | scalar (m : Nat)
  | seq (ms : List Nat)

/-- The result: one number per dimension, or one number. -/
inductive Res (d : Nat)
  | array (v : Fin d → ℝ)
  | num (x : ℝ)

variable {d : Nat} {shp : Fin d → Nat}

/-- stats.py 107-116: the default axes `arange(s)`, or the given ones if their number and lengths match. -/
def checkAxes (shp : Fin d → Nat) : Option (List (List ℝ)) → Except Err ((i : Fin d) → Fin (shp i) → ℝ)
  | none => .ok (fun _ k => (k.1 : ℝ))
  | some axes =>
    if axes.length ≠ d then .error .value
    else if ∀ i : Fin d, (axes.getD i []).length = shp i then .ok (fun i k => (axes.getD i []).getD k 0)
    else .error .value

/-- `np.std` of one axis. -/
noncomputable def stdAxis {s : Nat} (ax : Fin s → ℝ) : ℝ := Real.sqrt ((∑ k, (ax k - (∑ j, ax j) / s) ^ 2) / s)

/-- `moments(arr,ms,axes,bgmethod,norm,std)`, stats.py 62-143; `bg` is the background estimate of the array, if there is one to subtract
(`if bgmethod:`). -/
noncomputable def moments (arr : Arr shp) (ms : Order) (axes : Option (List (List ℝ))) (bg : Option (Arr shp → ℝ)) (norm std : Bool) :
    Except Err (Res d) :=
  let arr : Arr shp := match bg with | none => arr | some f => fun p => arr p - f arr
  match checkAxes shp axes with
  | .error e => .error e
  | .ok ax =>
    match ms with
    | .scalar m =>
      let res : Fin d → ℝ := fun i => ∑ p, arr p * ax i (p i) ^ m
      let res := if std then fun i => res i / stdAxis (ax i) ^ m else res
      .ok (.array (if norm then fun i => res i / ∑ p, arr p else res))
    | .seq l =>
      if l.length ≠ d then .error .value
      else
        let res := ∑ p, arr p * ∏ i : Fin d, ax i (p i) ^ l.getD i 0
        let res := if std then res / ∏ i : Fin d, stdAxis (ax i) ^ l.getD i 0 else res
        .ok (.num (if norm then res / ∑ p, arr p else res))

/-! ## Properties -/

/-- Positions given as one list per dimension, of the right lengths. -/
def listAxes (ax : (i : Fin d) → Fin (shp i) → ℝ) : List (List ℝ) := List.ofFn fun i => List.ofFn (ax i)

theorem checkAxes_list (ax : (i : Fin d) → Fin (shp i) → ℝ) : checkAxes shp (some (listAxes ax)) = .ok ax := by
  have e : ∀ i : Fin d, (listAxes ax).getD i [] = List.ofFn (ax i) := by
    intro i
    simp [listAxes, List.getD]
  simp only [checkAxes]
  rw [if_neg (by simp [listAxes]), if_pos (by intro i; rw [e i]; simp)]
  congr 1
  funext i k
  rw [e i]
  simp [List.getD]

/-- C94: the default positions are the indices. -/
theorem default_axes (arr : Arr shp) (ms : Order) (bg : Option (Arr shp → ℝ)) (norm std : Bool) :
    moments arr ms none bg norm std = moments arr ms (some (listAxes (shp := shp) fun _ k => (k.1 : ℝ))) bg norm std := by
  unfold moments
  rw [checkAxes_list]
  rfl

/-- C94: a wrong number of positions or orders raises ValueError, and nothing else does. -/
theorem raises_iff (arr : Arr shp) (ms : Order) (axes : Option (List (List ℝ))) (bg : Option (Arr shp → ℝ)) (norm std : Bool) :
    (∃ e, moments arr ms axes bg norm std = .error e) ↔
      (∃ l, axes = some l ∧ (l.length ≠ d ∨ ∃ i : Fin d, (l.getD i []).length ≠ shp i)) ∨ ∃ l, ms = .seq l ∧ l.length ≠ d := by
  have hax : (∃ e, checkAxes shp axes = .error e) ↔ ∃ l, axes = some l ∧ (l.length ≠ d ∨ ∃ i : Fin d, (l.getD i []).length ≠ shp i) := by
    cases axes with
    | none => simp [checkAxes]
    | some l =>
      simp only [Option.some.injEq, exists_eq_left', checkAxes]
      by_cases h1 : l.length = d
      · rw [if_neg (not_not.2 h1)]
        by_cases h2 : ∀ i : Fin d, (l.getD i []).length = shp i
        · rw [if_pos h2]
          simp only [reduceCtorEq, exists_false, h1, ne_eq, not_true_eq_false, false_or, false_iff, not_exists, not_not]
          exact h2
        · rw [if_neg h2]
          push Not at h2
          exact ⟨fun _ => .inr h2, fun _ => ⟨_, rfl⟩⟩
      · rw [if_pos h1]
        exact ⟨fun _ => .inl h1, fun _ => ⟨_, rfl⟩⟩
  unfold moments
  rw [← hax]
  cases hc : checkAxes shp axes with
  | error e => exact ⟨fun _ => .inl ⟨e, rfl⟩, fun _ => ⟨e, rfl⟩⟩
  | ok ax =>
    cases ms with
    | scalar m => simp
    | seq l =>
      by_cases hl : l.length = d
      · simp [hl]
      · exact ⟨fun _ => .inr ⟨l, rfl, hl⟩, fun _ => ⟨.value, by simp [hl]⟩⟩

/-- The raw moment of order `ms` about the origin of the positions `x`, relative to the total: `Σ arr·Π xᵢ^mᵢ / Σ arr`. -/
noncomputable def rawMoment (arr : Arr shp) (x : (i : Fin d) → Fin (shp i) → ℝ) (ms : Fin d → Nat) : ℝ :=
  (∑ p, arr p * ∏ i, x i (p i) ^ ms i) / ∑ p, arr p

/-- C94: the value for a sequence of orders. -/
theorem seq_value (arr : Arr shp) (x : (i : Fin d) → Fin (shp i) → ℝ) (ms : Fin d → Nat) :
    moments arr (.seq (List.ofFn ms)) (some (listAxes x)) none true false = .ok (.num (rawMoment arr x ms)) ∧
    moments arr (.seq (List.ofFn ms)) (some (listAxes x)) none false false = .ok (.num (∑ p, arr p * ∏ i, x i (p i) ^ ms i)) := by
  have e : ∀ i : Fin d, (List.ofFn ms).getD i 0 = ms i := by intro i; simp [List.getD]
  constructor <;>
  · unfold moments
    rw [checkAxes_list]
    simp [e, rawMoment]

/-- The orders that are `m` along dimension `i` and zero along the others. -/
def single (i : Fin d) (m : Nat) : Fin d → Nat := fun j => if j = i then m else 0

theorem prod_single (x : (i : Fin d) → Fin (shp i) → ℝ) (p : ∀ i, Fin (shp i)) (i : Fin d) (m : Nat) :
    ∏ j, x j (p j) ^ single i m j = x i (p i) ^ m := by
  rw [Finset.prod_eq_single i]
  · simp [single]
  · intro j _ hj; simp [single, hj]
  · intro h; exact absurd (Finset.mem_univ i) h

/-- C94: a scalar order gives, for every dimension, the moment of that order along it (and of order zero along the others). -/
theorem scalar_value (arr : Arr shp) (x : (i : Fin d) → Fin (shp i) → ℝ) (m : Nat) :
    moments arr (.scalar m) (some (listAxes x)) none true false = .ok (.array fun i => rawMoment arr x (single i m)) := by
  unfold moments
  rw [checkAxes_list]
  simp only [Bool.false_eq_true, if_false, if_true, rawMoment, prod_single]

/-- C94: subtracting a background is taking the moments of the difference. -/
theorem background_subtracted (arr : Arr shp) (ms : Order) (axes : Option (List (List ℝ))) (f : Arr shp → ℝ) (norm std : Bool) :
    moments arr ms axes (some f) norm std = moments (fun p => arr p - f arr) ms axes none norm std := rfl

/-- C94: the zeroth normalised moment is one; multiplying the array by a factor changes nothing. -/
theorem normalised (arr : Arr shp) (x : (i : Fin d) → Fin (shp i) → ℝ) (hs : ∑ p, arr p ≠ 0) :
    rawMoment arr x (fun _ => 0) = 1 ∧ ∀ (k : ℝ), k ≠ 0 → ∀ ms, rawMoment (fun p => k * arr p) x ms = rawMoment arr x ms := by
  constructor
  · unfold rawMoment
    simp [hs]
  · intro k hk ms
    unfold rawMoment
    simp only [mul_assoc]
    rw [← Finset.mul_sum, ← Finset.mul_sum, mul_div_mul_left _ _ hk]

/-- C94: shifting the positions shifts the first moments, scaling them scales the moments with the powers of the factors. -/
theorem shift_scale (arr : Arr shp) (x : (i : Fin d) → Fin (shp i) → ℝ) (hs : ∑ p, arr p ≠ 0) (c : Fin d → ℝ) (ms : Fin d → Nat) (i : Fin d) :
    rawMoment arr (fun j k => x j k + c j) (single i 1) = rawMoment arr x (single i 1) + c i ∧
    rawMoment arr (fun j k => c j * x j k) ms = (∏ j, c j ^ ms j) * rawMoment arr x ms := by
  constructor
  · unfold rawMoment
    have e1 : ∀ p : (∀ i, Fin (shp i)), ∏ j, (fun j k => x j k + c j) j (p j) ^ single i 1 j = x i (p i) + c i := by
      intro p
      rw [prod_single (fun j k => x j k + c j) p i 1, pow_one]
    have e2 : ∀ p : (∀ i, Fin (shp i)), ∏ j, x j (p j) ^ single i 1 j = x i (p i) := by
      intro p
      rw [prod_single x p i 1, pow_one]
    simp only [e1, e2, mul_add]
    rw [Finset.sum_add_distrib, ← Finset.sum_mul]
    field_simp
  · unfold rawMoment
    rw [← mul_div_assoc, Finset.mul_sum]
    congr 1
    apply Finset.sum_congr rfl
    intro p _
    simp only [mul_pow, Finset.prod_mul_distrib]
    ring

/-- C94: the moments of a product of one-dimensional profiles are the products of their moments. -/
theorem separable (f x : (i : Fin d) → Fin (shp i) → ℝ) (ms : Fin d → Nat) :
    rawMoment (fun p => ∏ i, f i (p i)) x ms = ∏ i, ((∑ k, f i k * x i k ^ ms i) / ∑ k, f i k) := by
  unfold rawMoment
  rw [Finset.prod_div_distrib, Finset.prod_univ_sum, Finset.prod_univ_sum]
  simp only [Fintype.piFinset_univ, ← Finset.prod_mul_distrib]

/-- C94: all of the light at one place: every moment is that of the place. -/
theorem point_source (x : (i : Fin d) → Fin (shp i) → ℝ) (p0 : ∀ i, Fin (shp i)) (a : ℝ) (ha : a ≠ 0) (ms : Fin d → Nat) :
    rawMoment (fun p => if p = p0 then a else 0) x ms = ∏ i, x i (p0 i) ^ ms i := by
  unfold rawMoment
  simp only [ite_mul, zero_mul, Finset.sum_ite_eq', Finset.mem_univ, if_true]
  rw [mul_div_assoc, mul_comm, div_mul_cancel₀ _ ha]

/-- C94: with nonnegative values the centroid lies within the range of the positions. -/
theorem centroid_within (arr : Arr shp) (x : (i : Fin d) → Fin (shp i) → ℝ) (h0 : ∀ p, 0 ≤ arr p) (hs : ∑ p, arr p ≠ 0) (i : Fin d) (lo hi : ℝ)
    (hx : ∀ k, lo ≤ x i k ∧ x i k ≤ hi) : lo ≤ rawMoment arr x (single i 1) ∧ rawMoment arr x (single i 1) ≤ hi := by
  have hpos : 0 < ∑ p, arr p := lt_of_le_of_ne (Finset.sum_nonneg fun p _ => h0 p) (Ne.symm hs)
  unfold rawMoment
  simp only [prod_single, pow_one]
  constructor
  · rw [le_div_iff₀ hpos, Finset.mul_sum]
    apply Finset.sum_le_sum
    intro p _
    rw [mul_comm]
    exact mul_le_mul_of_nonneg_left (hx (p i)).1 (h0 p)
  · rw [div_le_iff₀ hpos, Finset.mul_sum]
    apply Finset.sum_le_sum
    intro p _
    rw [mul_comm hi]
    exact mul_le_mul_of_nonneg_left (hx (p i)).2 (h0 p)

/-- The standard deviation of the positions weighted by the array, which is what "standardized" refers to. -/
noncomputable def weightedStd (arr : Arr shp) (x : (i : Fin d) → Fin (shp i) → ℝ) (i : Fin d) : ℝ :=
  Real.sqrt (rawMoment arr x (single i 2) - rawMoment arr x (single i 1) ^ 2)

/-- A one-dimensional image with all of its light in the two outer pixels of three. -/
def pixels : Arr (fun _ : Fin 1 => 3) := fun p => if p 0 = 1 then 0 else 1

theorem sum_pixels (f : (∀ _ : Fin 1, Fin 3) → ℝ) : ∑ p, f p = ∑ k : Fin 3, f (fun _ => k) := by
  apply Fintype.sum_equiv (Equiv.funUnique (Fin 1) (Fin 3))
  intro p
  congr 1
  funext i
  rw [Subsingleton.elim i 0]
  rfl

/-- C94 fails for `std`: the moments are divided by powers of the standard deviation of the grid, not of the distribution: here the distribution
has standard deviation 1, the grid has 2/3 as variance, and the standardized second moment is 3 instead of 2. -/
theorem std_of_grid :
    weightedStd pixels (fun _ k => (k.1 : ℝ)) 0 = 1 ∧
    ∃ v, moments pixels (.scalar 2) none none true true = .ok (.array v) ∧ v 0 = 3 ∧
      ∃ w, moments pixels (.scalar 2) none none true false = .ok (.array w) ∧ w 0 = 2 := by
  have hsum : ∑ p, pixels p = 2 := by
    rw [sum_pixels]; simp [Fin.sum_univ_three, pixels]; norm_num
  have hm : ∀ m : Nat, ∑ p : (∀ _ : Fin 1, Fin 3), pixels p * ((p 0).1 : ℝ) ^ (m + 1) = 2 ^ (m + 1) := by
    intro m
    rw [sum_pixels]
    simp [Fin.sum_univ_three, pixels]
  refine ⟨?_, _, rfl, ?_, _, rfl, ?_⟩
  · unfold weightedStd rawMoment
    simp only [prod_single (shp := fun _ : Fin 1 => 3) (fun _ k => (k.1 : ℝ))]
    rw [hm 1, hm 0, hsum]
    norm_num
  · have hstd : stdAxis (s := 3) (fun k => (k.1 : ℝ)) ^ 2 = 2 / 3 := by
      unfold stdAxis
      rw [Real.sq_sqrt]
      · simp [Fin.sum_univ_three]; norm_num
      · apply div_nonneg (Finset.sum_nonneg fun k _ => sq_nonneg _); norm_num
    show (∑ p : (∀ _ : Fin 1, Fin 3), pixels p * ((p 0).1 : ℝ) ^ (1 + 1)) / stdAxis (s := 3) (fun k => (k.1 : ℝ)) ^ 2 / ∑ p, pixels p = 3
    rw [hm 1, hstd, hsum]
    norm_num
  · show (∑ p : (∀ _ : Fin 1, Fin 3), pixels p * ((p 0).1 : ℝ) ^ (1 + 1)) / ∑ p, pixels p = 2
    rw [hm 1, hsum]
    norm_num

/-- C94: what `std` does: it divides by the powers of the standard deviations of the positions. -/
theorem std_value (arr : Arr shp) (x : (i : Fin d) → Fin (shp i) → ℝ) (ms : Fin d → Nat) (norm : Bool) :
    ∃ r, moments arr (.seq (List.ofFn ms)) (some (listAxes x)) none norm false = .ok (.num r) ∧
      moments arr (.seq (List.ofFn ms)) (some (listAxes x)) none norm true = .ok (.num (r / ∏ i, stdAxis (x i) ^ ms i)) := by
  have e : ∀ i : Fin d, (List.ofFn ms).getD i 0 = ms i := by intro i; simp [List.getD]
  unfold moments
  rw [checkAxes_list]
  cases norm
  · simp [e]
  · simp [e, div_right_comm]

/-- Integer arrays: with a scalar order the array of moments is of integers, and the in-place division by the sum keeps it so (numpy truncates; later
versions raise TypeError). -/
def intMoments1 (arr : List Int) (m : Nat) : Int :=
  (arr.zipIdx.map fun p => p.1 * (p.2 : Int) ^ m).sum.tdiv arr.sum

/-- C94 fails for integer arrays: the centroid of an integer image is truncated to an integer. -/
theorem integer_truncated : intMoments1 [1, 1, 1, 1] 1 = 1 ∧ ((0 + 1 + 2 + 3 : ℚ) / 4 = 3 / 2) := by
  constructor
  · decide
  · norm_num

/-- A two-dimensional image that meets the hypotheses. -/
example : ∑ p : (∀ _ : Fin 2, Fin 3), (fun _ => (1 : ℝ)) p ≠ 0 := by simp

end Verif.StatsMoments
